import Verif.Lemmas.Choice
import Verif.Spec.Voting
import Verif.Props.Range
import Verif.Props.SumOfSquares

/-!
# Lemmas about quadratic voting
-/

set_option autoImplicit false
set_option linter.unusedSectionVars false

namespace ElasticElgamal

open Spec

/-- State of the digit-by-digit loop: `q` is the root found so far, `x` the remainder, and the next power
of 4 is `4^k / 4`. -/
theorem isqrtLoop_spec (dbg : Bool) (k : ℕ) : ∀ (x q : ℕ), x < 2 * q * 2 ^ k + 4 ^ k →
    q + 2 ^ k ≤ 2 ^ 32 → ∃ r, isqrtLoop dbg x (q * 2 ^ k) (4 ^ k / 4) = some r ∧
      r * r ≤ q * q + x ∧ q * q + x < (r + 1) * (r + 1) := by
  induction k with
  | zero =>
    intro x q hx hq
    refine ⟨q, ?_, by omega, ?_⟩
    · rw [isqrtLoop]; simp
    · have : (q + 1) * (q + 1) = q * q + 2 * q + 1 := by ring
      simp at hx
      omega
  | succ k ih =>
    intro x q hx hq
    have hp : 4 ^ (k + 1) / 4 = 4 ^ k := by rw [pow_succ]; omega
    have h4 : (4 : ℕ) ^ k = 2 ^ k * 2 ^ k := by
      rw [show (4 : ℕ) = 2 * 2 from rfl, mul_pow]
    have hpos : 0 < 2 ^ k := by positivity
    have hroot : q * 2 ^ (k + 1) / 2 = q * 2 ^ k := by
      rw [pow_succ, ← mul_assoc]; omega
    have hp2 : (2 : ℕ) ^ (k + 1) = 2 * 2 ^ k := by rw [pow_succ]; ring
    have hp4 : (4 : ℕ) ^ (k + 1) = 4 * 4 ^ k := by rw [pow_succ]; ring
    rw [hp2] at hq
    rw [hp2, hp4, h4] at hx
    have hsq : (q + 2 * 2 ^ k) * (q + 2 * 2 ^ k) ≤ 2 ^ 32 * 2 ^ 32 := Nat.mul_le_mul hq hq
    have hbound : q * 2 ^ (k + 1) + 4 ^ k < 2 ^ 64 := by
      rw [h4, hp2]
      generalize 2 ^ k = a at *
      nlinarith
    have hbound2 : q * 2 ^ k + 4 ^ k < 2 ^ 64 := by
      refine lt_of_le_of_lt ?_ hbound
      rw [hp2]
      have : q * 2 ^ k ≤ q * (2 * 2 ^ k) := Nat.mul_le_mul_left _ (by omega)
      omega
    rw [isqrtLoop, hp, if_pos (by positivity), addU64_of_lt hbound]
    simp only [hroot, addU64_of_lt hbound2]
    have hp' : 4 ^ k / 4 = 4 ^ k / 4 := rfl
    by_cases hc : x ≥ q * 2 ^ (k + 1) + 4 ^ k
    · rw [if_pos hc]
      rw [show q * 2 ^ k + 4 ^ k = (q + 2 ^ k) * 2 ^ k by rw [h4]; ring]
      rw [hp2, h4] at hc
      obtain ⟨r, h1, h2, h3⟩ := ih (x - (q * 2 ^ (k + 1) + 4 ^ k)) (q + 2 ^ k) (by
        rw [hp2, h4]
        generalize 2 ^ k = a at *
        rw [Nat.sub_lt_iff_lt_add hc]
        nlinarith) (by omega)
      have hval : (q + 2 ^ k) * (q + 2 ^ k) + (x - (q * 2 ^ (k + 1) + 4 ^ k)) = q * q + x := by
        rw [hp2, h4]
        have : (q + 2 ^ k) * (q + 2 ^ k) = q * q + (q * (2 * 2 ^ k) + 2 ^ k * 2 ^ k) := by ring
        omega
      rw [hval] at h2 h3
      exact ⟨r, h1, h2, h3⟩
    · rw [if_neg hc]
      obtain ⟨r, h1, h2, h3⟩ := ih x q (by
        rw [hp2, h4] at hc
        rw [h4]
        generalize 2 ^ k = a at *
        nlinarith) (by omega)
      exact ⟨r, h1, h2, h3⟩

theorem isqrtStart_spec (x : ℕ) (k : ℕ) : x < 4 ^ k →
    ∃ j ≤ k, x < 4 ^ j ∧ isqrtStart x (4 ^ k / 4) = 4 ^ j / 4 := by
  induction k with
  | zero =>
    intro hx
    refine ⟨0, le_rfl, hx, ?_⟩
    rw [isqrtStart]; simp
  | succ k ih =>
    intro hx
    have hp : 4 ^ (k + 1) / 4 = 4 ^ k := by rw [pow_succ]; omega
    by_cases hc : 4 ^ k > x
    · obtain ⟨j, h1, h2, h3⟩ := ih hc
      refine ⟨j, by omega, h2, ?_⟩
      rw [isqrtStart, hp, if_pos hc, h3]
    · refine ⟨k + 1, le_rfl, hx, ?_⟩
      rw [isqrtStart, hp, if_neg hc]

theorem isqrt_eq (dbg : Bool) (x : ℕ) (hx : x < 2 ^ 64) : isqrt dbg x = some (Nat.sqrt x) := by
  obtain ⟨j, hj, hxj, hs⟩ := isqrtStart_spec x 32 (by simpa using hx)
  have h62 : (2 : ℕ) ^ 62 = 4 ^ 32 / 4 := by norm_num
  obtain ⟨r, h1, h2, h3⟩ := isqrtLoop_spec dbg j x 0 (by simpa using hxj)
    (by rw [Nat.zero_add]; exact Nat.pow_le_pow_right (by norm_num) hj)
  rw [isqrt, h62, hs]
  rw [Nat.zero_mul] at h1
  have : r = Nat.sqrt x := Nat.eq_sqrt.mpr (by omega)
  rw [h1, this]

variable {F E : Type} [Field F] [AddCommGroup E] [Module F E]

theorem Spec.PreparedFor.upperBound {B : Backend F E} {n : ℕ} {range : PreparedRange E}
    (h : PreparedFor B n range) (dbg : Bool) : range.inner.upperBound dbg = some n :=
  upperBound_nested dbg h.facts.lt h.facts.nested

/-- Range proofs created together with a ciphertext. -/
theorem RangeProof.new_spec [DecidableEq F] [DecidableEq E] {B : Backend F E} {n : ℕ}
    {range : PreparedRange E} (hr : PreparedFor B n range) {K : PublicKey E} {value : ℕ}
    {t t' : Transcript} {rng rng' : B.Rng} {ct : CiphertextWithValue F E ℕ} {proof : RangeProof F E}
    (h : RangeProof.new B K range value t rng = some ((ct, proof), t', rng')) :
    value < n ∧ ct.value = value ∧ Opened B K.element ct.generalize ∧
      proof.verify B K range ct.generalize.ciphertext t = some (.ok (), t') := by
  simp only [RangeProof.new, Option.bind_eq_bind, Option.bind_eq_some_iff, Option.pure_def,
    Option.some.injEq, Prod.mk.injEq, Prod.exists] at h
  obtain ⟨p, t1, rng1, hp, ⟨rfl, rfl⟩, rfl, rfl⟩ := h
  refine ⟨?_, rfl, ⟨rfl, rfl⟩, C30_range_complete B n range hr K _ ⟨rfl, rfl⟩ _ _ _ _ _ hp⟩
  by_contra hv
  rw [C30_range_panics B n range hr K _ (not_lt.mp hv)] at hp
  cases hp

theorem RangeProof.new_total [DecidableEq F] [DecidableEq E] {B : Backend F E} (hT : B.TotalSer) {n : ℕ}
    {range : PreparedRange E} (hr : PreparedFor B n range) (K : PublicKey E) {value : ℕ}
    (hv : value < n) (t : Transcript) (rng : B.Rng) :
    ∃ ct proof t' rng', RangeProof.new B K range value t rng = some ((ct, proof), t', rng') := by
  obtain ⟨⟨p, t', rng'⟩, hp⟩ := C30_range_total B hT n range hr K
    (CiphertextWithValue.newU64 B value K rng).1 ⟨rfl, rfl⟩ hv t
    (CiphertextWithValue.newU64 B value K rng).2
  exact ⟨_, _, _, _, by
    simp only [RangeProof.new, hp, Option.bind_eq_bind, Option.bind_some, Option.pure_def]; rfl⟩

theorem RangeProof.verify_forged [DecidableEq F] [DecidableEq E] {B : Backend F E} {n : ℕ}
    {range : PreparedRange E} (hr : PreparedFor B n range) {K : PublicKey E} {k : F}
    (hK : K.element = k • B.gen) {ct : Ciphertext E} {proof : RangeProof F E} {t t' : Transcript}
    (h : proof.verify B K range ct t = some (.ok (), t')) :
    (∃ x < n, Encrypts B k ct ((x : F) • B.gen)) ∨ RangeForged B t.log K range ct proof := by
  rcases C31_range_sound B n range hr K k hK ct proof t t' h with hg |
    ⟨i, ring, c, enc, terms, last, h1, h2, h3, h4, h5, h6⟩
  · exact .inl hg
  · rw [h4] at h6
    refine .inr ⟨i, ringValues B ring, c, enc, terms, last, by simp [h1], h2, h3, ?_, h5, h6⟩
    rw [RangeProof.verify_eq (RangeProof.verify_ok_length h), hr.facts.values] at h
    rw [← h4, ← RangeProof.context_log]
    exact h

namespace QuadraticVotingBallot

theorem creditOf_foldlM (dbg : Bool) (votes : List ℕ) : ∀ (acc : ℕ),
    (acc + cost votes < 2 ^ 64 →
      votes.foldlM (fun acc x => (mulU64 dbg x x).bind fun y => addU64 dbg acc y) acc =
        some (acc + cost votes)) ∧
    (∀ c, dbg = true → acc < 2 ^ 64 →
      votes.foldlM (fun acc x => (mulU64 dbg x x).bind fun y => addU64 dbg acc y) acc = some c →
      c = acc + cost votes ∧ c < 2 ^ 64) := by
  induction votes with
  | nil =>
    intro acc
    refine ⟨fun _ => by simp [cost], fun c _ ha h => ?_⟩
    simp only [List.foldlM_nil, Option.pure_def, Option.some.injEq] at h
    subst h
    exact ⟨by simp [cost], ha⟩
  | cons v votes ih =>
    intro acc
    have hc : cost (v :: votes) = v * v + cost votes := by simp [cost]
    rw [hc]
    constructor
    · intro h
      rw [List.foldlM_cons, mulU64_of_lt (by omega), Option.bind_some, addU64_of_lt (by omega)]
      simp only [Option.bind_eq_bind, Option.bind_some]
      rw [(ih _).1 (by omega)]
      congr 1; omega
    · intro c hd _ h
      subst hd
      simp only [List.foldlM_cons, Option.bind_eq_bind, Option.bind_eq_some_iff] at h
      obtain ⟨a, ⟨y, hy, ha⟩, h⟩ := h
      have hy' : y = v * v := by
        unfold mulU64 at hy; split at hy <;> simp_all
      have ha' : a = acc + y ∧ a < 2 ^ 64 := by
        unfold addU64 at ha; split at ha
        · simp only [Option.some.injEq] at ha; omega
        · simp at ha
      obtain ⟨h1, h2⟩ := (ih a).2 c rfl ha'.2 h
      omega

theorem creditOf_eq {dbg : Bool} {votes : List ℕ} (h : cost votes < 2 ^ 64) :
    creditOf dbg votes = some (cost votes) := by
  have := (creditOf_foldlM dbg votes 0).1 (by omega)
  rw [Nat.zero_add] at this
  exact this

theorem creditOf_debug {votes : List ℕ} {c : ℕ} (h : creditOf true votes = some c) :
    c = cost votes ∧ c < 2 ^ 64 := by
  have := (creditOf_foldlM true votes 0).2 c rfl (by norm_num) h
  omega

variable [DecidableEq F] [DecidableEq E]

theorem encryptVotes_spec {B : Backend F E} {n : ℕ} {range : PreparedRange E}
    (hr : PreparedFor B n range) {K : PublicKey E} (votes : List ℕ) :
    ∀ {rng rng' : B.Rng} {out : List (CiphertextWithValue F E × RangeProof F E)},
    encryptVotes B K range votes rng = some (out, rng') →
    List.Forall₂ (fun p (v : ℕ) => v < n ∧ p.1.value = (v : F) ∧ Opened B K.element p.1 ∧
      ∃ t', p.2.verify B K range p.1.ciphertext (Transcript.new "quadratic_voting_variant") =
        some (.ok (), t')) out votes := by
  induction votes with
  | nil =>
    intro rng rng' out h
    simp only [encryptVotes, Option.some.injEq, Prod.mk.injEq] at h
    obtain ⟨rfl, rfl⟩ := h
    exact .nil
  | cons v votes ih =>
    intro rng rng' out h
    simp only [encryptVotes, Option.bind_eq_bind, Option.bind_eq_some_iff, Option.pure_def,
      Option.some.injEq, Prod.mk.injEq, Prod.exists] at h
    obtain ⟨ct, proof, t', rng1, h1, out', rng2, h2, rfl, rfl⟩ := h
    obtain ⟨h3, h4, h5, h6⟩ := RangeProof.new_spec hr h1
    exact .cons ⟨h3, by rw [← h4]; rfl, h5, t', h6⟩ (ih h2)

theorem encryptVotes_total {B : Backend F E} (hT : B.TotalSer) {n : ℕ} {range : PreparedRange E}
    (hr : PreparedFor B n range) (K : PublicKey E) (votes : List ℕ) (hv : ∀ v ∈ votes, v < n) :
    ∀ (rng : B.Rng), ∃ out rng', encryptVotes B K range votes rng = some (out, rng') := by
  induction votes with
  | nil => intro rng; exact ⟨_, _, rfl⟩
  | cons v votes ih =>
    intro rng
    obtain ⟨ct, proof, t', rng1, h1⟩ := RangeProof.new_total hT hr K (hv v (by simp))
      (Transcript.new "quadratic_voting_variant") rng
    obtain ⟨out, rng2, h2⟩ := ih (fun v hv' => hv v (by simp [hv'])) rng1
    exact ⟨_, _, by
      simp only [encryptVotes, h1, h2, Option.bind_eq_bind, Option.bind_some, Option.pure_def]; rfl⟩

theorem verifyVotes_ok {B : Backend F E} {K : PublicKey E} {range : PreparedRange E}
    (votes : List (CiphertextWithRangeProof F E)) : ∀ (i : ℕ),
    verifyVotes B K range i votes = some (.ok ()) ↔
    ∀ v ∈ votes, ∃ t', v.rangeProof.verify B K range v.ciphertext
      (Transcript.new "quadratic_voting_variant") = some (.ok (), t') := by
  induction votes with
  | nil => intro i; simp [verifyVotes]
  | cons v votes ih =>
    intro i
    simp only [verifyVotes, Option.bind_eq_bind, Option.bind_eq_some_iff, List.mem_cons,
      forall_eq_or_imp, Prod.exists]
    constructor
    · rintro ⟨r, t, h1, h2⟩
      match r, h2 with
      | .ok (), h2 => exact ⟨⟨t, h1⟩, (ih (i + 1)).mp h2⟩
      | .error e, h2 => simp at h2
    · rintro ⟨⟨t, h1⟩, h2⟩
      exact ⟨_, t, h1, (ih (i + 1)).mpr h2⟩

theorem verifyVotes_error {B : Backend F E} {K : PublicKey E} {range : PreparedRange E}
    (votes : List (CiphertextWithRangeProof F E)) : ∀ (i : ℕ) (e : QuadraticVotingError),
    verifyVotes B K range i votes = some (.error e) ↔
    ∃ (j : ℕ) (v : CiphertextWithRangeProof F E) (err : VerificationError) (t' : Transcript),
      e = .Variant (i + j) err ∧ votes[j]? = some v ∧
      v.rangeProof.verify B K range v.ciphertext (Transcript.new "quadratic_voting_variant") =
        some (.error err, t') ∧
      ∀ v' ∈ votes.take j, ∃ t', v'.rangeProof.verify B K range v'.ciphertext
        (Transcript.new "quadratic_voting_variant") = some (.ok (), t') := by
  induction votes with
  | nil => intro i e; simp [verifyVotes]
  | cons v votes ih =>
    intro i e
    simp only [verifyVotes, Option.bind_eq_bind, Option.bind_eq_some_iff, Prod.exists]
    constructor
    · rintro ⟨r, t, h1, h2⟩
      match r, h2 with
      | .ok (), h2 =>
        obtain ⟨j, v', err, t', rfl, h3, h4, h5⟩ := (ih (i + 1) e).mp h2
        refine ⟨j + 1, v', err, t', by congr 1; omega, by simpa using h3, h4, ?_⟩
        simp only [List.take_succ_cons, List.mem_cons, forall_eq_or_imp]
        exact ⟨⟨t, h1⟩, h5⟩
      | .error err, h2 =>
        simp only [Option.pure_def, Option.some.injEq, Except.error.injEq] at h2
        exact ⟨0, v, err, t, h2.symm, rfl, h1, by simp⟩
    · rintro ⟨j, v', err, t', rfl, h3, h4, h5⟩
      cases j with
      | zero =>
        simp only [List.getElem?_cons_zero, Option.some.injEq] at h3
        subst h3
        exact ⟨_, t', h4, rfl⟩
      | succ j =>
        simp only [List.take_succ_cons, List.mem_cons, forall_eq_or_imp] at h5
        obtain ⟨⟨t, h1⟩, h5⟩ := h5
        exact ⟨_, t, h1, (ih (i + 1) _).mpr ⟨j, v', err, t', by congr 1; omega, by simpa using h3, h4,
          h5⟩⟩

theorem verifyVotes_total {B : Backend F E} (hT : B.TotalSer) (K : PublicKey E) (range : PreparedRange E)
    (votes : List (CiphertextWithRangeProof F E)) : ∀ (i : ℕ),
    ∃ out, verifyVotes B K range i votes = some out := by
  induction votes with
  | nil => intro i; exact ⟨_, rfl⟩
  | cons v votes ih =>
    intro i
    obtain ⟨⟨r, t⟩, h⟩ := C50_range_verify_total B hT v.rangeProof K range v.ciphertext
      (Transcript.new "quadratic_voting_variant")
    match r with
    | .ok () =>
      obtain ⟨out, h2⟩ := ih (i + 1)
      exact ⟨out, by simp only [verifyVotes, h, h2, Option.bind_eq_bind, Option.bind_some]⟩
    | .error e =>
      exact ⟨_, by
        simp only [verifyVotes, h, Option.bind_eq_bind, Option.bind_some, Option.pure_def]; rfl⟩

end QuadraticVotingBallot

end ElasticElgamal
