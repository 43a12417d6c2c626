import Verif.Lemmas.Voting
import Verif.Toy
import Mathlib.Algebra.CharP.Basic

/-!
# Quadratic voting (C35, C36, C37, C38, C50)
-/

set_option autoImplicit false
set_option linter.unusedSectionVars false

namespace ElasticElgamal

open Spec Toy QuadraticVotingBallot

variable {F E : Type} [Field F] [AddCommGroup E] [Module F E] [DecidableEq F] [DecidableEq E]

/-- C35: for every `u64` the private `isqrt` returns the integer square root, without overflow in any build
profile. -/
theorem C35_isqrt (dbg : Bool) (x : ℕ) (hx : x < 2 ^ 64) :
    ∃ r, isqrt dbg x = some r ∧ r * r ≤ x ∧ x < (r + 1) * (r + 1) :=
  ⟨_, isqrt_eq dbg x hx, Nat.sqrt_le x, Nat.lt_succ_sqrt x⟩

example : isqrt true (2 ^ 64 - 1) = some (2 ^ 32 - 1) := by
  obtain ⟨r, h1, h2, h3⟩ := C35_isqrt true (2 ^ 64 - 1) (by norm_num)
  rw [h1]
  refine congrArg some ?_
  have a : r < 2 ^ 32 := by by_contra h; have := Nat.mul_le_mul (not_lt.mp h) (not_lt.mp h); omega
  have b : 2 ^ 32 ≤ r + 1 := by
    by_contra h
    have := Nat.mul_le_mul (Nat.le_of_lt_succ (not_le.mp h)) (Nat.le_of_lt_succ (not_le.mp h))
    omega
  exact Nat.le_antisymm (Nat.le_sub_one_of_lt a) (Nat.sub_le_of_le_add b)

theorem VotingParamsFor.accessors {B : Backend F E} {params : QuadraticVotingParams E} {o c m : ℕ}
    (h : VotingParamsFor B params o c m) (dbg : Bool) :
    params.credits dbg = some c ∧ params.maxVotes dbg = some m := by
  constructor
  · rw [QuadraticVotingParams.credits, h.credits.upperBound, Option.bind_eq_bind, Option.bind_some,
      subU64_of_le (Nat.le_add_left 1 c), Nat.add_sub_cancel]
  · rw [QuadraticVotingParams.maxVotes, h.votes.upperBound, Option.bind_eq_bind, Option.bind_some,
      subU64_of_le (Nat.le_add_left 1 m), Nat.add_sub_cancel]

/-- C35: parameters for any positive number of options and any number of credits up to `2^64 - 4` are
created, report the number of credits back and have `⌊√credits⌋` as the maximal number of votes. -/
theorem C35_params_new (B : Backend F E) (est : ℕ → ℕ) (he : EstimateOk est) (K : PublicKey E)
    (options credits : ℕ) (ho : 0 < options) (hc : 0 < credits) (hc' : credits ≤ 2 ^ 64 - 4) :
    ∃ params m, QuadraticVotingParams.new B est K options credits = some params ∧
      params.receiver = K ∧ m * m ≤ credits ∧ credits < (m + 1) * (m + 1) ∧
      VotingParamsFor B params options credits m ∧
      params.credits B.debug = some credits ∧ params.maxVotes B.debug = some m := by
  have hs : 1 ≤ Nat.sqrt credits := Nat.sqrt_pos.mpr hc
  have hs2 : Nat.sqrt credits ≤ credits := Nat.sqrt_le_self credits
  obtain ⟨d, r, h1, h2, h3, -⟩ := C26_prepared_total B est he (Nat.sqrt credits + 1) (by omega) (by omega)
  obtain ⟨d', r', h1', h2', h3', -⟩ := C26_prepared_total B est he (credits + 1) (by omega) (by omega)
  have hp : VotingParamsFor B ⟨r, r', options, K⟩ options credits (Nat.sqrt credits) := ⟨rfl, h3, h3'⟩
  refine ⟨⟨r, r', options, K⟩, Nat.sqrt credits, ?_, rfl, Nat.sqrt_le _, Nat.lt_succ_sqrt _, hp,
    VotingParamsFor.accessors hp _⟩
  have e1 : addU64 B.debug (Nat.sqrt credits) 1 = some (Nat.sqrt credits + 1) :=
    addU64_of_lt (by omega)
  have e2 : addU64 B.debug credits 1 = some (credits + 1) := addU64_of_lt (by omega)
  simp [QuadraticVotingParams.new, guard, ho, hc, isqrt_eq B.debug credits (by omega), h1, h2, h1', h2', e1, e2]

/-- C35: zero options or credits panic. -/
theorem C35_params_zero (B : Backend F E) (est : ℕ → ℕ) (K : PublicKey E) (options credits : ℕ)
    (h : options = 0 ∨ credits = 0) : QuadraticVotingParams.new B est K options credits = none := by
  rcases h with rfl | rfl <;> simp [QuadraticVotingParams.new, guard]

example : QuadraticVotingParams.new B101 RangeDecomposition.exactLowerLenEstimate ⟨[42], 42⟩ 5 0 = none :=
  C35_params_zero B101 _ ⟨[42], 42⟩ 5 0 (.inr rfl)

/-- C35, finding: the three largest numbers of credits panic in debug builds, and `u64::MAX` panics in
release builds as well, although only zero is documented to. -/
theorem C35_params_overflow (B : Backend F E) (est : ℕ → ℕ) (K : PublicKey E) (options credits : ℕ)
    (hc : 2 ^ 64 - 3 ≤ credits) (hc' : credits < 2 ^ 64) (h : B.debug = true ∨ credits = 2 ^ 64 - 1) :
    QuadraticVotingParams.new B est K options credits = none := by
  rw [Option.eq_none_iff_forall_ne_some]
  intro p hp
  simp only [QuadraticVotingParams.new, Option.bind_eq_bind, Option.bind_eq_some_iff,
    guard_eq_some'] at hp
  obtain ⟨-, -, -, -, m, -, a, -, d, -, b, hb, d', hd', -⟩ := hp
  by_cases hm : credits = 2 ^ 64 - 1
  · rw [hm, addU64] at hb
    rw [if_neg (by norm_num)] at hb
    split at hb
    · cases hb
    · simp only [Option.some.injEq] at hb
      have hb0 : b = 0 := by rw [← hb]; norm_num
      rw [hb0, C28_small B.debug est 0 (by norm_num)] at hd'
      cases hd'
  · have hd := h.resolve_right hm
    rw [addU64_of_lt (by omega), Option.some.injEq] at hb
    subst hb
    rw [hd, C28_overflow_debug est (credits + 1) (by omega) (by omega)] at hd'
    cases hd'

/-- C35: `set_max_votes(m)` for positive `m` with `m * m ≤ credits` sets the maximal number of votes and
changes nothing else. -/
theorem C35_set_max_votes (B : Backend F E) (est : ℕ → ℕ) (he : EstimateOk est)
    (params : QuadraticVotingParams E) (o c m m' : ℕ) (hp : VotingParamsFor B params o c m)
    (hm : 0 < m') (hm' : m' * m' ≤ c) :
    ∃ params', params.setMaxVotes B est m' = some params' ∧ VotingParamsFor B params' o c m' ∧
      params'.receiver = params.receiver ∧ params'.maxVotes B.debug = some m' ∧
      params'.credits B.debug = some c := by
  have hc : c + 1 ≤ 2 ^ 64 - 3 := by obtain ⟨_, _, _, h, _⟩ := hp.credits; exact h
  have hle : m' ≤ m' * m' := Nat.le_mul_self m'
  obtain ⟨d, r, h1, h2, h3, -⟩ := C26_prepared_total B est he (m' + 1) (by omega) (by omega)
  have hp' : VotingParamsFor B { params with voteCountRange := r } o c m' := ⟨hp.options, h3, hp.credits⟩
  obtain ⟨ha, hb⟩ := VotingParamsFor.accessors hp' B.debug
  refine ⟨_, ?_, hp', rfl, hb, ha⟩
  have hcr := (VotingParamsFor.accessors hp B.debug).1
  have e1 : addU64 B.debug m' 1 = some (m' + 1) := addU64_of_lt (by omega)
  have e2 : mulU64 B.debug m' m' = some (m' * m') := mulU64_of_lt (by omega)
  simp [QuadraticVotingParams.setMaxVotes, guard, e1, e2, hcr, hm', h1, h2]

/-- C35: `set_max_votes(m)` panics if `m * m` exceeds the credits, provided that overflows are checked or
`m` is less than `2^32`; and (undocumented) for `m = 0`. -/
theorem C35_set_max_votes_panics (B : Backend F E) (est : ℕ → ℕ)
    (params : QuadraticVotingParams E) (o c m m' : ℕ) (hp : VotingParamsFor B params o c m)
    (h : m' = 0 ∨ (c < m' * m' ∧ (B.debug = true ∨ m' < 2 ^ 32))) :
    params.setMaxVotes B est m' = none := by
  have hcr := (VotingParamsFor.accessors hp B.debug).1
  rcases h with rfl | ⟨h, hd⟩
  · have e1 : addU64 B.debug 0 1 = some 1 := addU64_of_lt (by norm_num)
    have e2 : mulU64 B.debug 0 0 = some 0 := mulU64_of_lt (by norm_num)
    simp [QuadraticVotingParams.setMaxVotes, guard, hcr, e1, e2, C28_small B.debug est 1 (by norm_num)]
  · rcases hd with hd | hd
    · by_cases ho : m' * m' < 2 ^ 64
      · have : ¬ m' * m' ≤ c := by omega
        simp [QuadraticVotingParams.setMaxVotes, guard, hcr, mulU64_of_lt ho, this]
      · have : mulU64 B.debug m' m' = none := by rw [mulU64, if_neg ho, hd]; rfl
        simp [QuadraticVotingParams.setMaxVotes, this]
    · have ho : m' * m' < 2 ^ 64 := by nlinarith
      have : ¬ m' * m' ≤ c := by omega
      simp [QuadraticVotingParams.setMaxVotes, guard, hcr, mulU64_of_lt ho, this]

/-- C35, finding: in release builds the square wraps around, so `set_max_votes(2^32)` is accepted for any
number of credits, contrary to the documentation. -/
theorem C35_set_max_votes_wraps (B : Backend F E) (hd : B.debug = false) (est : ℕ → ℕ)
    (he : EstimateOk est) (params : QuadraticVotingParams E) (o c m : ℕ)
    (hp : VotingParamsFor B params o c m) :
    c < 2 ^ 32 * 2 ^ 32 ∧ ∃ params', params.setMaxVotes B est (2 ^ 32) = some params' ∧
      params'.maxVotes B.debug = some (2 ^ 32) ∧ params'.credits B.debug = some c := by
  have hc : c + 1 ≤ 2 ^ 64 - 3 := by obtain ⟨_, _, _, h, _⟩ := hp.credits; exact h
  refine ⟨by omega, ?_⟩
  obtain ⟨d, r, h1, h2, h3, -⟩ := C26_prepared_total B est he (2 ^ 32 + 1) (by norm_num) (by norm_num)
  have hp' : VotingParamsFor B { params with voteCountRange := r } o c (2 ^ 32) :=
    ⟨hp.options, h3, hp.credits⟩
  obtain ⟨ha, hb⟩ := VotingParamsFor.accessors hp' B.debug
  refine ⟨_, ?_, hb, ha⟩
  have hcr := (VotingParamsFor.accessors hp B.debug).1
  have e1 : addU64 B.debug (2 ^ 32) 1 = some (2 ^ 32 + 1) := addU64_of_lt (by norm_num)
  have e2 : mulU64 B.debug (2 ^ 32) (2 ^ 32) = some 0 := by rw [hd]; decide +kernel
  simp only [QuadraticVotingParams.setMaxVotes, guard, e1, e2, hcr, h1, h2, Option.bind_eq_bind,
    Option.bind_some, Nat.zero_le, if_true, Option.pure_def]

/-- Parameters for 2 options and 16 credits; 4 votes per option. -/
def exampleVoting : QuadraticVotingParams (ZMod 101) :=
  (QuadraticVotingParams.new B101 RangeDecomposition.exactLowerLenEstimate ⟨[42], 42⟩ 2 16).getD
    ⟨exampleRange, exampleRange, 0, ⟨[42], 42⟩⟩

theorem exampleVoting_for : VotingParamsFor B101 exampleVoting 2 16 4 ∧
    exampleVoting.receiver = ⟨[42], 42⟩ := by
  obtain ⟨params, m, h1, h2, h3, h4, h5, -⟩ := C35_params_new B101 _ C27_estimate_exact ⟨[42], 42⟩ 2 16
    (by norm_num) (by norm_num) (by norm_num)
  have hm : m = 4 := by
    have : m < 5 := by by_contra h; have := Nat.mul_le_mul (not_lt.mp h) (not_lt.mp h); omega
    interval_cases m <;> omega
  rw [exampleVoting, h1]
  subst hm
  exact ⟨h5, h2⟩

example : ∃ params', exampleVoting.setMaxVotes B101 RangeDecomposition.exactLowerLenEstimate 3 =
    some params' ∧ params'.maxVotes B101.debug = some 3 := by
  obtain ⟨p, h1, -, -, h2, -⟩ := C35_set_max_votes B101 _ C27_estimate_exact exampleVoting 2 16 4 3
    exampleVoting_for.1 (by norm_num) (by norm_num)
  exact ⟨p, h1, h2⟩

example : exampleVoting.setMaxVotes B101 RangeDecomposition.exactLowerLenEstimate 5 = none :=
  C35_set_max_votes_panics B101 _ exampleVoting 2 16 4 5 exampleVoting_for.1 (by norm_num)

example : QuadraticVotingParams.new B101 RangeDecomposition.exactLowerLenEstimate ⟨[42], 42⟩ 2 (2 ^ 64 - 2) =
    none :=
  C35_params_overflow B101 _ _ _ _ (by norm_num) (by norm_num) (.inl rfl)

example : ∃ params params', QuadraticVotingParams.new { B101 with debug := false }
      RangeDecomposition.exactLowerLenEstimate ⟨[42], 42⟩ 2 16 = some params ∧
    params.setMaxVotes { B101 with debug := false } RangeDecomposition.exactLowerLenEstimate (2 ^ 32) =
      some params' := by
  obtain ⟨params, m, h1, -, -, -, h5, -⟩ := C35_params_new { B101 with debug := false } _
    C27_estimate_exact ⟨[42], 42⟩ 2 16 (by norm_num) (by norm_num) (by norm_num)
  obtain ⟨-, p', h, -⟩ := C35_set_max_votes_wraps { B101 with debug := false } rfl _ C27_estimate_exact
    params 2 16 m h5
  exact ⟨params, p', h1, h⟩

/-- C36: a ballot created by `new` verifies, verification returns its vote ciphertexts, and these decrypt
to the votes. The condition excludes a wrapped `u64` sum in release builds (`C36_ballot_wraps`). -/
theorem C36_ballot_complete (B : Backend F E) (params : QuadraticVotingParams E) (o c m : ℕ)
    (hp : VotingParamsFor B params o c m) (k : F) (hK : params.receiver.element = k • B.gen)
    (votes : List ℕ) (hnw : B.debug = true ∨ cost votes < 2 ^ 64) (rng rng' : B.Rng)
    (ballot : QuadraticVotingBallot F E)
    (h : QuadraticVotingBallot.new B params votes rng = some (ballot, rng')) :
    ballot.verify B params = some (.ok (ballot.votes.map (·.ciphertext))) ∧
    (ballot.votes.map fun v => SecretKey.decryptToElement k v.ciphertext) =
      votes.map (fun v : ℕ => (v : F) • B.gen) ∧
    SecretKey.decryptToElement k ballot.credit.ciphertext = (cost votes : F) • B.gen ∧
    votes.length = o ∧ (∀ v ∈ votes, v ≤ m) ∧ cost votes ≤ c := by
  simp only [QuadraticVotingBallot.new, Option.bind_eq_bind, Option.bind_eq_some_iff, Option.pure_def,
    Option.some.injEq, Prod.mk.injEq, Prod.exists, guard_eq_some'] at h
  obtain ⟨-, hlen, credit, hcredit, out, rng1, henc, ct, cproof, t2, rng2, hc, eproof, t3, rng3, he, rfl, rfl⟩ := h
  have hcr : credit = cost votes := by
    rcases hnw with hd | hlt
    · rw [hd] at hcredit; exact (creditOf_debug hcredit).1
    · rw [creditOf_eq hlt] at hcredit; exact (Option.some.inj hcredit).symm
  subst hcr
  have hv := encryptVotes_spec hp.votes votes henc
  obtain ⟨hc1, hc2, hc3, hc4⟩ := RangeProof.new_spec hp.credits hc
  have hdec : ∀ x : CiphertextWithValue F E, Opened B params.receiver.element x →
      SecretKey.decryptToElement k x.ciphertext = x.value • B.gen := by
    rintro x ⟨h1, h2⟩
    simp only [SecretKey.decryptToElement, h1, h2, hK]
    module
  have hol : out.length = votes.length := hv.length_eq
  have hop : ∀ p ∈ out, Opened B params.receiver.element p.1 ∧
      ∃ t', p.2.verify B params.receiver params.voteCountRange p.1.ciphertext
        (Transcript.new "quadratic_voting_variant") = some (.ok (), t') := by
    clear henc he hol hcredit hc hc1 hc2 hlen hnw
    induction hv with
    | nil => simp
    | cons h _ ih =>
      simp only [List.mem_cons, forall_eq_or_imp]
      exact ⟨⟨h.2.2.1, h.2.2.2⟩, ih⟩
  have hvals : out.map (fun p => p.1.value) = votes.map fun v : ℕ => (v : F) := by
    rw [← List.forall₂_eq_eq_eq, List.forall₂_map_left_iff, List.forall₂_map_right_iff]
    exact hv.imp fun _ _ h => h.2.1
  have heq := C19_sum_sq_complete B (out.map Prod.fst) ct.generalize params.receiver
    (by
      intro x hx
      obtain ⟨p, hp', rfl⟩ := List.mem_map.mp hx
      exact (hop p hp').1) hc3
    (by
      show (ct.value : F) = _
      rw [hc2, List.map_map]
      have h1 : (out.map ((fun x : CiphertextWithValue F E => x.value * x.value) ∘ Prod.fst)) =
          (out.map (fun p => p.1.value)).map fun x => x * x := by
        rw [List.map_map]; rfl
      rw [h1, hvals, List.map_map, cost]
      simp [Function.comp_def]) _ _ _ _ _ he
  refine ⟨?_, ?_, ?_, hlen.trans hp.options, ?_, by omega⟩
  · have h1 := (verifyVotes_ok (B := B) (K := params.receiver) (range := params.voteCountRange)
      (out.map fun p => (⟨p.1.ciphertext, p.2⟩ : CiphertextWithRangeProof F E)) 0).mpr (by
        intro v hv
        obtain ⟨p, hp', rfl⟩ := List.mem_map.mp hv
        exact (hop p hp').2)
    simp only [QuadraticVotingBallot.verify, QuadraticVotingParams.checkOptionsCount, List.length_map, hol,
      hlen, if_true, h1, hc4, Option.bind_eq_bind, Option.bind_some, Option.pure_def, List.map_map]
    rw [List.map_map] at heq
    have : (fun x : CiphertextWithRangeProof F E => x.ciphertext) ∘
        (fun p : CiphertextWithValue F E × RangeProof F E => ⟨p.1.ciphertext, p.2⟩) =
        (fun x : CiphertextWithValue F E => x.ciphertext) ∘ Prod.fst := rfl
    simp only [this, heq, Option.bind_some]
  · have h1 : (out.map fun p => (⟨p.1.ciphertext, p.2⟩ : CiphertextWithRangeProof F E)).map
        (fun v => SecretKey.decryptToElement k v.ciphertext) =
        (out.map fun p => p.1.value).map fun x => x • B.gen := by
      rw [List.map_map, List.map_map]
      apply List.map_congr_left
      intro p hp'
      exact hdec _ (hop p hp').1
    rw [h1, hvals, List.map_map]
    rfl
  · show SecretKey.decryptToElement k ct.generalize.ciphertext = _
    rw [hdec _ hc3]
    show (ct.value : F) • B.gen = _
    rw [hc2]
  · intro v hv'
    clear henc heq he hol hcredit hc hc1 hc2 hlen hnw hop hvals
    induction hv with
    | nil => simp at hv'
    | cons h _ ih =>
      rcases List.mem_cons.mp hv' with rfl | h2
      · have := h.1; omega
      · exact ih h2

/-- C36: with total encodings `new` panics exactly if the number of votes is wrong, some option has too
many votes or the cost exceeds the credits. -/
theorem C36_ballot_total (B : Backend F E) (hT : B.TotalSer) (params : QuadraticVotingParams E)
    (o c m : ℕ) (hp : VotingParamsFor B params o c m) (votes : List ℕ)
    (hnw : B.debug = true ∨ cost votes < 2 ^ 64) (rng : B.Rng) :
    (∃ out, QuadraticVotingBallot.new B params votes rng = some out) ↔
      votes.length = o ∧ (∀ v ∈ votes, v ≤ m) ∧ cost votes ≤ c := by
  constructor
  · rintro ⟨⟨ballot, rng'⟩, h⟩
    simp only [QuadraticVotingBallot.new, Option.bind_eq_bind, Option.bind_eq_some_iff, Option.pure_def,
      Option.some.injEq, Prod.mk.injEq, Prod.exists, guard_eq_some'] at h
    obtain ⟨-, hlen, credit, hcredit, out, rng1, henc, ct, cproof, t2, rng2, hc, -⟩ := h
    have hcr : credit = cost votes := by
      rcases hnw with hd | hlt
      · rw [hd] at hcredit; exact (creditOf_debug hcredit).1
      · rw [creditOf_eq hlt] at hcredit; exact (Option.some.inj hcredit).symm
    have hv := encryptVotes_spec hp.votes votes henc
    refine ⟨hlen.trans hp.options, ?_, by have := (RangeProof.new_spec hp.credits hc).1; omega⟩
    clear hcredit hlen hnw hcr henc
    induction hv with
    | nil => simp
    | cons h _ ih =>
      simp only [List.mem_cons, forall_eq_or_imp]
      exact ⟨by have := h.1; omega, ih⟩
  · rintro ⟨h1, h2, h3⟩
    have hc : c + 1 ≤ 2 ^ 64 - 3 := by obtain ⟨_, _, _, h, _⟩ := hp.credits; exact h
    obtain ⟨out, rng1, h4⟩ := encryptVotes_total hT hp.votes params.receiver votes
      (fun v hv => Nat.lt_succ_of_le (h2 v hv)) rng
    obtain ⟨ct, proof, t', rng2, h5⟩ := RangeProof.new_total hT hp.credits params.receiver
      (value := cost votes) (by omega) (Transcript.new "quadratic_voting_credit_range") rng1
    obtain ⟨⟨ep, t3, rng3⟩, h6⟩ := C19_sum_sq_new_total B hT (out.map Prod.fst) ct.generalize
      params.receiver (Transcript.new "quadratic_voting_credit_equiv") rng2
    have h7 : votes.length = params.optionsCount := h1.trans hp.options.symm
    exact ⟨_, by
      simp only [QuadraticVotingBallot.new, guard, h7, if_true, creditOf_eq (dbg := B.debug)
        (votes := votes) (by omega), h4, h5, h6, Option.bind_eq_bind, Option.bind_some,
        Option.pure_def]; rfl⟩

example : ∃ ballot rng', QuadraticVotingBallot.new B101 exampleVoting [3, 2] (5 : ℕ) =
      some (ballot, rng') ∧
    ballot.verify B101 exampleVoting = some (.ok (ballot.votes.map (·.ciphertext))) ∧
    (ballot.votes.map fun v => SecretKey.decryptToElement (42 : ZMod 101) v.ciphertext) = [3, 2] := by
  obtain ⟨⟨ballot, rng'⟩, h⟩ := (C36_ballot_total B101 B101_total exampleVoting 2 16 4
    exampleVoting_for.1 [3, 2] (.inl rfl) (5 : ℕ)).mpr (by decide)
  obtain ⟨h1, h2, -⟩ := C36_ballot_complete B101 exampleVoting 2 16 4 exampleVoting_for.1 42
    (by rw [exampleVoting_for.2]; decide) [3, 2] (.inl rfl) _ _ ballot h
  exact ⟨ballot, rng', h, h1, h2.trans (by decide)⟩

/-- C36, finding: in release builds the cost is computed modulo `2^64`: with `2^62` credits, `new` returns a
ballot for four options with `2^31` votes each, which cost `2^64` (such a ballot is not accepted,
`C37_ballot_sound`). -/
theorem C36_ballot_wraps (B : Backend F E) (hT : B.TotalSer) (hd : B.debug = false)
    (params : QuadraticVotingParams E) (hp : VotingParamsFor B params 4 (2 ^ 62) (2 ^ 31)) (rng : B.Rng) :
    2 ^ 62 < cost (List.replicate 4 (2 ^ 31)) ∧
    ∃ out, QuadraticVotingBallot.new B params (List.replicate 4 (2 ^ 31)) rng = some out := by
  refine ⟨by decide +kernel, ?_⟩
  obtain ⟨out, rng1, h4⟩ := encryptVotes_total hT hp.votes params.receiver (List.replicate 4 (2 ^ 31))
    (fun v hv => by rw [(List.mem_replicate.mp hv).2]; norm_num) rng
  obtain ⟨ct, proof, t', rng2, h5⟩ := RangeProof.new_total hT hp.credits params.receiver
    (value := 0) (by omega) (Transcript.new "quadratic_voting_credit_range") rng1
  obtain ⟨⟨ep, t3, rng3⟩, h6⟩ := C19_sum_sq_new_total B hT (out.map Prod.fst) ct.generalize
    params.receiver (Transcript.new "quadratic_voting_credit_equiv") rng2
  have h7 : (List.replicate 4 (2 ^ 31)).length = params.optionsCount := by simp [hp.options]
  have h8 : creditOf B.debug (List.replicate 4 (2 ^ 31)) = some 0 := by rw [hd]; decide +kernel
  exact ⟨_, by
    simp only [QuadraticVotingBallot.new, guard, h7, if_true, h8, h4, h5, h6, Option.bind_eq_bind,
      Option.bind_some, Option.pure_def]; rfl⟩

/-- Parameters with `2^62` credits, for which a ballot of cost `2^64` is created. -/
example : ∃ (params : QuadraticVotingParams (ZMod 101)) (out : _), 2 ^ 62 < cost (List.replicate 4 (2 ^ 31)) ∧
    QuadraticVotingBallot.new { B101 with debug := false } params (List.replicate 4 (2 ^ 31)) (0 : ℕ) = some out := by
  obtain ⟨params, m, -, -, h1, h2, h, -⟩ := C35_params_new { B101 with debug := false } _
      C27_estimate_exact ⟨[42], 42⟩ 4 (2 ^ 62) (by norm_num) (by norm_num) (by norm_num)
  have hm : m = 2 ^ 31 := by nlinarith
  subst hm
  obtain ⟨h3, out, h4⟩ := C36_ballot_wraps { B101 with debug := false } B101_total rfl params h (0 : ℕ)
  exact ⟨params, out, h3, h4⟩

example : ∃ params : QuadraticVotingParams (ZMod 101),
    VotingParamsFor { B101 with debug := false } params 4 (2 ^ 62) (2 ^ 31) := by
  obtain ⟨params, m, -, -, h3, h4, h5, -⟩ := C35_params_new { B101 with debug := false } _
    C27_estimate_exact ⟨[42], 42⟩ 4 (2 ^ 62) (by norm_num) (by norm_num) (by norm_num)
  have a : m ≤ 2 ^ 31 := by
    by_contra h
    have := Nat.mul_le_mul (Nat.le_of_lt (not_le.mp h)) (not_le.mp h)
    nlinarith
  have b : 2 ^ 31 < m + 1 := by
    by_contra h
    have := Nat.mul_le_mul (not_lt.mp h) (not_lt.mp h)
    omega
  have : m = 2 ^ 31 := by omega
  exact ⟨params, this ▸ h5⟩

/-- Decomposition of a successful verification. -/
theorem QuadraticVotingBallot.verify_ok {B : Backend F E} {ballot : QuadraticVotingBallot F E}
    {params : QuadraticVotingParams E} {cts : List (Ciphertext E)} :
    ballot.verify B params = some (.ok cts) ↔
    cts = ballot.votes.map (·.ciphertext) ∧ ballot.votes.length = params.optionsCount ∧
    (∀ v ∈ ballot.votes, ∃ t', v.rangeProof.verify B params.receiver params.voteCountRange v.ciphertext
      (Transcript.new "quadratic_voting_variant") = some (.ok (), t')) ∧
    (∃ t', ballot.credit.rangeProof.verify B params.receiver params.creditRange ballot.credit.ciphertext
      (Transcript.new "quadratic_voting_credit_range") = some (.ok (), t')) ∧
    ∃ t', ballot.creditEquivalenceProof.verify B (ballot.votes.map (·.ciphertext))
      ballot.credit.ciphertext params.receiver (Transcript.new "quadratic_voting_credit_equiv") =
        some (.ok (), t') := by
  by_cases hl : params.optionsCount = ballot.votes.length
  swap
  · simp [QuadraticVotingBallot.verify, QuadraticVotingParams.checkOptionsCount, hl]
    intro _ h; exact absurd h.symm hl
  simp only [QuadraticVotingBallot.verify, QuadraticVotingParams.checkOptionsCount, hl, if_true,
    Option.bind_eq_bind, Option.bind_eq_some_iff]
  constructor
  · rintro ⟨r, hr, h⟩
    match r, h with
    | .error e, h => simp at h
    | .ok (), h =>
      simp only [Option.bind_eq_some_iff, Prod.exists] at h
      obtain ⟨r, t, hc, h⟩ := h
      match r, h with
      | .error e, h => simp at h
      | .ok (), h =>
        simp only [Option.bind_eq_some_iff, Prod.exists] at h
        obtain ⟨r, t2, he, h⟩ := h
        match r, h with
        | .error e, h => simp at h
        | .ok (), h =>
          simp only [Option.pure_def, Option.some.injEq, Except.ok.injEq] at h
          exact ⟨h.symm, trivial, (verifyVotes_ok _ 0).mp hr, ⟨t, hc⟩, t2, he⟩
  · rintro ⟨rfl, -, hr, ⟨t, hc⟩, t2, he⟩
    exact ⟨_, (verifyVotes_ok _ 0).mpr hr, by simp only [hc, he, Option.bind_some, Option.pure_def]⟩

theorem encrypts_nat_list {B : Backend F E} {k : F} {n : ℕ} (cts : List (Ciphertext E))
    (h : ∀ c ∈ cts, ∃ x < n, Encrypts B k c ((x : F) • B.gen)) :
    ∃ xs : List ℕ, (∀ x ∈ xs, x < n) ∧
      List.Forall₂ (fun c (x : ℕ) => Encrypts B k c ((x : F) • B.gen)) cts xs := by
  induction cts with
  | nil => exact ⟨[], by simp, .nil⟩
  | cons c cts ih =>
    obtain ⟨x, hx, he⟩ := h c (by simp)
    obtain ⟨xs, hxs, hes⟩ := ih fun c hc => h c (by simp [hc])
    exact ⟨x :: xs, by simpa using ⟨hx, hxs⟩, .cons he hes⟩

theorem cost_le (m : ℕ) (xs : List ℕ) (h : ∀ x ∈ xs, x ≤ m) : cost xs ≤ xs.length * (m * m) := by
  induction xs with
  | nil => simp [cost]
  | cons x xs ih =>
    have h1 := ih fun y hy => h y (by simp [hy])
    have h2 := Nat.mul_le_mul (h x (by simp)) (h x (by simp))
    simp only [cost, List.map_cons, List.sum_cons, List.length_cons] at h1 ⊢
    rw [Nat.add_mul]
    omega

/-- C37: for an accepted ballot, the vote ciphertexts encrypt integers `x₁, …, xₙ` up to the maximal number
of votes whose squares add up, over the integers, to at most the number of credits, and the credit
ciphertext encrypts exactly this sum — unless one of the range proofs was forged, or the hash value of the
credit equivalence proof is a single exceptional value fixed by the hashed data. `n * m² < p` and
`credits < p` exclude wrap-around modulo the group order `p`. -/
theorem C37_ballot_sound (B : Backend F E) (hB : B.Lawful) (p : ℕ) [CharP F p] :
    ∃ bad : List Entry → F, ∀ (H : List Entry → F) (params : QuadraticVotingParams E) (o c m : ℕ),
      VotingParamsFor B params o c m → o * (m * m) < p → c < p →
      ∀ (k : F), params.receiver.element = k • B.gen → WellFormedKey B params.receiver →
      ∀ (ballot : QuadraticVotingBallot F E) (cts : List (Ciphertext E)),
      ballot.verify (B.withHash H) params = some (.ok cts) →
      cts = ballot.votes.map (·.ciphertext) ∧ cts.length = o ∧
      ((∃ xs : List ℕ, (∀ x ∈ xs, x ≤ m) ∧ cost xs ≤ c ∧
          List.Forall₂ (fun ct (x : ℕ) => Encrypts B k ct ((x : F) • B.gen)) cts xs ∧
          Encrypts B k ballot.credit.ciphertext ((cost xs : F) • B.gen)) ∨
        (∃ v ∈ ballot.votes, RangeForged (B.withHash H) (Transcript.new "quadratic_voting_variant").log
          params.receiver params.voteCountRange v.ciphertext v.rangeProof) ∨
        RangeForged (B.withHash H) (Transcript.new "quadratic_voting_credit_range").log
          params.receiver params.creditRange ballot.credit.ciphertext ballot.credit.rangeProof ∨
        ∃ t', ballot.creditEquivalenceProof.verify (B.withHash H) cts ballot.credit.ciphertext
            params.receiver (Transcript.new "quadratic_voting_credit_equiv") = some (.ok (), t') ∧
          H t'.log = bad t'.log) := by
  obtain ⟨bad, hbad⟩ := C20_sum_sq_sound B hB
  refine ⟨bad, ?_⟩
  intro H params o c m hp hom hcp k hK hwf ballot cts hv
  obtain ⟨rfl, hl, hvotes, ⟨t2, hcredit⟩, t3, heq⟩ := QuadraticVotingBallot.verify_ok.mp hv
  refine ⟨rfl, by rw [List.length_map, hl, hp.options], ?_⟩
  have hpv : PreparedFor (B.withHash H) (m + 1) params.voteCountRange := hp.votes
  have hpc : PreparedFor (B.withHash H) (c + 1) params.creditRange := hp.credits
  by_cases hf1 : ∃ v ∈ ballot.votes, RangeForged (B.withHash H)
      (Transcript.new "quadratic_voting_variant").log params.receiver params.voteCountRange v.ciphertext
      v.rangeProof
  · exact .inr (.inl hf1)
  by_cases hf2 : RangeForged (B.withHash H) (Transcript.new "quadratic_voting_credit_range").log
          params.receiver params.creditRange ballot.credit.ciphertext ballot.credit.rangeProof
  · exact .inr (.inr (.inl hf2))
  rcases hbad H _ _ _ _ k _ _ hwf hK heq with hs | hs
  swap
  · exact .inr (.inr (.inr ⟨t3, heq, hs⟩))
  left
  push Not at hf1
  obtain ⟨y, hy, hye⟩ : ∃ x < c + 1, Encrypts B k ballot.credit.ciphertext ((x : F) • B.gen) :=
    (RangeProof.verify_forged hpc hK hcredit).resolve_right hf2
  obtain ⟨xs, hxs, hes⟩ := encrypts_nat_list (B := B) (k := k) (n := m + 1)
    (ballot.votes.map (·.ciphertext)) (by
      intro ct hct
      obtain ⟨v, hv, rfl⟩ := List.mem_map.mp hct
      obtain ⟨t, ht⟩ := hvotes v hv
      exact (RangeProof.verify_forged hpv hK ht).resolve_right (hf1 v hv))
  obtain ⟨zs, hzs, hze⟩ := hs
  have hzx : zs = xs.map fun x : ℕ => (x : F) := by
    have : ∀ (cts : List (Ciphertext E)) (zs : List F) (xs : List ℕ),
        List.Forall₂ (fun ct x => Encrypts B k ct (x • B.gen)) cts zs →
        List.Forall₂ (fun c (x : ℕ) => Encrypts B k c ((x : F) • B.gen)) cts xs →
        zs = xs.map fun x : ℕ => (x : F) := by
      intro cts
      induction cts with
      | nil => intro zs xs h1 h2; cases h1; cases h2; rfl
      | cons ct cts ih =>
        intro zs xs h1 h2
        cases h1 with
        | cons a1 a2 => cases h2 with
          | cons b1 b2 =>
            rw [List.map_cons, ih _ _ a2 b2, hB.smul_gen_inj (a1.unique b1)]
    exact this _ _ _ hzs hes
  have hsum : (zs.map fun x => x * x).sum = (cost xs : F) := by
    rw [hzx, cost]
    simp [Function.comp_def]
  rw [hsum] at hze
  have hcast : ((cost xs : ℕ) : F) = ((y : ℕ) : F) := hB.smul_gen_inj (hze.unique hye)
  have hcost : cost xs ≤ o * (m * m) := by
    have := cost_le m xs fun x hx => Nat.le_of_lt_succ (hxs x hx)
    have hle : xs.length = o := by
      rw [← List.Forall₂.length_eq hes, List.length_map, hl, hp.options]
    rwa [hle] at this
  have hmod := (CharP.natCast_eq_natCast F p).mp hcast
  have hcy : cost xs = y := Nat.ModEq.eq_of_lt_of_lt hmod (by omega) (by omega)
  exact ⟨xs, fun x hx => Nat.le_of_lt_succ (hxs x hx), by omega, hes, hze⟩

/-- An honest ballot meets the hypotheses. -/
example : ∃ (bad : List Entry → ZMod 101) (ballot : QuadraticVotingBallot (ZMod 101) (ZMod 101)),
    (∃ xs : List ℕ, (∀ x ∈ xs, x ≤ 4) ∧ cost xs ≤ 16 ∧
      List.Forall₂ (fun ct (x : ℕ) => Encrypts B101 42 ct ((x : ZMod 101) • B101.gen))
        (ballot.votes.map (·.ciphertext)) xs ∧
      Encrypts B101 42 ballot.credit.ciphertext ((cost xs : ZMod 101) • B101.gen)) ∨
    (∃ v ∈ ballot.votes, RangeForged B101 (Transcript.new "quadratic_voting_variant").log exampleVoting.receiver
      exampleVoting.voteCountRange v.ciphertext v.rangeProof) ∨
    RangeForged B101 (Transcript.new "quadratic_voting_credit_range").log exampleVoting.receiver
      exampleVoting.creditRange ballot.credit.ciphertext ballot.credit.rangeProof ∨
    ∃ t : Transcript, B101.challenge t.log = bad t.log := by
  obtain ⟨bad, hs⟩ := C37_ballot_sound B101 B101_lawful 101
  obtain ⟨⟨ballot, rng'⟩, h⟩ := (C36_ballot_total B101 B101_total exampleVoting 2 16 4
    exampleVoting_for.1 [0, 4] (.inl rfl) (5 : ℕ)).mpr (by decide)
  obtain ⟨h1, -⟩ := C36_ballot_complete B101 exampleVoting 2 16 4 exampleVoting_for.1 42
    (by rw [exampleVoting_for.2]; decide) [0, 4] (.inl rfl) _ _ ballot h
  refine ⟨bad, ballot, ?_⟩
  obtain ⟨-, -, h | h | h | ⟨t, -, h⟩⟩ := hs B101.challenge exampleVoting 2 16 4 exampleVoting_for.1 (by norm_num)
    (by norm_num) 42 (by rw [exampleVoting_for.2]; decide)
    (by rw [exampleVoting_for.2, WellFormedKey]; decide +kernel) ballot _ h1
  · exact .inl h
  · exact .inr (.inl h)
  · exact .inr (.inr (.inl h))
  · exact .inr (.inr (.inr ⟨t, h⟩))

/-- C38 (quadratic voting): a wrong number of options is reported first. -/
theorem C38_voting_count (B : Backend F E) (ballot : QuadraticVotingBallot F E)
    (params : QuadraticVotingParams E) (a b : ℕ) :
    ballot.verify B params = some (.error (.OptionsLenMismatch a b)) ↔
    ballot.votes.length ≠ params.optionsCount ∧ a = params.optionsCount ∧ b = ballot.votes.length := by
  by_cases hl : params.optionsCount = ballot.votes.length
  · simp only [QuadraticVotingBallot.verify, QuadraticVotingParams.checkOptionsCount, hl, if_true,
      Option.bind_eq_bind, Option.bind_eq_some_iff, ne_eq, not_true_eq_false, false_and, iff_false]
    rintro ⟨r, hr, h⟩
    match r, h with
    | .error e, h =>
      simp only [Option.pure_def, Option.some.injEq, Except.error.injEq] at h
      subst h
      obtain ⟨j, v, err, t', h1, -⟩ := (verifyVotes_error _ 0 _).mp hr
      cases h1
    | .ok (), h =>
      simp only [Option.bind_eq_some_iff, Prod.exists] at h
      obtain ⟨r, t, hc, h⟩ := h
      match r, h with
      | .error e, h => simp at h
      | .ok (), h =>
        simp only [Option.bind_eq_some_iff, Prod.exists] at h
        obtain ⟨r, t2, he, h⟩ := h
        match r, h with
        | .error e, h => simp at h
        | .ok (), h => simp at h
  · simp only [QuadraticVotingBallot.verify, QuadraticVotingParams.checkOptionsCount, hl, if_false,
      Option.some.injEq, Except.error.injEq, QuadraticVotingError.OptionsLenMismatch.injEq]
    exact ⟨fun h => ⟨fun h2 => hl h2.symm, h.1.symm, h.2.symm⟩, fun h => ⟨h.2.1.symm, h.2.2.symm⟩⟩

/-- C38 (quadratic voting): an error for option `i` is reported exactly if the number of options is right,
the range proof of option `i` fails and the range proofs of all smaller options are accepted. -/
theorem C38_voting_variant (B : Backend F E) (ballot : QuadraticVotingBallot F E)
    (params : QuadraticVotingParams E) (i : ℕ) (e : VerificationError) :
    ballot.verify B params = some (.error (.Variant i e)) ↔
    ballot.votes.length = params.optionsCount ∧
    (∃ v t', ballot.votes[i]? = some v ∧ v.rangeProof.verify B params.receiver params.voteCountRange
      v.ciphertext (Transcript.new "quadratic_voting_variant") = some (.error e, t')) ∧
    ∀ v ∈ ballot.votes.take i, ∃ t', v.rangeProof.verify B params.receiver params.voteCountRange
      v.ciphertext (Transcript.new "quadratic_voting_variant") = some (.ok (), t') := by
  by_cases hl : params.optionsCount = ballot.votes.length
  swap
  · simp [QuadraticVotingBallot.verify, QuadraticVotingParams.checkOptionsCount, hl]
    intro h; exact absurd h.symm hl
  simp only [QuadraticVotingBallot.verify, QuadraticVotingParams.checkOptionsCount, hl, if_true,
    Option.bind_eq_bind, Option.bind_eq_some_iff]
  constructor
  · rintro ⟨r, hr, h⟩
    match r, h with
    | .error e', h =>
      simp only [Option.pure_def, Option.some.injEq, Except.error.injEq] at h
      subst h
      obtain ⟨j, v, err, t', h1, h2, h3, h4⟩ := (verifyVotes_error _ 0 _).mp hr
      simp only [Nat.zero_add, QuadraticVotingError.Variant.injEq] at h1
      obtain ⟨rfl, rfl⟩ := h1
      exact ⟨trivial, ⟨v, t', h2, h3⟩, h4⟩
    | .ok (), h =>
      simp only [Option.bind_eq_some_iff, Prod.exists] at h
      obtain ⟨r, t, hc, h⟩ := h
      match r, h with
      | .error e, h => simp at h
      | .ok (), h =>
        simp only [Option.bind_eq_some_iff, Prod.exists] at h
        obtain ⟨r, t2, he, h⟩ := h
        match r, h with
        | .error e, h => simp at h
        | .ok (), h => simp at h
  · rintro ⟨-, ⟨v, t', h2, h3⟩, h4⟩
    exact ⟨_, (verifyVotes_error _ 0 _).mpr ⟨i, v, e, t', by rw [Nat.zero_add], h2, h3, h4⟩, rfl⟩

/-- C38 (quadratic voting): an error in the credit range proof is reported exactly if the number of options
is right, all votes are accepted and this proof fails. -/
theorem C38_voting_credit (B : Backend F E) (ballot : QuadraticVotingBallot F E)
    (params : QuadraticVotingParams E) (e : VerificationError) :
    ballot.verify B params = some (.error (.CreditRange e)) ↔
    ballot.votes.length = params.optionsCount ∧
    (∀ v ∈ ballot.votes, ∃ t', v.rangeProof.verify B params.receiver params.voteCountRange
      v.ciphertext (Transcript.new "quadratic_voting_variant") = some (.ok (), t')) ∧
    ∃ t', ballot.credit.rangeProof.verify B params.receiver params.creditRange ballot.credit.ciphertext
      (Transcript.new "quadratic_voting_credit_range") = some (.error e, t') := by
  by_cases hl : params.optionsCount = ballot.votes.length
  swap
  · simp [QuadraticVotingBallot.verify, QuadraticVotingParams.checkOptionsCount, hl]
    intro h; exact absurd h.symm hl
  simp only [QuadraticVotingBallot.verify, QuadraticVotingParams.checkOptionsCount, hl, if_true,
    Option.bind_eq_bind, Option.bind_eq_some_iff]
  constructor
  · rintro ⟨r, hr, h⟩
    match r, h with
    | .error e', h =>
      simp only [Option.pure_def, Option.some.injEq, Except.error.injEq] at h
      subst h
      obtain ⟨j, v, err, t', h1, -⟩ := (verifyVotes_error _ 0 _).mp hr
      cases h1
    | .ok (), h =>
      simp only [Option.bind_eq_some_iff, Prod.exists] at h
      obtain ⟨r, t, hc, h⟩ := h
      match r, h with
      | .error e', h =>
        simp only [Option.pure_def, Option.some.injEq, Except.error.injEq,
          QuadraticVotingError.CreditRange.injEq] at h
        subst h
        exact ⟨trivial, (verifyVotes_ok _ 0).mp hr, t, hc⟩
      | .ok (), h =>
        simp only [Option.bind_eq_some_iff, Prod.exists] at h
        obtain ⟨r, t2, he, h⟩ := h
        match r, h with
        | .error e, h => simp at h
        | .ok (), h => simp at h
  · rintro ⟨-, hr, t, hc⟩
    exact ⟨_, (verifyVotes_ok _ 0).mpr hr, by simp only [hc, Option.bind_some, Option.pure_def]⟩

/-- C38 (quadratic voting): an error in the equivalence proof is reported last. -/
theorem C38_voting_equivalence (B : Backend F E) (ballot : QuadraticVotingBallot F E)
    (params : QuadraticVotingParams E) (e : VerificationError) :
    ballot.verify B params = some (.error (.CreditEquivalence e)) ↔
    ballot.votes.length = params.optionsCount ∧
    (∀ v ∈ ballot.votes, ∃ t', v.rangeProof.verify B params.receiver params.voteCountRange
      v.ciphertext (Transcript.new "quadratic_voting_variant") = some (.ok (), t')) ∧
    (∃ t', ballot.credit.rangeProof.verify B params.receiver params.creditRange ballot.credit.ciphertext
      (Transcript.new "quadratic_voting_credit_range") = some (.ok (), t')) ∧
    ∃ t', ballot.creditEquivalenceProof.verify B (ballot.votes.map (·.ciphertext))
      ballot.credit.ciphertext params.receiver (Transcript.new "quadratic_voting_credit_equiv") =
        some (.error e, t') := by
  by_cases hl : params.optionsCount = ballot.votes.length
  swap
  · simp [QuadraticVotingBallot.verify, QuadraticVotingParams.checkOptionsCount, hl]
    intro h; exact absurd h.symm hl
  simp only [QuadraticVotingBallot.verify, QuadraticVotingParams.checkOptionsCount, hl, if_true,
    Option.bind_eq_bind, Option.bind_eq_some_iff]
  constructor
  · rintro ⟨r, hr, h⟩
    match r, h with
    | .error e', h =>
      simp only [Option.pure_def, Option.some.injEq, Except.error.injEq] at h
      subst h
      obtain ⟨j, v, err, t', h1, -⟩ := (verifyVotes_error _ 0 _).mp hr
      cases h1
    | .ok (), h =>
      simp only [Option.bind_eq_some_iff, Prod.exists] at h
      obtain ⟨r, t, hc, h⟩ := h
      match r, h with
      | .error e', h => simp at h
      | .ok (), h =>
        simp only [Option.bind_eq_some_iff, Prod.exists] at h
        obtain ⟨r, t2, he, h⟩ := h
        match r, h with
        | .error e', h =>
          simp only [Option.pure_def, Option.some.injEq, Except.error.injEq,
            QuadraticVotingError.CreditEquivalence.injEq] at h
          subst h
          exact ⟨trivial, (verifyVotes_ok _ 0).mp hr, ⟨t, hc⟩, t2, he⟩
        | .ok (), h => simp at h
  · rintro ⟨-, hr, ⟨t, hc⟩, t2, he⟩
    exact ⟨_, (verifyVotes_ok _ 0).mpr hr, by simp only [hc, he, Option.bind_some, Option.pure_def]⟩

/-- C50: with total encodings verification never panics. -/
theorem C50_voting_verify_total (B : Backend F E) (hT : B.TotalSer) (ballot : QuadraticVotingBallot F E)
    (params : QuadraticVotingParams E) : ∃ out, ballot.verify B params = some out := by
  by_cases hl : params.optionsCount = ballot.votes.length
  swap
  · exact ⟨_, (C38_voting_count B ballot params _ _).mpr ⟨fun h => hl h.symm, rfl, rfl⟩⟩
  obtain ⟨r, hr⟩ := verifyVotes_total hT params.receiver params.voteCountRange ballot.votes 0
  obtain ⟨⟨r2, t2⟩, h2⟩ := C50_range_verify_total B hT ballot.credit.rangeProof params.receiver
    params.creditRange ballot.credit.ciphertext (Transcript.new "quadratic_voting_credit_range")
  obtain ⟨⟨r3, t3⟩, h3⟩ := C50_sum_sq_verify_total B hT ballot.creditEquivalenceProof
    (ballot.votes.map (·.ciphertext)) ballot.credit.ciphertext params.receiver
    (Transcript.new "quadratic_voting_credit_equiv")
  simp only [QuadraticVotingBallot.verify, QuadraticVotingParams.checkOptionsCount, hl, if_true, hr,
    h2, h3, Option.bind_eq_bind, Option.bind_some, Option.pure_def]
  match r, r2, r3 with
  | .error _, _, _ => exact ⟨_, rfl⟩
  | .ok (), .error _, _ => exact ⟨_, rfl⟩
  | .ok (), .ok (), .error _ => exact ⟨_, rfl⟩
  | .ok (), .ok (), .ok () => exact ⟨_, rfl⟩

example : ∃ out, (⟨[⟨⟨0, 0⟩, ⟨[], ⟨0, []⟩⟩⟩, ⟨⟨0, 0⟩, ⟨[], ⟨0, []⟩⟩⟩], ⟨⟨0, 0⟩, ⟨[], ⟨0, []⟩⟩⟩, ⟨0, [], 0⟩⟩ :
    QuadraticVotingBallot (ZMod 101) (ZMod 101)).verify B101 exampleVoting = some out :=
  C50_voting_verify_total B101 B101_total _ _

/-- C50, finding: for SEC1 backends a ballot whose first range proof consists of zeros makes the verifier
panic. -/
theorem C50_voting_verify_panics_sec1 (B : Backend F E) (hS : B.Sec1Ser)
    (params : QuadraticVotingParams E) (o c m : ℕ) (hp : VotingParamsFor B params o c m)
    (ct : Ciphertext E) (partials : List (Ciphertext E))
    (hl : partials.length + 1 = params.voteCountRange.admissibleValues.length)
    (rest : List (CiphertextWithRangeProof F E)) (hr : rest.length + 1 = o)
    (credit : CiphertextWithRangeProof F E) (proof : SumOfSquaresProof F) :
    (⟨⟨ct, ⟨partials, ⟨0, List.replicate
      (params.voteCountRange.admissibleValues.map List.length).sum 0⟩⟩⟩ :: rest, credit, proof⟩ :
      QuadraticVotingBallot F E).verify B params = none := by
  have := C50_range_verify_panics_sec1 B hS _ _ hp.votes params.receiver ct partials hl
    (Transcript.new "quadratic_voting_variant")
  simp [QuadraticVotingBallot.verify, QuadraticVotingParams.checkOptionsCount, hp.options, ← hr,
    verifyVotes, this]

example : (⟨[], ⟨⟨1, 2⟩, ⟨[], ⟨0, []⟩⟩⟩, ⟨0, [], 0⟩⟩ : QuadraticVotingBallot (ZMod 101) (ZMod 101)).verify B101
    exampleVoting = some (.error (.OptionsLenMismatch 2 0)) :=
  (C38_voting_count B101 _ _ _ _).mpr
    ⟨by rw [exampleVoting_for.1.options]; decide, exampleVoting_for.1.options.symm, rfl⟩

/-- The first option has an honest range proof, the second one a proof of a wrong length. -/
example : ∃ v a b, (⟨[v, ⟨⟨1, 2⟩, ⟨List.replicate 20 ⟨1, 2⟩, ⟨0, []⟩⟩⟩], ⟨⟨1, 2⟩, ⟨[], ⟨0, []⟩⟩⟩, ⟨0, [], 0⟩⟩ :
    QuadraticVotingBallot (ZMod 101) (ZMod 101)).verify B101 exampleVoting =
      some (.error (.Variant 1 (.LenMismatch "admissible values" a b))) := by
  have hp := exampleVoting_for.1
  obtain ⟨ct, proof, t', rng', h⟩ := RangeProof.new_total B101_total hp.votes exampleVoting.receiver
    (value := 3) (by norm_num) (Transcript.new "quadratic_voting_variant") (5 : ℕ)
  have h2 := (RangeProof.new_spec hp.votes h).2.2.2
  have hf := hp.votes.facts
  have hlen : exampleVoting.voteCountRange.admissibleValues.length ≤ 5 := by
    rw [hf.values, List.length_map]
    have h1 := hf.size_le
    have key : ∀ l : List RingSpec, (∀ s ∈ l, 2 ≤ s.size) → l.length ≤ (l.map (·.size)).sum := by
      intro l
      induction l with
      | nil => simp
      | cons s l ih =>
        intro h
        have := h s (by simp)
        have := ih fun s hs => h s (by simp [hs])
        simp only [List.length_cons, List.map_cons, List.sum_cons]
        omega
    have := key exampleVoting.voteCountRange.inner.rings fun s hs => (hf.nested.size_step s hs).1
    omega
  obtain ⟨t2, h3⟩ := (C16_range_len_mismatch B101 ⟨List.replicate 20 ⟨1, 2⟩, ⟨0, []⟩⟩
    exampleVoting.receiver exampleVoting.voteCountRange ⟨1, 2⟩
    (Transcript.new "quadratic_voting_variant")).1 (by simp only [List.length_replicate]; omega)
  refine ⟨⟨ct.generalize.ciphertext, proof⟩, _, _, (C38_voting_variant B101 _ _ _ _).mpr
    ⟨by rw [hp.options]; rfl, ⟨_, t2, rfl, h3⟩, ?_⟩⟩
  intro v hv
  simp only [List.take_succ_cons, List.take_zero, List.mem_singleton] at hv
  subst hv
  exact ⟨t', h2⟩

/-- A ballot with an honest vote part, and a credit range proof or credit equivalence proof of a wrong
length. -/
example : ∃ ballot ballot' : QuadraticVotingBallot (ZMod 101) (ZMod 101), ∃ a b c d,
    ballot.verify B101 exampleVoting = some (.error (.CreditRange (.LenMismatch "admissible values" a b))) ∧
    ballot'.verify B101 exampleVoting =
      some (.error (.CreditEquivalence (.LenMismatch "ciphertext responses" c d))) := by
  obtain ⟨⟨ballot, rng'⟩, h⟩ := (C36_ballot_total B101 B101_total exampleVoting 2 16 4
    exampleVoting_for.1 [0, 4] (.inl rfl) (5 : ℕ)).mpr (by decide)
  obtain ⟨h1, -⟩ := C36_ballot_complete B101 exampleVoting 2 16 4 exampleVoting_for.1 42
    (by rw [exampleVoting_for.2]; decide) [0, 4] (.inl rfl) _ _ ballot h
  obtain ⟨-, hl, hv, ⟨tc, hc⟩, -⟩ := QuadraticVotingBallot.verify_ok.mp h1
  obtain ⟨t2, h3⟩ := (C16_range_len_mismatch B101
    ⟨List.replicate exampleVoting.creditRange.admissibleValues.length ⟨1, 2⟩, ⟨0, []⟩⟩
    exampleVoting.receiver exampleVoting.creditRange ⟨1, 2⟩
    (Transcript.new "quadratic_voting_credit_range")).1 (by simp)
  obtain ⟨t4, h4⟩ := (C16_sum_sq_len_mismatch B101 ⟨0, [1], 0⟩ (ballot.votes.map (·.ciphertext))
    ballot.credit.ciphertext exampleVoting.receiver
    (Transcript.new "quadratic_voting_credit_equiv")).1 (by simp only [List.length_singleton]; omega)
  exact ⟨⟨ballot.votes, ⟨⟨1, 2⟩, _⟩, ballot.creditEquivalenceProof⟩,
    ⟨ballot.votes, ballot.credit, ⟨0, [1], 0⟩⟩, _, _, _, _,
    (C38_voting_credit B101 _ _ _).mpr ⟨hl, hv, t2, h3⟩,
    (C38_voting_equivalence B101 _ _ _).mpr ⟨hl, hv, ⟨tc, hc⟩, t4, h4⟩⟩

example : ∃ ballot : QuadraticVotingBallot (ZMod 101) (ZMod 101), ∃ params,
    VotingParamsFor S101 params 1 16 4 ∧ ballot.verify S101 params = none := by
  obtain ⟨params, m, -, -, h3, h4, hp, -⟩ := C35_params_new S101 _
    C27_estimate_exact ⟨[2, 42], 42⟩ 1 16 (by norm_num) (by norm_num) (by norm_num)
  have hm : m = 4 := by
    have : m < 5 := by by_contra h; have := Nat.mul_le_mul (not_lt.mp h) (not_lt.mp h); omega
    interval_cases m <;> omega
  subst hm
  have hf := hp.votes.facts
  have : 0 < params.voteCountRange.admissibleValues.length := by
    rw [hf.values, List.length_map]
    exact List.length_pos_iff.mpr hf.nested.ne_nil
  exact ⟨_, params, hp, C50_voting_verify_panics_sec1 S101 S101_sec1 params 1 16 4 hp ⟨1, 2⟩
    (List.replicate (params.voteCountRange.admissibleValues.length - 1) ⟨1, 2⟩)
    (by rw [List.length_replicate]; omega) [] rfl ⟨⟨1, 2⟩, ⟨[], ⟨0, []⟩⟩⟩ ⟨0, [], 0⟩⟩

end ElasticElgamal
