import Verif.Lemmas.Choice
import Verif.Toy
import Mathlib.Algebra.CharP.Basic

/-!
# Encrypted choices: completeness, soundness, tallies (C32, C33, C34, C38, C50)
-/

set_option autoImplicit false
set_option linter.unusedSectionVars false

namespace ElasticElgamal

open Spec Toy

variable {F E : Type} [Field F] [AddCommGroup E] [Module F E] [DecidableEq F] [DecidableEq E]

theorem sum_ite_eq_count (bits : List Bool) :
    (bits.map fun f : Bool => if f then 1 else 0).sum = bits.count true := by
  induction bits with
  | nil => rfl
  | cons b bits ih => cases b <;> simp [ih, Nat.add_comm]

/-- C32: parameters can be created exactly for a positive number of options. -/
theorem C32_params (K : PublicKey E) (n : ℕ) :
    ((∃ p, ChoiceParams.single K n = some p) ↔ 0 < n) ∧
    ((∃ p, ChoiceParams.multi K n = some p) ↔ 0 < n) ∧
    (∀ p, ChoiceParams.single K n = some p → p.optionsCount = n ∧ p.receiver = K) ∧
    (∀ p, ChoiceParams.multi K n = some p → p.optionsCount = n ∧ p.receiver = K) := by
  refine ⟨?_, ?_, ?_, ?_⟩
  · by_cases h : 0 < n <;> simp [ChoiceParams.single, h, guard]
  · by_cases h : 0 < n <;> simp [ChoiceParams.multi, h, guard]
  · by_cases h : 0 < n <;> simp [ChoiceParams.single, h, guard]
  · by_cases h : 0 < n <;> simp [ChoiceParams.multi, h, guard]

example : ∃ p, ChoiceParams.single (⟨[42], 42⟩ : PublicKey (ZMod 101)) 3 = some p :=
  (C32_params _ _).1.mpr (by decide)

/-- C32: a ballot created by `new` (for a single-choice poll: with exactly one selected option) verifies,
verification returns its ciphertexts, and these decrypt to the selection. -/
theorem C32_choice_complete (B : Backend F E) {kind : ChoiceKind} (params : ChoiceParams E kind) (k : F)
    (hK : params.receiver.element = k • B.gen) (flags : List Bool)
    (hone : kind = .single → flags.count true = 1) (rng rng' : B.Rng)
    (ballot : EncryptedChoice F E kind)
    (h : EncryptedChoice.new B params flags rng = some (ballot, rng')) :
    ballot.verify B params = some (.ok ballot.choices) ∧
    ballot.len = params.optionsCount ∧
    ballot.choices.map (SecretKey.decryptToElement k) = flags.map (if · then B.gen else 0) ∧
    EncryptsBits B k ballot.choices flags := by
  obtain ⟨hne, hlen, exts, b, c, rs, t1, rng1, s, hadd, hbuild, hred, hsum, hch, hrp⟩ :=
    EncryptedChoice.new_eq_some h
  obtain ⟨hrun, hop⟩ := addChoices_spec flags hadd
  have hop' : List.Forall₂ (OpenedExt B params.receiver.element) exts
      (flags.map fun f : Bool => if f then B.gen else 0) := by
    rw [List.forall₂_map_right_iff]; exact hop
  obtain ⟨hs1, hs2⟩ := reduce_ext hop' hred
  have hel : exts.length = flags.length := hop.length_eq
  have hcl : ballot.choices.length = params.optionsCount := by rw [hch, List.length_map, hel, hlen]
  have hbits : EncryptsBits B k ballot.choices flags := by
    rw [hch]
    unfold EncryptsBits
    rw [List.forall₂_map_left_iff]
    exact hop.imp fun _ _ h => OpenedExt.encrypts hK h
  have hring := C22_ring_complete B params.receiver (bitSteps B flags) (bitSteps_honest flags)
    (List.replicate (2 * params.optionsCount) 0) (by
      rw [List.length_replicate, ← hlen]
      simp [bitSteps, Function.comp_def, Nat.mul_comm]) _ _ _ _ _ _ hrun _ _ hbuild
  have hvals : (bitSteps B flags).map (·.values) = List.replicate ballot.choices.length [0, B.gen] := by
    rw [hcl, ← hlen]
    simp [bitSteps, Function.comp_def]
  rw [hvals, ← hch] at hring
  have hvsum : SumProof.verify B kind (ctSum ballot.choices) ballot.sumProof params.receiver =
      some (.ok ()) := by
    cases kind with
    | multi => rfl
    | single =>
      simp only [SumProof.prove, Option.bind_eq_bind, Option.bind_eq_some_iff, Option.pure_def,
        Option.some.injEq, Prod.exists] at hsum
      obtain ⟨p, t2, rng2, hnew, hp⟩ := hsum
      have h1 : s.inner.random = s.randomScalar • B.gen := hs1.1
      have h2 : s.inner.blinded - B.gen = s.randomScalar • params.receiver.element := by
        rw [hs1.2, sum_bits (F := F), sum_ite_eq_count, hone rfl]
        module
      change LogEqualityProof.new B params.receiver s.randomScalar
        (s.inner.random, s.inner.blinded - B.gen) _ _ = _ at hnew
      rw [h1, h2] at hnew
      have := C11_log_eq_complete B _ _ _ _ _ _ _ hnew
      rw [← h1, ← h2, hs2, ← hch] at this
      have hp : p = ballot.sumProof := congrArg Prod.fst hp
      subst hp
      simp [SumProof.verify, this, Except.mapError]
  refine ⟨?_, hcl, ?_, hbits⟩
  · have hred' : reduce Ciphertext.add ballot.choices = some (ctSum ballot.choices) := by
      cases hc : ballot.choices with
      | nil =>
        exfalso
        rw [hc, List.length_nil] at hcl
        exact hne (List.length_eq_zero_iff.mp (hlen.trans hcl.symm))
      | cons x xs =>
        obtain ⟨y, hy⟩ : ∃ y, reduce Ciphertext.add (x :: xs) = some y := ⟨_, rfl⟩
        rw [hy, reduce_ciphertext hy]
    rw [← hrp] at hring
    simp [EncryptedChoice.verify, ChoiceParams.checkOptionsCount, hcl, hred', hvsum]
    rw [← hcl, hring]
    rfl
  · have : List.Forall₂ (fun ct (f : Bool) => SecretKey.decryptToElement k ct = if f then B.gen else 0)
        ballot.choices flags := hbits.imp fun _ _ h => h.decrypt
    rw [← List.forall₂_eq_eq_eq, List.forall₂_map_left_iff, List.forall₂_map_right_iff]
    exact this

/-- C32: with total encodings, `new` panics exactly if there are no choices or their number differs from
the parameters. -/
theorem C32_choice_total (B : Backend F E) (hT : B.TotalSer) {kind : ChoiceKind}
    (params : ChoiceParams E kind) (flags : List Bool) (rng : B.Rng) :
    (∃ out, EncryptedChoice.new B params flags rng = some out) ↔
      flags ≠ [] ∧ flags.length = params.optionsCount := by
  constructor
  · rintro ⟨⟨ballot, rng'⟩, h⟩
    obtain ⟨hne, hlen, -⟩ := EncryptedChoice.new_eq_some h
    exact ⟨hne, hlen⟩
  · rintro ⟨hne, hlen⟩
    obtain ⟨cts, b, ⟨c, rs, t', rng'⟩, hrun, hbuild⟩ := C22_ring_total B hT params.receiver
      (bitSteps B flags) (by
        intro s hs
        obtain ⟨f, -, rfl⟩ := List.mem_map.mp hs
        cases f <;> simp) (bitSteps_honest flags) (Transcript.new "encrypted_choice_ranges") rng
    have hsz : ((bitSteps B flags).map (·.values.length)).sum = 2 * params.optionsCount := by
      rw [← hlen]
      simp [bitSteps, Function.comp_def, Nat.mul_comm]
    rw [hsz] at hrun
    obtain ⟨exts, hadd, hexts⟩ := addChoices_of_run flags hrun
    obtain ⟨-, hop⟩ := addChoices_spec flags hadd
    obtain ⟨s, hs⟩ : ∃ s, reduce ExtendedCiphertext.add exts = some s := by
      cases exts with
      | nil => exact absurd (List.length_eq_zero_iff.mp hop.length_eq.symm) hne
      | cons e es => exact ⟨_, rfl⟩
    obtain ⟨⟨sp, rng2⟩, hsp⟩ : ∃ out, SumProof.prove B kind
        (s.withValue (flags.map fun flag => if flag then 1 else 0).sum) params.receiver rng' =
          some out := by
      cases kind with
      | multi => exact ⟨_, rfl⟩
      | single =>
        obtain ⟨⟨p, t2, rng2⟩, hp⟩ := C11_log_eq_new_total B hT params.receiver
          (s.withValue (flags.map fun flag => if flag then 1 else 0).sum).randomness
          ((s.withValue (flags.map fun flag => if flag then 1 else 0).sum).ciphertext.random,
            (s.withValue (flags.map fun flag => if flag then 1 else 0).sum).ciphertext.blinded - B.gen)
          (Transcript.new "choice_encryption_sum") rng'
        exact ⟨(p, rng2), by simp only [SumProof.prove, hp]; rfl⟩
    exact ⟨_, by
      simp only [EncryptedChoice.new, guard, hne, hlen, hadd, hbuild, hs, hsp, Option.bind_eq_bind,
        ne_eq, not_false_eq_true, if_true, Option.pure_def, Option.bind_some]; rfl⟩

example : ∃ ballot rng', EncryptedChoice.new B101 (kind := .multi) ⟨3, ⟨[42], 42⟩⟩ [true, false, true] (1 : ℕ) =
    some (ballot, rng') ∧ ballot.verify B101 ⟨3, ⟨[42], 42⟩⟩ = some (.ok ballot.choices) := by
  obtain ⟨⟨ballot, rng'⟩, h⟩ := (C32_choice_total B101 B101_total (kind := .multi) ⟨3, ⟨[42], 42⟩⟩
    [true, false, true] (1 : ℕ)).mpr ⟨by decide, rfl⟩
  exact ⟨ballot, rng', h, (C32_choice_complete B101 (kind := .multi) ⟨3, ⟨[42], 42⟩⟩ 42 (by decide) _ nofun
    _ _ ballot h).1⟩

theorem indicator_count (n c : ℕ) :
    ((List.range n).map fun i => decide (c = i)).count true = if c < n then 1 else 0 := by
  induction n with
  | zero => simp
  | succ n ih =>
    rw [List.range_succ, List.map_append, List.count_append, ih]
    by_cases h : c = n
    · subst h; simp
    · have : decide (c = n) = false := by simpa using h
      simp only [List.map_cons, List.map_nil, this]
      by_cases h2 : c < n
      · simp [h2, Nat.lt_succ_of_lt h2]
      · have : ¬ c < n + 1 := by omega
        simp [h2, this]

/-- C32: with total encodings `single` panics exactly for an option out of range. -/
theorem C32_single_total (B : Backend F E) (hT : B.TotalSer) (params : ChoiceParams E .single)
    (choice : ℕ) (rng : B.Rng) :
    (∃ out, EncryptedChoice.single B params choice rng = some out) ↔ choice < params.optionsCount := by
  by_cases h : choice < params.optionsCount
  · have := (C32_choice_total B hT params
      ((List.range params.optionsCount).map fun i => decide (choice = i)) rng).mpr ⟨by
        intro h0
        have := congrArg List.length h0
        simp only [List.length_map, List.length_range, List.length_nil] at this
        omega, by simp⟩
    obtain ⟨out, ho⟩ := this
    simp only [h, iff_true]
    exact ⟨out, by simp [EncryptedChoice.single, guard, h, ho]⟩
  · simp [EncryptedChoice.single, guard, h]

/-- C32: a ballot created by `single` verifies, and decrypts to the generator for the chosen option and to
the identity for all others. -/
theorem C32_single_complete (B : Backend F E) (params : ChoiceParams E .single) (k : F)
    (hK : params.receiver.element = k • B.gen) (choice : ℕ) (rng rng' : B.Rng)
    (ballot : EncryptedChoice F E .single)
    (h : EncryptedChoice.single B params choice rng = some (ballot, rng')) :
    choice < params.optionsCount ∧ ballot.verify B params = some (.ok ballot.choices) ∧
    ballot.choices.length = params.optionsCount ∧
    ∀ (i : ℕ) ct, ballot.choices[i]? = some ct →
      SecretKey.decryptToElement k ct = if i = choice then B.gen else 0 := by
  simp only [EncryptedChoice.single, Option.bind_eq_bind, Option.bind_eq_some_iff, guard_eq_some'] at h
  obtain ⟨-, hlt, h⟩ := h
  obtain ⟨h1, h2, h3, -⟩ := C32_choice_complete B params k hK _
    (fun _ => by rw [indicator_count, if_pos hlt]) _ _ _ h
  refine ⟨hlt, h1, h2, fun i ct hi => ?_⟩
  have := congrArg (·[i]?) h3
  simp only [List.getElem?_map, hi, Option.map_some] at this
  have hil : i < params.optionsCount := by
    rw [← h2]
    exact (List.getElem?_eq_some_iff.mp hi).1
  simp only [List.getElem?_range hil, Option.map_some, Option.some.injEq, decide_eq_true_eq] at this
  rw [this]
  simp only [eq_comm]

example : ∃ ballot rng', EncryptedChoice.single B101 ⟨3, ⟨[42], 42⟩⟩ 1 (0 : ℕ) = some (ballot, rng') ∧
    ballot.choices.map (SecretKey.decryptToElement (42 : ZMod 101)) = [0, 1, 0] := by
  obtain ⟨⟨ballot, rng'⟩, h⟩ := (C32_single_total B101 B101_total ⟨3, ⟨[42], 42⟩⟩ 1 (0 : ℕ)).mpr
    (by decide)
  refine ⟨ballot, rng', h, ?_⟩
  obtain ⟨-, -, hl, hd⟩ := C32_single_complete B101 ⟨3, ⟨[42], 42⟩⟩ 42 (by decide) 1 _ _ ballot h
  have hl : ballot.choices.length = 3 := hl
  match hc : ballot.choices with
  | [a, b, c] =>
    rw [hc] at hd
    simp [hd 0 a rfl, hd 1 b rfl, hd 2 c rfl, B101, toy]
  | [] | [_] | [_, _] | _ :: _ :: _ :: _ :: _ => rw [hc] at hl; simp at hl

/-- Decomposition of a successful verification. -/
theorem EncryptedChoice.verify_ok {B : Backend F E} {kind : ChoiceKind}
    {ballot : EncryptedChoice F E kind} {params : ChoiceParams E kind} {cts : List (Ciphertext E)}
    (h : ballot.verify B params = some (.ok cts)) :
    cts = ballot.choices ∧ ballot.choices.length = params.optionsCount ∧ ballot.choices ≠ [] ∧
    SumProof.verify B kind (ctSum ballot.choices) ballot.sumProof params.receiver = some (.ok ()) ∧
    ∃ t, ballot.rangeProof.verify B params.receiver (List.replicate ballot.choices.length [0, B.gen])
      ballot.choices (Transcript.new "encrypted_choice_ranges") = some (.ok (), t) := by
  by_cases hl : params.optionsCount = ballot.choices.length
  · simp only [EncryptedChoice.verify, ChoiceParams.checkOptionsCount, hl, if_true, Option.bind_eq_bind,
      Option.bind_eq_some_iff] at h
    obtain ⟨s, hs, r, hr, h⟩ := h
    rw [reduce_ciphertext hs] at hr
    match r, h with
    | .ok (), h =>
      simp only [Option.bind_eq_some_iff, Option.pure_def, Option.some.injEq, Prod.exists] at h
      obtain ⟨r, t, hv, hr'⟩ := h
      match r, hr' with
      | .ok (), hr' =>
        cases hr'
        refine ⟨rfl, hl.symm, fun h0 => ?_, hr, t, hv⟩
        rw [h0] at hs; cases hs
  · simp [EncryptedChoice.verify, ChoiceParams.checkOptionsCount, hl] at h

/-- C33: for an accepted ballot either some proof was forged or all ciphertexts encrypt bits; in a
single-choice ballot (with at most as many options as the group order) exactly one bit is set. -/
theorem C33_choice_sound (B : Backend F E) (hgen : B.gen ≠ 0) (p : ℕ) [CharP F p] {kind : ChoiceKind}
    (params : ChoiceParams E kind) (k : F) (hK : params.receiver.element = k • B.gen)
    (ballot : EncryptedChoice F E kind) (cts : List (Ciphertext E))
    (h : ballot.verify B params = some (.ok cts)) :
    cts = ballot.choices ∧ cts.length = params.optionsCount ∧
    (ChoiceForged B params.receiver ballot ∨
      ∃ bits, EncryptsBits B k cts bits ∧
        (kind = .single → params.optionsCount ≤ p → bits.count true = 1)) := by
  obtain ⟨rfl, hl, hne, hsum, t, hring⟩ := EncryptedChoice.verify_ok h
  refine ⟨rfl, hl, ?_⟩
  rcases RingProof.verify_forged hK hring with hr | hr
  swap
  · left; left
    have : (ballot.choices.map fun _ => [0, B.gen]) =
        List.replicate ballot.choices.length [0, B.gen] := by simp
    rw [this]
    exact hr
  have hbits : ∃ bits, EncryptsBits B k ballot.choices bits := by
    have : ∀ ct ∈ ballot.choices, ∃ b : Bool, Encrypts B k ct (if b then B.gen else 0) := by
      intro ct hct
      obtain ⟨i, hi, rfl⟩ := List.getElem_of_mem hct
      obtain ⟨v, hv, he⟩ := hr i [0, B.gen] ballot.choices[i] (by simp [hi]) (by simp [hi]) (by simp)
      simp only [List.mem_cons, List.not_mem_nil, or_false] at hv
      rcases hv with rfl | rfl
      · exact ⟨false, by simpa using he⟩
      · exact ⟨true, by simpa using he⟩
    clear hr hring h hsum hl hne
    unfold EncryptsBits
    generalize ballot.choices = cts at this
    induction cts with
    | nil => exact ⟨[], .nil⟩
    | cons c cs ih =>
      obtain ⟨b, hb⟩ := this c (by simp)
      obtain ⟨bs, hbs⟩ := ih fun ct hct => this ct (by simp [hct])
      exact ⟨b :: bs, .cons hb hbs⟩
  obtain ⟨bits, hb⟩ := hbits
  cases kind with
  | multi => exact .inr ⟨bits, hb, nofun⟩
  | single =>
    simp only [SumProof.verify, Option.bind_eq_bind, Option.bind_eq_some_iff, Option.pure_def,
      Option.some.injEq, Prod.exists] at hsum
    obtain ⟨r, t2, hv, hr2⟩ := hsum
    match r, hr2 with
    | .ok (), _ =>
      rcases LogEqualityProof.verify_forged hv with hs | hs
      swap
      · exact .inl (.inr hs)
      refine .inr ⟨bits, hb, fun _ hp => ?_⟩
      obtain ⟨r, h1, h2⟩ := hs
      have e1 : Encrypts B k (ctSum ballot.choices) B.gen :=
        ⟨r, h1, by rw [← hK, ← h2]; simp⟩
      have e2 := hb.sum
      rw [sum_ite_eq_count] at e2
      have e3 := e2.unique e1
      have e4 : ((bits.count true : ℕ) : F) = ((1 : ℕ) : F) := by
        apply smul_left_injective F hgen
        simpa using e3
      have hc : bits.count true ≤ params.optionsCount := by
        rw [← hl, List.Forall₂.length_eq hb]
        exact List.count_le_length
      have h0 : bits.count true ≠ 0 := by
        intro h0
        rw [h0] at e4
        simp at e4
      have := (CharP.natCast_eq_natCast F p).mp e4
      by_contra hne1
      have h2 := (Nat.modEq_iff_dvd' (by omega)).mp this.symm
      have := Nat.le_of_dvd (by omega) h2
      omega

example : ∃ ballot rng', EncryptedChoice.single B101 ⟨3, ⟨[42], 42⟩⟩ 1 (0 : ℕ) = some (ballot, rng') ∧
    (ChoiceForged B101 ⟨[42], 42⟩ ballot ∨ ∃ bits, EncryptsBits B101 42 ballot.choices bits ∧
      (ChoiceKind.single = .single → 3 ≤ 101 → bits.count true = 1)) := by
  obtain ⟨⟨ballot, rng'⟩, h⟩ := (C32_single_total B101 B101_total ⟨3, ⟨[42], 42⟩⟩ 1 (0 : ℕ)).mpr
    (by decide)
  have hv := (C32_single_complete B101 ⟨3, ⟨[42], 42⟩⟩ 42 (by decide) 1 _ _ ballot h).2.1
  exact ⟨ballot, rng', h, (C33_choice_sound B101 B101_lawful.gen_ne_zero 101 ⟨3, ⟨[42], 42⟩⟩ 42
    (by decide) ballot _ hv).2.2⟩

/-- A list of bits with a single `true` is the indicator of a position. -/
theorem bits_of_count_one (bits : List Bool) (h : bits.count true = 1) :
    ∃ v < bits.length, ∀ j < bits.length, bits[j]? = some (decide (v = j)) := by
  induction bits with
  | nil => simp at h
  | cons b bits ih =>
    cases b with
    | true =>
      have h0 : bits.count true = 0 := by simpa using h
      refine ⟨0, by simp, fun j hj => ?_⟩
      cases j with
      | zero => rfl
      | succ j =>
        have hj' : j < bits.length := by simpa using hj
        simp only [List.getElem?_cons_succ, List.getElem?_eq_getElem hj', Option.some.injEq]
        have : bits[j] ≠ true := fun e =>
          List.count_eq_zero.mp h0 (e ▸ List.getElem_mem hj')
        simpa using this
    | false =>
      obtain ⟨v, hv, hb⟩ := ih (by simpa using h)
      refine ⟨v + 1, by simpa using hv, fun j hj => ?_⟩
      cases j with
      | zero => simp
      | succ j => simpa using hb j (by simpa using hj)

theorem sum_count_range (n : ℕ) (votes : List ℕ) (h : ∀ v ∈ votes, v < n) :
    ((List.range n).map fun j => votes.count j).sum = votes.length := by
  induction votes with
  | nil => simp
  | cons v votes ih =>
    have hv := h v (by simp)
    have h1 : ((List.range n).map fun j => (v :: votes).count j).sum =
        ((List.range n).map fun j => votes.count j).sum +
          ((List.range n).map fun j => if v = j then 1 else 0).sum := by
      rw [← List.sum_map_add]
      congr 1
      apply List.map_congr_left
      intro j _
      simp [List.count_cons]
    have h2 := sum_ite_eq_count ((List.range n).map fun i => decide (v = i))
    rw [indicator_count, if_pos hv, List.map_map] at h2
    simp only [Function.comp_def, decide_eq_true_eq] at h2
    rw [h1, ih fun w hw => h w (by simp [hw]), h2, List.length_cons]

theorem tally_encrypts {B : Backend F E} {k : F} (cts : List (Ciphertext E)) (vs : List E)
    (h : List.Forall₂ (Encrypts B k) cts vs) : ∀ (acc : Ciphertext E) (x : E), Encrypts B k acc x →
    Encrypts B k (cts.foldl Ciphertext.add acc) (x + vs.sum) := by
  induction h with
  | nil => intro acc x hx; simpa using hx
  | cons h _ ih =>
    intro acc x hx
    rw [List.foldl_cons, List.sum_cons, ← add_assoc]
    exact ih _ _ (hx.add h)

/-- C34: adding up accepted single-choice ballots (with at most as many options as the group order) gives,
unless a proof in one of them was forged, encryptions of the vote counts: there is one chosen option per
ballot, the tally for option `j` decrypts to `[number of ballots choosing j]G`, and these numbers add up
to the number of ballots. -/
theorem C34_single_tally (B : Backend F E) (hgen : B.gen ≠ 0) (p : ℕ) [CharP F p]
    (params : ChoiceParams E .single) (k : F) (hK : params.receiver.element = k • B.gen)
    (hp : params.optionsCount ≤ p) (ballots : List (EncryptedChoice F E .single))
    (verified : List (List (Ciphertext E)))
    (h : List.Forall₂ (fun (b : EncryptedChoice F E .single) cts =>
      b.verify B params = some (.ok cts)) ballots verified) :
    (∃ b ∈ ballots, ChoiceForged B params.receiver b) ∨
    ∃ votes : List ℕ, votes.length = ballots.length ∧ (∀ v ∈ votes, v < params.optionsCount) ∧
      (∀ j < params.optionsCount, ∃ ct, (tally params.optionsCount verified)[j]? = some ct ∧
        SecretKey.decryptToElement k ct = (votes.count j : F) • B.gen) ∧
      ((List.range params.optionsCount).map fun j => votes.count j).sum = ballots.length := by
  by_cases hf : ∃ b ∈ ballots, ChoiceForged B params.receiver b
  · exact .inl hf
  right
  push Not at hf
  have hvotes : ∃ votes : List ℕ, List.Forall₂ (fun cts v => v < params.optionsCount ∧
      ∀ j < params.optionsCount, Encrypts B k ((cts[j]?).getD Ciphertext.zero)
        (if v = j then B.gen else 0)) verified votes := by
    induction h with
    | nil => exact ⟨[], .nil⟩
    | cons hb _ ih =>
      rename_i b cts _ _ _
      obtain ⟨votes, hv⟩ := ih fun b hb => hf b (by simp [hb])
      obtain ⟨-, hl, hs⟩ := C33_choice_sound B hgen p params k hK b cts hb
      obtain ⟨bits, he, hone⟩ := hs.resolve_left (hf b (by simp))
      obtain ⟨v, hvl, hbits⟩ := bits_of_count_one bits (hone rfl hp)
      have hbl := List.Forall₂.length_eq he
      rw [← hbl, hl] at hvl
      refine ⟨v :: votes, .cons ⟨hvl, fun j hj => ?_⟩ hv⟩
      have := hbits j (by omega)
      have hj' : j < cts.length := by omega
      have hg := List.Forall₂.get he hj' (by omega)
      rw [List.getElem?_eq_getElem (by omega), Option.some.injEq] at this
      rw [List.getElem?_eq_getElem hj', Option.getD_some]
      simpa [this] using hg
  obtain ⟨votes, hv⟩ := hvotes
  have hvl : ∀ v ∈ votes, v < params.optionsCount := by
    clear h hf
    induction hv with
    | nil => simp
    | cons h _ ih => simp only [List.mem_cons, forall_eq_or_imp]; exact ⟨h.1, ih⟩
  have hlen : votes.length = ballots.length := by
    rw [← List.Forall₂.length_eq hv, ← List.Forall₂.length_eq h]
  refine ⟨votes, hlen, hvl, fun j hj => ⟨(verified.map fun cts =>
    (cts[j]?).getD Ciphertext.zero).foldl Ciphertext.add Ciphertext.zero, by simp only [tally,
    List.getElem?_map, List.getElem?_range hj, Option.map_some], ?_⟩, ?_⟩
  · have h1 : List.Forall₂ (Encrypts B k) (verified.map fun cts => (cts[j]?).getD Ciphertext.zero)
        (votes.map fun v => if v = j then B.gen else 0) := by
      rw [List.forall₂_map_left_iff, List.forall₂_map_right_iff]
      exact hv.imp fun _ _ h => h.2 j hj
    have h2 := tally_encrypts _ _ h1 Ciphertext.zero 0 ⟨0, by simp [Ciphertext.zero],
      by simp [Ciphertext.zero]⟩
    rw [h2.decrypt, zero_add]
    clear h1 h2 hv hlen hvl h
    induction votes with
    | nil => simp
    | cons v votes ih =>
      rw [List.map_cons, List.sum_cons, ih, List.count_cons]
      by_cases hvj : v = j <;> simp [hvj, add_smul, add_comm]
  · rw [sum_count_range _ _ hvl, hlen]

/-- C34: the tally of accepted multi-choice ballots counts, for every option, the ballots selecting it. -/
theorem C34_multi_tally (B : Backend F E) (hgen : B.gen ≠ 0) (p : ℕ) [CharP F p]
    (params : ChoiceParams E .multi) (k : F) (hK : params.receiver.element = k • B.gen)
    (ballots : List (EncryptedChoice F E .multi)) (verified : List (List (Ciphertext E)))
    (h : List.Forall₂ (fun (b : EncryptedChoice F E .multi) cts =>
      b.verify B params = some (.ok cts)) ballots verified) :
    (∃ b ∈ ballots, ChoiceForged B params.receiver b) ∨
    ∃ votes : List (List Bool), votes.length = ballots.length ∧
      (∀ v ∈ votes, v.length = params.optionsCount) ∧
      List.Forall₂ (fun (b : EncryptedChoice F E .multi) v => EncryptsBits B k b.choices v) ballots votes ∧
      ∀ j < params.optionsCount, ∃ ct, (tally params.optionsCount verified)[j]? = some ct ∧
        SecretKey.decryptToElement k ct = (votes.countP (fun v => v[j]? = some true) : F) • B.gen := by
  by_cases hf : ∃ b ∈ ballots, ChoiceForged B params.receiver b
  · exact .inl hf
  right
  push Not at hf
  have hvotes : ∃ votes : List (List Bool), List.Forall₂ (fun cts v => cts.length = params.optionsCount ∧
      EncryptsBits B k cts v) verified votes ∧
      List.Forall₂ (fun (b : EncryptedChoice F E .multi) v => EncryptsBits B k b.choices v)
        ballots votes := by
    induction h with
    | nil => exact ⟨[], .nil, .nil⟩
    | cons hb _ ih =>
      rename_i b cts _ _ _
      obtain ⟨votes, hv, hv'⟩ := ih fun b hb => hf b (by simp [hb])
      obtain ⟨hc, hl, hs⟩ := C33_choice_sound B hgen p params k hK b cts hb
      obtain ⟨bits, he, -⟩ := hs.resolve_left (hf b (by simp))
      exact ⟨bits :: votes, .cons ⟨hl, he⟩ hv, .cons (hc ▸ he) hv'⟩
  obtain ⟨votes, hv, hv'⟩ := hvotes
  refine ⟨votes, hv'.length_eq.symm, ?_, hv', fun j hj => ⟨(verified.map fun cts =>
    (cts[j]?).getD Ciphertext.zero).foldl Ciphertext.add Ciphertext.zero, by simp only [tally,
    List.getElem?_map, List.getElem?_range hj, Option.map_some], ?_⟩⟩
  · clear h hf hv'
    induction hv with
    | nil => simp
    | cons h _ ih =>
      simp only [List.mem_cons, forall_eq_or_imp]
      exact ⟨by rw [← h.1, List.Forall₂.length_eq h.2], ih⟩
  · have h1 : List.Forall₂ (Encrypts B k) (verified.map fun cts => (cts[j]?).getD Ciphertext.zero)
        (votes.map fun v => if v[j]? = some true then B.gen else 0) := by
      rw [List.forall₂_map_left_iff, List.forall₂_map_right_iff]
      refine hv.imp fun cts v h => ?_
      have hl := List.Forall₂.length_eq h.2
      have hg := List.Forall₂.get h.2 (i := j) (by omega) (by omega)
      rw [List.getElem?_eq_getElem (by omega), List.getElem?_eq_getElem (by omega), Option.getD_some]
      simpa using hg
    have h2 := tally_encrypts _ _ h1 Ciphertext.zero 0 ⟨0, by simp [Ciphertext.zero],
      by simp [Ciphertext.zero]⟩
    rw [h2.decrypt, zero_add]
    clear h1 h2 hv hv' h
    induction votes with
    | nil => simp
    | cons v votes ih =>
      rw [List.map_cons, List.sum_cons, ih, List.countP_cons]
      by_cases hvj : v[j]? = some true <;> simp [hvj, add_smul, add_comm]

/-- Two accepted ballots; their tally. -/
example : ∃ b : EncryptedChoice (ZMod 101) (ZMod 101) .single, (∃ b' ∈ [b, b], ChoiceForged B101 ⟨[42], 42⟩ b') ∨
    ∃ votes : List ℕ, votes.length = 2 ∧ (∀ v ∈ votes, v < 3) ∧
      (∀ j < 3, ∃ ct, (tally 3 [b.choices, b.choices])[j]? = some ct ∧
        SecretKey.decryptToElement (42 : ZMod 101) ct = (votes.count j : ZMod 101) • B101.gen) ∧
      ((List.range 3).map fun j => votes.count j).sum = 2 := by
  obtain ⟨⟨b, _⟩, h⟩ := (C32_single_total B101 B101_total ⟨3, ⟨[42], 42⟩⟩ 1 (0 : ℕ)).mpr (by decide)
  have h' := (C32_single_complete B101 ⟨3, ⟨[42], 42⟩⟩ 42 (by decide) 1 _ _ b h).2.1
  exact ⟨b, C34_single_tally B101 B101_lawful.gen_ne_zero 101 ⟨3, ⟨[42], 42⟩⟩ 42 (by decide) (by norm_num) [b, b] _
    (.cons h' (.cons h' .nil))⟩

example : ∃ b : EncryptedChoice (ZMod 101) (ZMod 101) .multi, (∃ b' ∈ [b, b], ChoiceForged B101 ⟨[42], 42⟩ b') ∨
    ∃ votes : List (List Bool), votes.length = 2 ∧ (∀ v ∈ votes, v.length = 3) ∧
      List.Forall₂ (fun (b : EncryptedChoice (ZMod 101) (ZMod 101) .multi) v => EncryptsBits B101 42 b.choices v)
        [b, b] votes ∧
      ∀ j < 3, ∃ ct, (tally 3 [b.choices, b.choices])[j]? = some ct ∧
        SecretKey.decryptToElement (42 : ZMod 101) ct =
          (votes.countP (fun v => v[j]? = some true) : ZMod 101) • B101.gen := by
  obtain ⟨⟨b, _⟩, h⟩ := (C32_choice_total B101 B101_total (kind := .multi) ⟨3, ⟨[42], 42⟩⟩ [true, false, true]
    (1 : ℕ)).mpr (by decide)
  have h' := (C32_choice_complete B101 (kind := .multi) ⟨3, ⟨[42], 42⟩⟩ 42 (by decide) _ nofun _ _ b h).1
  exact ⟨b, C34_multi_tally B101 B101_lawful.gen_ne_zero 101 ⟨3, ⟨[42], 42⟩⟩ 42 (by decide) [b, b] _
    (.cons h' (.cons h' .nil))⟩

example : ∃ b₁ b₂ : EncryptedChoice (ZMod 101) (ZMod 101) .single,
    List.Forall₂ (fun (b : EncryptedChoice (ZMod 101) (ZMod 101) .single) cts =>
      b.verify B101 ⟨3, ⟨[42], 42⟩⟩ = some (.ok cts)) [b₁, b₂] [b₁.choices, b₂.choices] := by
  obtain ⟨⟨b₁, _⟩, h₁⟩ := (C32_single_total B101 B101_total ⟨3, ⟨[42], 42⟩⟩ 1 (0 : ℕ)).mpr (by decide)
  obtain ⟨⟨b₂, _⟩, h₂⟩ := (C32_single_total B101 B101_total ⟨3, ⟨[42], 42⟩⟩ 2 (5 : ℕ)).mpr (by decide)
  exact ⟨b₁, b₂,
    .cons (C32_single_complete B101 ⟨3, ⟨[42], 42⟩⟩ 42 (by decide) 1 _ _ b₁ h₁).2.1
      (.cons (C32_single_complete B101 ⟨3, ⟨[42], 42⟩⟩ 42 (by decide) 2 _ _ b₂ h₂).2.1 .nil)⟩

/-- C38 (choice ballots): a wrong number of options is reported first, whatever the proofs are. -/
theorem C38_choice_count (B : Backend F E) {kind : ChoiceKind} (ballot : EncryptedChoice F E kind)
    (params : ChoiceParams E kind) :
    ballot.choices.length ≠ params.optionsCount ↔
    ballot.verify B params =
      some (.error (.OptionsLenMismatch params.optionsCount ballot.choices.length)) := by
  constructor
  · intro h
    simp [EncryptedChoice.verify, ChoiceParams.checkOptionsCount, Ne.symm h]
  · intro h hl
    simp only [EncryptedChoice.verify, ChoiceParams.checkOptionsCount, hl, if_true,
      Option.bind_eq_bind, Option.bind_eq_some_iff] at h
    obtain ⟨s, -, r, hr, h⟩ := h
    have hk : r ≠ .error (.OptionsLenMismatch params.optionsCount params.optionsCount) := by
      rintro rfl
      cases kind with
      | multi => simp [SumProof.verify] at hr
      | single =>
        simp only [SumProof.verify, Option.bind_eq_bind, Option.bind_eq_some_iff, Option.pure_def,
          Option.some.injEq, Prod.exists] at hr
        obtain ⟨r, _, -, hr⟩ := hr
        cases r <;> simp [Except.mapError] at hr
    match r, h, hk with
    | .error e, h, hk =>
      simp only [Option.pure_def, Option.some.injEq, Except.error.injEq] at h
      exact hk (by rw [h])
    | .ok (), h, _ =>
      simp only [Option.bind_eq_some_iff, Option.pure_def, Option.some.injEq, Prod.exists] at h
      obtain ⟨r, _, -, hr⟩ := h
      cases r <;> simp [Except.mapError, Except.map] at hr

/-- C38 (choice ballots): with the right number of options, a failing sum proof (of a single-choice
ballot) is reported next, as `Sum`, whatever the range proof is. -/
theorem C38_choice_sum (B : Backend F E) (ballot : EncryptedChoice F E .single)
    (params : ChoiceParams E .single) (hl : ballot.choices.length = params.optionsCount)
    (hne : ballot.choices ≠ []) (e : VerificationError) :
    ballot.verify B params = some (.error (.Sum e)) ↔
    ∃ t, LogEqualityProof.verify B ballot.sumProof params.receiver
      ((ctSum ballot.choices).random, (ctSum ballot.choices).blinded - B.gen)
      (Transcript.new "choice_encryption_sum") = some (.error e, t) := by
  obtain ⟨s, hs⟩ : ∃ s, reduce Ciphertext.add ballot.choices = some s := by
    cases hc : ballot.choices with
    | nil => exact absurd hc hne
    | cons x xs => exact ⟨_, rfl⟩
  cases hv : LogEqualityProof.verify B ballot.sumProof params.receiver
      ((ctSum ballot.choices).random, (ctSum ballot.choices).blinded - B.gen)
      (Transcript.new "choice_encryption_sum") with
  | none =>
    simp [EncryptedChoice.verify, ChoiceParams.checkOptionsCount, hl, hs, reduce_ciphertext hs,
      SumProof.verify, hv]
  | some out =>
    obtain ⟨r, t⟩ := out
    cases r with
    | error e' =>
      simp [EncryptedChoice.verify, ChoiceParams.checkOptionsCount, hl, hs, reduce_ciphertext hs,
        SumProof.verify, hv, Except.mapError]
    | ok u =>
      simp [EncryptedChoice.verify, ChoiceParams.checkOptionsCount, hl, hs, reduce_ciphertext hs,
        SumProof.verify, hv, Except.mapError]
      intro h
      rw [Option.bind_eq_some_iff] at h
      obtain ⟨⟨r, t'⟩, -, h⟩ := h
      cases r <;> simp [Except.map] at h

/-- C38 (choice ballots): a range proof error is reported exactly if the count is right, the sum proof is
accepted and the range proof fails; then the error of the range proof is returned. -/
theorem C38_choice_range (B : Backend F E) {kind : ChoiceKind} (ballot : EncryptedChoice F E kind)
    (params : ChoiceParams E kind) (e : VerificationError) :
    ballot.verify B params = some (.error (.Range e)) ↔
    ballot.choices.length = params.optionsCount ∧ ballot.choices ≠ [] ∧
    SumProof.verify B kind (ctSum ballot.choices) ballot.sumProof params.receiver = some (.ok ()) ∧
    ∃ t, ballot.rangeProof.verify B params.receiver (List.replicate ballot.choices.length [0, B.gen])
      ballot.choices (Transcript.new "encrypted_choice_ranges") = some (.error e, t) := by
  by_cases hl : params.optionsCount = ballot.choices.length
  swap
  · simp [EncryptedChoice.verify, ChoiceParams.checkOptionsCount, hl]
    exact fun h => absurd h.symm hl
  cases hc : ballot.choices with
  | nil => simp [EncryptedChoice.verify, ChoiceParams.checkOptionsCount, hl, hc, reduce]
  | cons x xs =>
    obtain ⟨s, hs⟩ : ∃ s, reduce Ciphertext.add (x :: xs) = some s := ⟨_, rfl⟩
    rw [hc] at hl
    simp only [EncryptedChoice.verify, ChoiceParams.checkOptionsCount, hl, hc, hs, if_true,
      reduce_ciphertext hs, Option.bind_eq_bind, Option.bind_some, Option.bind_eq_some_iff]
    constructor
    · rintro ⟨r, hr, h⟩
      match r, h with
      | .error e', h =>
        exfalso
        simp only [Option.pure_def, Option.some.injEq, Except.error.injEq] at h
        subst h
        cases kind with
        | multi => simp [SumProof.verify] at hr
        | single =>
          simp only [SumProof.verify, Option.bind_eq_bind, Option.bind_eq_some_iff, Option.pure_def,
            Option.some.injEq, Prod.exists] at hr
          obtain ⟨r, _, -, hr⟩ := hr
          cases r <;> simp [Except.mapError] at hr
      | .ok (), h =>
        simp only [Option.bind_eq_some_iff, Option.pure_def, Option.some.injEq, Prod.exists] at h
        obtain ⟨r, t, hv, h⟩ := h
        match r, h with
        | .error e', h =>
          simp only [Except.map, Except.mapError, Except.error.injEq,
            ChoiceVerificationError.Range.injEq] at h
          subst h
          exact ⟨trivial, by simp, hr, t, hv⟩
    · rintro ⟨-, -, hr, t, hv⟩
      exact ⟨_, hr, by simp only [hv, Except.map, Except.mapError, Option.bind_some, Option.pure_def]⟩

example : (⟨[], ⟨0, []⟩, ()⟩ : EncryptedChoice (ZMod 101) (ZMod 101) .multi).verify B101 ⟨3, ⟨[42], 42⟩⟩ =
    some (.error (.OptionsLenMismatch 3 0)) :=
  (C38_choice_count B101 _ _).mp (by decide)

example : (⟨[⟨1, 2⟩, ⟨3, 4⟩], ⟨0, []⟩, ()⟩ : EncryptedChoice (ZMod 101) (ZMod 101) .multi).verify B101
    ⟨2, ⟨[42], 42⟩⟩ = some (.error (.Range (.LenMismatch "items in all rings" 0 4))) := by
  refine (C38_choice_range B101 _ _ _).mpr ⟨rfl, by decide, rfl, ?_⟩
  exact (C16_ring_len_mismatch B101 ⟨0, []⟩ ⟨[42], 42⟩ (List.replicate 2 [0, B101.gen])
    [⟨1, 2⟩, ⟨3, 4⟩] (Transcript.new "encrypted_choice_ranges")).1 (by decide)

example : ∃ e, (⟨[⟨1, 2⟩, ⟨3, 4⟩], ⟨0, []⟩, ⟨5, 6⟩⟩ : EncryptedChoice (ZMod 101) (ZMod 101) .single).verify
    B101 ⟨2, ⟨[42], 42⟩⟩ = some (.error (.Sum e)) := by
  refine ⟨.ChallengeMismatch, (C38_choice_sum B101 _ _ rfl (by decide) _).mpr ?_⟩
  have : LogEqualityProof.verify B101 ⟨5, 6⟩ ⟨[42], 42⟩ (4, 5) (Transcript.new "choice_encryption_sum") ≠
      none := by decide +kernel
  obtain ⟨⟨r, t⟩, ht⟩ := Option.ne_none_iff_exists'.mp this
  refine ⟨t, ?_⟩
  have h2 : ((LogEqualityProof.verify B101 ⟨5, 6⟩ ⟨[42], 42⟩ (4, 5)
      (Transcript.new "choice_encryption_sum")).map fun p => match p.1 with
        | .ok () => true | .error e => decide (e ≠ .ChallengeMismatch)) = some false := by decide +kernel
  rw [ht] at h2
  have e : (ctSum ([⟨1, 2⟩, ⟨3, 4⟩] : List (Ciphertext (ZMod 101)))).random = 4 ∧
      (ctSum ([⟨1, 2⟩, ⟨3, 4⟩] : List (Ciphertext (ZMod 101)))).blinded - B101.gen = 5 := by decide
  simp only [e.1, e.2]
  match r with
  | .ok () => simp at h2
  | .error e => simp at h2; rw [ht, h2]

/-- C50: with total encodings, verification of a ballot against valid parameters never panics. -/
theorem C50_choice_verify_total (B : Backend F E) (hT : B.TotalSer) {kind : ChoiceKind}
    (ballot : EncryptedChoice F E kind) (params : ChoiceParams E kind) (hp : 0 < params.optionsCount) :
    ∃ out, ballot.verify B params = some out := by
  by_cases hl : params.optionsCount = ballot.choices.length
  swap
  · exact ⟨_, (C38_choice_count B ballot params).mp (Ne.symm hl)⟩
  obtain ⟨s, hs⟩ : ∃ s, reduce Ciphertext.add ballot.choices = some s := by
    cases hc : ballot.choices with
    | nil => rw [hl, hc] at hp; simp at hp
    | cons x xs => exact ⟨_, rfl⟩
  obtain ⟨r, hr⟩ : ∃ r, SumProof.verify B kind s ballot.sumProof params.receiver = some r := by
    cases kind with
    | multi => exact ⟨_, rfl⟩
    | single =>
      obtain ⟨⟨r, t⟩, h⟩ := C50_log_eq_verify_total B hT ballot.sumProof params.receiver
        (s.random, s.blinded - B.gen) (Transcript.new "choice_encryption_sum")
      exact ⟨_, by simp only [SumProof.verify, h]; rfl⟩
  obtain ⟨⟨r2, t⟩, h2⟩ := C50_ring_verify_total B hT ballot.rangeProof params.receiver
    (List.replicate ballot.choices.length [0, B.gen]) ballot.choices
    (Transcript.new "encrypted_choice_ranges")
  match r with
  | .error e =>
    exact ⟨.error e, by simp only [EncryptedChoice.verify, ChoiceParams.checkOptionsCount, hl, if_true,
      hs, hr, Option.bind_eq_bind, Option.bind_some, Option.pure_def]⟩
  | .ok () =>
    exact ⟨_, by simp only [EncryptedChoice.verify, ChoiceParams.checkOptionsCount, hl, if_true,
      hs, hr, h2, Option.bind_eq_bind, Option.bind_some, Option.pure_def]; rfl⟩

/-- Malformed data: no responses and zero elements. -/
example : ∃ out, (⟨[⟨0, 0⟩, ⟨0, 0⟩], ⟨0, []⟩, ⟨0, 0⟩⟩ : EncryptedChoice (ZMod 101) (ZMod 101) .single).verify B101
    ⟨2, ⟨[42], 42⟩⟩ = some out :=
  C50_choice_verify_total B101 B101_total _ _ (by decide)

/-- C50, finding: for SEC1 backends a single-choice ballot with identity ciphertexts makes the verifier
panic, for any parameters matching its length. -/
theorem C50_choice_verify_panics_sec1 (B : Backend F E) (hS : B.Sec1Ser)
    (params : ChoiceParams E .single) (rp : RingProof F)
    (sp : LogEqualityProof F) :
    (⟨List.replicate params.optionsCount ⟨0, 0⟩, rp, sp⟩ : EncryptedChoice F E .single).verify B params =
      none := by
  set ballot : EncryptedChoice F E .single := ⟨List.replicate params.optionsCount ⟨0, 0⟩, rp, sp⟩
    with hb
  have hl : params.optionsCount = ballot.choices.length := by simp [hb]
  have h0 : (ctSum ballot.choices).random = 0 := by simp [hb, ctSum]
  have hv : LogEqualityProof.verify B sp params.receiver
      ((ctSum ballot.choices).random, (ctSum ballot.choices).blinded - B.gen)
      (Transcript.new "choice_encryption_sum") = none := by
    rw [Option.eq_none_iff_forall_ne_some]
    rintro ⟨r, t⟩ h
    obtain ⟨a, _, _, _, ha, -⟩ := LogEqualityProof.verify_eq_some.mp h
    rw [h0, (hS 0).mpr rfl] at ha
    cases ha
  simp only [EncryptedChoice.verify, ChoiceParams.checkOptionsCount, ← hl, if_true]
  cases hs : reduce Ciphertext.add ballot.choices with
  | none => rfl
  | some s =>
    rw [reduce_ciphertext hs]
    simp only [SumProof.verify, Option.bind_eq_bind, Option.bind_some]
    rw [show ballot.sumProof = sp from rfl, hv]
    rfl

example : (⟨List.replicate 2 ⟨0, 0⟩, ⟨0, []⟩, ⟨0, 0⟩⟩ : EncryptedChoice (ZMod 101) (ZMod 101) .single).verify
    S101 ⟨2, ⟨[2, 42], 42⟩⟩ = none :=
  C50_choice_verify_panics_sec1 S101 S101_sec1 ⟨2, ⟨[2, 42], 42⟩⟩ _ _

end ElasticElgamal
