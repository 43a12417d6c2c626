import Verif.Lemmas.LogEq
import Verif.Spec.Keys
import Verif.Toy

/-!
# C08–C13, C21, C50, C51 for log equality proofs, verifiable decryption and zero encryption
-/

set_option autoImplicit false
set_option linter.unusedSectionVars false

namespace ElasticElgamal

open Spec Toy

variable {F E : Type} [Field F] [AddCommGroup E] [Module F E] [DecidableEq F]

/-! ## C11: completeness -/

/-- C11: a proof created for a true statement verifies in the same context, and verifier and prover end
with the same transcript. No assumption on the backend. -/
theorem C11_log_eq_complete (B : Backend F E) (K : PublicKey E) (r : F) (t t' : Transcript)
    (rng rng' : B.Rng) (proof : LogEqualityProof F)
    (h : LogEqualityProof.new B K r (r • B.gen, r • K.element) t rng = some (proof, t', rng')) :
    proof.verify B K (r • B.gen, r • K.element) t = some (.ok (), t') := by
  obtain ⟨a, d, x, y, ha, hd, hx, hy, rfl, hc, hr, -⟩ := LogEqualityProof.new_eq_some.mp h
  refine LogEqualityProof.verify_eq_some.mpr ⟨a, d, x, y, ha, hd, ?_, ?_, rfl, ?_⟩
  · rw [← hx, hr]; congr 1; module
  · rw [← hy, hr]; congr 1; module
  · rw [← hc, checkChallenge_self]

/-- C11: with total encodings the prover never panics. -/
theorem C11_log_eq_new_total (B : Backend F E) (hT : B.TotalSer) (K : PublicKey E) (r : F)
    (powers : E × E) (t : Transcript) (rng : B.Rng) :
    ∃ out, LogEqualityProof.new B K r powers t rng = some out := by
  obtain ⟨a, ha⟩ := hT powers.1
  obtain ⟨d, hd⟩ := hT powers.2
  obtain ⟨x, hx⟩ := hT ((B.genScalar rng).1 • B.gen)
  obtain ⟨y, hy⟩ := hT ((B.genScalar rng).1 • K.element)
  let c := B.challenge (logEqQuery t.log K.bytes a d x y)
  exact ⟨(⟨c, c * r + (B.genScalar rng).1⟩, _, _),
    LogEqualityProof.new_eq_some.mpr ⟨a, d, x, y, ha, hd, hx, hy, rfl, rfl, rfl, rfl⟩⟩

/-- C11 for SEC1 backends: honest proving panics only if an element to be hashed is the identity; with a
nonzero secret, nonzero nonce and non-identity base it returns. -/
theorem C11_log_eq_new_total_sec1 (B : Backend F E) (hB : B.Lawful) (K : PublicKey E)
    (hK : K.element ≠ 0) (r : F) (hr : r ≠ 0) (t : Transcript) (rng : B.Rng)
    (hx : (B.genScalar rng).1 ≠ 0) :
    ∃ out, LogEqualityProof.new B K r (r • B.gen, r • K.element) t rng = some out := by
  have ne : ∀ {s : F} {e : E}, s ≠ 0 → e ≠ 0 → s • e ≠ 0 := fun h1 h2 h =>
    (smul_eq_zero.mp h).elim h1 h2
  obtain ⟨a, ha⟩ := hB.serElem_ne_zero _ (ne hr hB.gen_ne_zero)
  obtain ⟨d, hd⟩ := hB.serElem_ne_zero _ (ne hr hK)
  obtain ⟨x, hx'⟩ := hB.serElem_ne_zero _ (ne hx hB.gen_ne_zero)
  obtain ⟨y, hy⟩ := hB.serElem_ne_zero _ (ne hx hK)
  let c := B.challenge (logEqQuery t.log K.bytes a d x y)
  exact ⟨(⟨c, c * r + (B.genScalar rng).1⟩, _, _),
    LogEqualityProof.new_eq_some.mpr ⟨a, d, x, y, ha, hd, hx', hy, rfl, rfl, rfl, rfl⟩⟩

example : ∃ out, LogEqualityProof.new S101 ⟨[2, 42], 42⟩ 5 ((5 : ZMod 101) • S101.gen, (5 : ZMod 101) • 42)
    (Transcript.new "x") (3 : ℕ) = some out :=
  C11_log_eq_new_total_sec1 S101 S101_lawful ⟨[2, 42], 42⟩ (by decide) 5 (by decide) (Transcript.new "x") (3 : ℕ)
    (by decide)

example : ∃ proof t' rng', LogEqualityProof.new B101 ⟨[42], 42⟩ 5 ((5 : ZMod 101) • B101.gen, 5 • 42)
      (Transcript.new "x") (3 : ℕ) = some (proof, t', rng') ∧
    proof.verify B101 ⟨[42], 42⟩ ((5 : ZMod 101) • B101.gen, 5 • 42) (Transcript.new "x")
      = some (.ok (), t') := by
  obtain ⟨⟨proof, t', rng'⟩, h⟩ := C11_log_eq_new_total B101 B101_total ⟨[42], 42⟩ 5
    ((5 : ZMod 101) • B101.gen, (5 : ZMod 101) • 42) (Transcript.new "x") (3 : ℕ)
  exact ⟨proof, t', rng', h, C11_log_eq_complete B101 ⟨[42], 42⟩ 5 _ _ _ _ _ h⟩

/-! ## C12: soundness -/

/-- C12: there is a function `bad` of the hashed data, fixed before the hash function, such that any
accepted proof of a false statement — for any hash function `H`, any proof, statement and context —
has `H(q) = bad(q)` for the data `q` hashed by the verifier. So each hash query admits at most one of
`|F|` challenges that is useful for cheating. -/
theorem C12_log_eq_sound (B : Backend F E) (hB : B.Lawful) :
    ∃ bad : List Entry → F, ∀ (H : List Entry → F) (proof : LogEqualityProof F) (K : PublicKey E)
      (powers : E × E) (t t' : Transcript),
      WellFormedKey B K →
      proof.verify (B.withHash H) K powers t = some (.ok (), t') →
      SameLog B K.element powers ∨ H t'.log = bad t'.log := by
  refine ⟨badLogEq B, fun H proof K powers t t' hK h => ?_⟩
  obtain ⟨a, d, x, y, ha, hd, hx, hy, rfl, hc⟩ := LogEqualityProof.verify_eq_some.mp h
  have hc := checkChallenge_ok.mp hc.symm
  change B.serElem _ = _ at ha hd hx hy
  change H _ = _ at hc
  rw [badLogEq_query, hc, hB.deElem_serElem _ _ ha, hB.deElem_serElem _ _ hd,
    hB.deElem_serElem _ _ hx, hB.deElem_serElem _ _ hy, hK]
  simp only [Option.getD_some]
  by_cases hs : B.dlog K.element * B.dlog powers.1 - B.dlog powers.2 = 0
  · left
    refine ⟨B.dlog powers.1, (hB.dlog_smul_gen _).symm, ?_⟩
    apply hB.dlog_inj
    rw [hB.dlog_smul]
    linear_combination -hs
  · right
    rw [eq_div_iff hs]
    simp only [hB.dlog_sub, hB.dlog_smul, hB.dlog_gen]
    ring

/-- A false statement `(1, 0)`, accepted for the bad challenge. -/
example : ∃ bad : List Entry → ZMod 101, ∃ t' : Transcript,
    (⟨1, 1⟩ : LogEqualityProof (ZMod 101)).verify (B101.withHash fun _ => 1) ⟨[42], 42⟩ (1, 0) (Transcript.new "x")
      = some (.ok (), t') ∧ 1 = bad t'.log := by
  obtain ⟨bad, h⟩ := C12_log_eq_sound B101 B101_lawful
  refine ⟨bad, _, rfl, (h (fun _ => 1) ⟨1, 1⟩ ⟨[42], 42⟩ (1, 0) (Transcript.new "x") _
    (by unfold WellFormedKey; decide) rfl).resolve_left ?_⟩
  rintro ⟨r, h1, h2⟩
  obtain rfl : r = 1 := by simpa [B101, toy] using h1.symm
  exact absurd h2 (by decide)

/-- C12, extraction: two accepting proofs for the same hashed data but different challenges (rewinding
the hash function from `H₁` to `H₂`) reveal the witness by an explicit formula. -/
theorem C12_log_eq_extract (B : Backend F E) (hB : B.Lawful) (H₁ H₂ : List Entry → F)
    (p₁ p₂ : LogEqualityProof F) (K : PublicKey E) (powers : E × E) (t t' : Transcript)
    (h₁ : p₁.verify (B.withHash H₁) K powers t = some (.ok (), t'))
    (h₂ : p₂.verify (B.withHash H₂) K powers t = some (.ok (), t'))
    (hne : p₁.challenge ≠ p₂.challenge) :
    let r := (p₁.response - p₂.response) / (p₁.challenge - p₂.challenge)
    powers.1 = r • B.gen ∧ powers.2 = r • K.element := by
  obtain ⟨a, d, x, y, ha, hd, hx, hy, ht, -⟩ := LogEqualityProof.verify_eq_some.mp h₁
  obtain ⟨a', d', x', y', ha', hd', hx', hy', ht', -⟩ := LogEqualityProof.verify_eq_some.mp h₂
  rw [ht, Transcript.mk.injEq] at ht'
  obtain ⟨-, -, rfl, rfl, rfl, rfl⟩ := logEqQuery_inj ht'
  have e1 := hB.serElem_inj hx hx'
  have e2 := hB.serElem_inj hy hy'
  have hne' : p₁.challenge - p₂.challenge ≠ 0 := sub_ne_zero.mpr hne
  have key : ∀ {u v : E}, (p₁.challenge - p₂.challenge) • u = (p₁.response - p₂.response) • v →
      u = ((p₁.response - p₂.response) / (p₁.challenge - p₂.challenge)) • v := by
    intro u v h
    rw [div_eq_inv_mul, mul_smul, ← h, smul_smul, inv_mul_cancel₀ hne', one_smul]
  constructor
  · apply key
    have : p₁.response • B.gen - p₁.challenge • powers.1 =
      p₂.response • B.gen - p₂.challenge • powers.1 := e1
    linear_combination (norm := module) -this
  · apply key
    have : p₁.response • K.element - p₁.challenge • powers.2 =
      p₂.response • K.element - p₂.challenge • powers.2 := e2
    linear_combination (norm := module) -this

/-- Two proofs for the secret 5 and the nonce 3, with challenges 7 and 8. -/
example : (5 : ZMod 101) = ((38 - 43) / (7 - 8) : ZMod 101) • B101.gen :=
  (C12_log_eq_extract B101 B101_lawful (fun _ => 7) (fun _ => 8) ⟨7, 38⟩ ⟨8, 43⟩ ⟨[42], 42⟩ (5, 8)
    (Transcript.new "x") _ rfl rfl (by decide)).1

/-- The soundness statement is not vacuous: a false statement does get accepted for the one bad
challenge (here the hash function is the constant `bad` value 1, response 1, `powers = (1, 0)`). -/
example : ∃ (H : List Entry → ZMod 101) (proof : LogEqualityProof (ZMod 101)) (t' : Transcript),
    proof.verify (B101.withHash H) ⟨[42], 42⟩ (1, 0) (Transcript.new "x") = some (.ok (), t') ∧
    ¬ SameLog B101 (42 : ZMod 101) (1, 0) := by
  refine ⟨fun _ => 1, ⟨1, 1⟩, ?_⟩
  refine ⟨⟨logEqQuery (Transcript.new "x").log [42] [1] [0] [0] [42]⟩, ?_, ?_⟩
  · refine LogEqualityProof.verify_eq_some.mpr ⟨[1], [0], [0], [42], ?_⟩
    decide
  · rintro ⟨r, h1, h2⟩
    have : r = 1 := by simpa [B101, toy] using h1.symm
    subst this
    revert h2
    decide

/-! ## C13: binding to context and statement -/

/-- C13: a log equality proof accepted in two settings which differ in the context log, the base or the
claimed powers exhibits a hash collision: two different inputs with the same challenge. -/
theorem C13_log_eq_binding (B : Backend F E) (hB : B.Lawful) (proof : LogEqualityProof F)
    (K₁ K₂ : PublicKey E) (powers₁ powers₂ : E × E) (t₁ t₂ t₁' t₂' : Transcript)
    (hK₁ : WellFormedKey B K₁) (hK₂ : WellFormedKey B K₂)
    (h₁ : proof.verify B K₁ powers₁ t₁ = some (.ok (), t₁'))
    (h₂ : proof.verify B K₂ powers₂ t₂ = some (.ok (), t₂'))
    (hne : t₁ ≠ t₂ ∨ K₁.element ≠ K₂.element ∨ powers₁ ≠ powers₂) :
    t₁'.log ≠ t₂'.log ∧ B.challenge t₁'.log = B.challenge t₂'.log := by
  obtain ⟨a, d, x, y, ha, hd, hx, hy, rfl, hc⟩ := LogEqualityProof.verify_eq_some.mp h₁
  obtain ⟨a', d', x', y', ha', hd', hx', hy', rfl, hc'⟩ := LogEqualityProof.verify_eq_some.mp h₂
  have hc := checkChallenge_ok.mp hc.symm
  have hc' := checkChallenge_ok.mp hc'.symm
  refine ⟨fun heq => ?_, hc.trans hc'.symm⟩
  obtain ⟨e1, e2, rfl, rfl, -, -⟩ := logEqQuery_inj heq
  rcases hne with h | h | h
  · exact h (by cases t₁; cases t₂; simpa using e1)
  · unfold WellFormedKey at hK₁ hK₂
    rw [e2, hK₂] at hK₁
    exact h (Option.some.inj hK₁).symm
  · exact h (Prod.ext (hB.serElem_inj ha ha') (hB.serElem_inj hd hd'))

/-- With a constant hash function a proof is accepted for other powers: a hash collision. -/
example : ∃ t₁ t₂ : Transcript, t₁.log ≠ t₂.log :=
  ⟨_, _, (C13_log_eq_binding (B101.withHash fun _ => 7) (B101_lawful.withHash _) ⟨7, 38⟩ ⟨[42], 42⟩ ⟨[42], 42⟩
    (5, 8) (5, 9) (Transcript.new "x") (Transcript.new "x") _ _
    (by unfold WellFormedKey; decide) (by unfold WellFormedKey; decide) rfl rfl (.inr (.inr (by decide)))).1⟩

/-! ## C50: verifiers never panic -/

/-- C50 for log equality proofs: with total encodings, verification of arbitrary input returns. -/
theorem C50_log_eq_verify_total (B : Backend F E) (hT : B.TotalSer) (proof : LogEqualityProof F)
    (K : PublicKey E) (powers : E × E) (t : Transcript) :
    ∃ out, proof.verify B K powers t = some out := by
  obtain ⟨a, ha⟩ := hT powers.1
  obtain ⟨d, hd⟩ := hT powers.2
  obtain ⟨x, hx⟩ := hT (proof.response • B.gen - proof.challenge • powers.1)
  obtain ⟨y, hy⟩ := hT (proof.response • K.element - proof.challenge • powers.2)
  exact ⟨(_, _), LogEqualityProof.verify_eq_some.mpr ⟨a, d, x, y, ha, hd, hx, hy, rfl, rfl⟩⟩

example : ∃ out, (⟨0, 0⟩ : LogEqualityProof (ZMod 101)).verify B101 ⟨[0], 0⟩ (0, 0) (Transcript.new "x") = some out :=
  C50_log_eq_verify_total B101 B101_total ⟨0, 0⟩ ⟨[0], 0⟩ (0, 0) (Transcript.new "x")

/-- C50, finding: for SEC1 backends (`Generic<C>`) the all-zero proof makes the verifier panic, whatever
the statement and context. -/
theorem C50_log_eq_verify_panics_sec1 (B : Backend F E) (hS : B.Sec1Ser) (K : PublicKey E)
    (powers : E × E) (t : Transcript) :
    (⟨0, 0⟩ : LogEqualityProof F).verify B K powers t = none := by
  cases h : (⟨0, 0⟩ : LogEqualityProof F).verify B K powers t with
  | none => rfl
  | some out =>
    exfalso
    obtain ⟨r, t'⟩ := out
    obtain ⟨a, d, x, y, ha, hd, hx, hy, -, -⟩ := LogEqualityProof.verify_eq_some.mp h
    simp only [zero_smul, sub_zero] at hx
    rw [(hS 0).mpr rfl] at hx
    cases hx

/-- The all-zero proof is a valid encoding, so it can arrive from the network. -/
theorem C50_log_eq_zero_proof_parses (B : Backend F E) (hB : B.Lawful) :
    LogEqualityProof.fromBytes B (B.serScalar 0 ++ B.serScalar 0) = some ⟨0, 0⟩ := by
  simp [LogEqualityProof.fromBytes, hB.serScalar_length, hB.deScalar_serScalar, two_mul]

example : LogEqualityProof.fromBytes S101 [0, 0] = some ⟨0, 0⟩ := C50_log_eq_zero_proof_parses S101 S101_lawful

example : ∃ (proof : LogEqualityProof (ZMod 101)), proof.verify S101 ⟨[2, 42], 42⟩ (1, 42)
    (Transcript.new "x") = none :=
  ⟨⟨0, 0⟩, C50_log_eq_verify_panics_sec1 S101 S101_sec1 _ _ _⟩

/-! ## C10: byte encodings -/

/-- C10: `from_bytes(to_bytes(proof)) = proof`. -/
theorem C10_log_eq_roundtrip (B : Backend F E) (hB : B.Lawful) (proof : LogEqualityProof F) :
    LogEqualityProof.fromBytes B (proof.toBytes B) = some proof := by
  simp [LogEqualityProof.fromBytes, LogEqualityProof.toBytes, hB.serScalar_length,
    hB.deScalar_serScalar, two_mul]

example : LogEqualityProof.fromBytes B101 [7, 38] = some ⟨7, 38⟩ := C10_log_eq_roundtrip B101 B101_lawful ⟨7, 38⟩

/-- C10: whatever `from_bytes` accepts is the canonical encoding of the result (no malleability). -/
theorem C10_log_eq_canonical (B : Backend F E) (hB : B.Lawful) (b : Bytes)
    (proof : LogEqualityProof F) (h : LogEqualityProof.fromBytes B b = some proof) :
    proof.toBytes B = b := by
  unfold LogEqualityProof.fromBytes at h
  split at h
  · cases h
  · rename_i hl
    rw [not_not] at hl
    simp only [Option.bind_eq_bind, Option.bind_eq_some_iff, Option.pure_def, Option.some.injEq] at h
    obtain ⟨c, hc, r, hr, rfl⟩ := h
    have h1 := hB.serScalar_deScalar _ _ (by rw [List.length_take]; omega) hc
    have h2 := hB.serScalar_deScalar _ _ (by rw [List.length_drop]; omega) hr
    rw [LogEqualityProof.toBytes, h1, h2, List.take_append_drop]

example : (⟨7, 38⟩ : LogEqualityProof (ZMod 101)).toBytes B101 = [7, 38] :=
  C10_log_eq_canonical B101 B101_lawful [7, 38] ⟨7, 38⟩ (by decide)

/-- C10: the encoding has the documented size, other sizes are rejected. -/
theorem C10_log_eq_size (B : Backend F E) (hB : B.Lawful) (proof : LogEqualityProof F) (b : Bytes) :
    (proof.toBytes B).length = 2 * B.scalarSize ∧
      (b.length ≠ 2 * B.scalarSize → LogEqualityProof.fromBytes B b = none) := by
  constructor
  · simp [LogEqualityProof.toBytes, hB.serScalar_length, two_mul]
  · intro h; simp [LogEqualityProof.fromBytes, h]

example : LogEqualityProof.fromBytes B101 [7, 38, 0] = none :=
  (C10_log_eq_size B101 B101_lawful ⟨7, 38⟩ [7, 38, 0]).2 (by decide)

omit [DecidableEq F] in
/-- C10: decryption shares round-trip through bytes. -/
theorem C10_candidate_roundtrip (B : Backend F E) (hB : B.Lawful) (d : VerifiableDecryption E)
    (b : Bytes) (h : d.toBytes B = some b) :
    CandidateDecryption.fromBytes B b = some (CandidateDecryption.ofVerifiable d) := by
  have h1 := hB.serElem_length _ _ h
  have h2 := hB.deElem_serElem _ _ h
  simp [CandidateDecryption.fromBytes, h1, h2, CandidateDecryption.ofVerifiable]

example : CandidateDecryption.fromBytes B101 [7] = some ⟨⟨7⟩⟩ :=
  C10_candidate_roundtrip B101 B101_lawful ⟨7⟩ [7] (by decide)

omit [DecidableEq F] in
/-- C10: parsing a share succeeds exactly for strings of the right size that decode to an element. -/
theorem C10_candidate_iff (B : Backend F E) (b : Bytes) (c : CandidateDecryption E) :
    CandidateDecryption.fromBytes B b = some c ↔
      b.length = B.elementSize ∧ B.deElem b = some c.inner.dhElement := by
  unfold CandidateDecryption.fromBytes
  split
  · rename_i hl
    simp only [Option.bind_eq_bind, Option.bind_eq_some_iff, Option.pure_def, Option.some.injEq, hl,
      true_and]
    constructor
    · rintro ⟨e, he, rfl⟩; exact he
    · intro h; exact ⟨_, h, rfl⟩
  · rename_i hl; simp [hl]

example : CandidateDecryption.fromBytes S101 [2, 7] = some ⟨⟨7⟩⟩ :=
  (C10_candidate_iff S101 [2, 7] ⟨⟨7⟩⟩).mpr (by decide)

example : LogEqualityProof.fromBytes B101 [7, 100] = some ⟨7, 100⟩ ∧
    LogEqualityProof.fromBytes B101 [7, 101] = none ∧
    LogEqualityProof.fromBytes B101 [7, 1, 1] = none ∧
    CandidateDecryption.fromBytes B101 [7] = some ⟨⟨7⟩⟩ := by
  decide

omit [DecidableEq F] in
/-- C10: `Ciphertext::to_bytes` is the encoding of the random element followed by that of the blinded
element, so that both can be decoded from the halves; it panics exactly if one of these encodings does. -/
theorem C10_ciphertext_bytes (B : Backend F E) (hB : B.Lawful) (ct : Ciphertext E) :
    (∀ b, ct.toBytes B = some b → b.length = 2 * B.elementSize ∧
      B.deElem (b.take B.elementSize) = some ct.random ∧ B.deElem (b.drop B.elementSize) = some ct.blinded) ∧
    (ct.toBytes B = none ↔ B.serElem ct.random = none ∨ B.serElem ct.blinded = none) := by
  constructor
  · intro b h
    simp only [Ciphertext.toBytes, Option.bind_eq_bind, Option.bind_eq_some_iff, Option.pure_def, Option.some.injEq] at h
    obtain ⟨x, hx, y, hy, rfl⟩ := h
    have hl := hB.serElem_length _ _ hx
    refine ⟨by rw [List.length_append, hl, hB.serElem_length _ _ hy]; omega, ?_, ?_⟩
    · rw [← hl, List.take_left]; exact hB.deElem_serElem _ _ hx
    · rw [← hl, List.drop_left]; exact hB.deElem_serElem _ _ hy
  · rw [Ciphertext.toBytes]
    cases B.serElem ct.random <;> cases B.serElem ct.blinded <;> simp

example : (S101.deElem ([2, 7, 2, 9].take 2), S101.deElem ([2, 7, 2, 9].drop 2)) = (some 7, some 9) ∧
    (⟨7, 0⟩ : Ciphertext (ZMod 101)).toBytes S101 = none := by
  obtain ⟨-, h1, h2⟩ := (C10_ciphertext_bytes S101 S101_lawful ⟨7, 9⟩).1 [2, 7, 2, 9] (by decide)
  exact ⟨by rw [← show S101.elementSize = 2 from rfl, h1, h2],
    (C10_ciphertext_bytes S101 S101_lawful ⟨7, 0⟩).2.mpr (.inr (by decide))⟩

/-! ## C08, C09: verifiable decryption -/

/-- C08: an honest verifiable decryption verifies in the same context against the key pair's public key,
and yields the same plaintext as decryption with the secret key. -/
theorem C08_decryption_complete (B : Backend F E) (c : Ciphertext E) (keys : Keypair F E)
    (hk : keys.publicKey.element = keys.secret • B.gen) (t t' : Transcript) (rng rng' : B.Rng)
    (d : VerifiableDecryption E) (proof : LogEqualityProof F)
    (h : VerifiableDecryption.new B c keys t rng = some ((d, proof), t', rng')) :
    (CandidateDecryption.ofVerifiable d).verify B c keys.publicKey proof t = some (.ok d, t') ∧
      d.decryptToElement c = SecretKey.decryptToElement keys.secret c := by
  simp only [VerifiableDecryption.new, Option.bind_eq_bind, Option.bind_eq_some_iff, Option.pure_def,
    Option.some.injEq, Prod.mk.injEq, Prod.exists] at h
  obtain ⟨lb, hlb, proof', t1, rng1, hnew, ⟨rfl, rfl⟩, rfl, rfl⟩ := h
  have hlb' := hlb
  simp only [PublicKey.fromElement, Option.bind_eq_bind, Option.bind_eq_some_iff, Option.pure_def,
    Option.some.injEq] at hlb'
  obtain ⟨b, hb, rfl⟩ := hlb'
  refine ⟨?_, rfl⟩
  rw [hk] at hnew
  have := C11_log_eq_complete B _ _ _ _ _ _ _ hnew
  simp only [CandidateDecryption.verify, CandidateDecryption.ofVerifiable, hlb, hk, this,
    Option.bind_eq_bind, Option.bind_some, Option.pure_def, Except.map]

/-- C08 end to end: encrypting to a key and verifiably decrypting gives back the plaintext. -/
theorem C08_encrypt_decrypt (B : Backend F E) (keys : Keypair F E)
    (hk : keys.publicKey.element = keys.secret • B.gen) (m : E) (rng0 : B.Rng) (t t' : Transcript)
    (rng rng' : B.Rng) (d : VerifiableDecryption E) (proof : LogEqualityProof F)
    (h : VerifiableDecryption.new B (PublicKey.encryptElement B keys.publicKey m rng0).1 keys t rng
      = some ((d, proof), t', rng')) :
    d.decryptToElement (PublicKey.encryptElement B keys.publicKey m rng0).1 = m := by
  rw [(C08_decryption_complete B _ keys hk t t' rng rng' d proof h).2]
  simp only [SecretKey.decryptToElement, PublicKey.encryptElement, ExtendedCiphertext.new,
    SecretKey.generate, Backend.mulGen, hk]
  module

example : ∃ d, VerifiableDecryption.decryptToElement d
    (PublicKey.encryptElement B101 ⟨[42], 42⟩ (77 : ZMod 101) (3 : ℕ)).1 = 77 :=
  ⟨_, C08_encrypt_decrypt B101 ⟨42, ⟨[42], 42⟩⟩ (by decide) 77 (3 : ℕ) (Transcript.new "x") _ (4 : ℕ) _ _ _ rfl⟩

/-- C08: with total encodings producing a verifiable decryption never panics. -/
theorem C08_decryption_new_total (B : Backend F E) (hT : B.TotalSer) (c : Ciphertext E)
    (keys : Keypair F E) (t : Transcript) (rng : B.Rng) :
    ∃ out, VerifiableDecryption.new B c keys t rng = some out := by
  obtain ⟨b, hb⟩ := hT c.random
  obtain ⟨⟨p, t', rng'⟩, h⟩ := C11_log_eq_new_total B hT ⟨b, c.random⟩ keys.secret
    (keys.publicKey.element, keys.secret • c.random)
    (t.startProof "decryption_with_custom_key") rng
  exact ⟨((⟨keys.secret • c.random⟩, p), t', rng'), by
    simp [VerifiableDecryption.new, PublicKey.fromElement, hb, h]⟩

/-- C09: if a candidate decryption is accepted for a ciphertext and public key `[k]G`, then it decrypts
the ciphertext correctly, or the hash of the verifier's data hit the single bad challenge, which is a
function of the hashed data fixed before the hash function. -/
theorem C09_decryption_sound (B : Backend F E) (hB : B.Lawful) :
    ∃ bad : List Entry → F, ∀ (H : List Entry → F) (d d' : VerifiableDecryption E)
      (c : Ciphertext E) (key : PublicKey E) (k : F) (proof : LogEqualityProof F)
      (t t' : Transcript),
      key.element = k • B.gen →
      (CandidateDecryption.ofVerifiable d).verify (B.withHash H) c key proof t = some (.ok d', t') →
      d' = d ∧ (d.decryptToElement c = SecretKey.decryptToElement k c ∨ H t'.log = bad t'.log) := by
  obtain ⟨bad, hbad⟩ := C12_log_eq_sound B hB
  refine ⟨bad, fun H d d' c key k proof t t' hk h => ?_⟩
  simp only [CandidateDecryption.verify, CandidateDecryption.ofVerifiable, PublicKey.fromElement,
    Option.bind_eq_bind, Option.bind_eq_some_iff, Option.pure_def,
    Option.some.injEq, Prod.mk.injEq, Prod.exists] at h
  obtain ⟨lb, ⟨b, hb, rfl⟩, res, t1, hv, hres, rfl⟩ := h
  cases res with
  | error e => cases hres
  | ok u =>
    cases hres
    refine ⟨rfl, ?_⟩
    rcases hbad H proof _ _ _ _ (hB.deElem_serElem _ _ hb) hv with ⟨r, h1, h2⟩ | h
    · left
      dsimp only at h1 h2
      rw [hk] at h1
      have := hB.smul_gen_inj h1
      subst this
      rw [VerifiableDecryption.decryptToElement, SecretKey.decryptToElement, h2]
    · exact .inr h

/-- The ciphertext `(3, 30)` decrypts to 5, the candidate says 6, and is accepted for the bad challenge. -/
example : ∃ bad : List Entry → ZMod 101, ∃ t' : Transcript, 7 = bad t'.log := by
  obtain ⟨bad, h⟩ := C09_decryption_sound B101 B101_lawful
  exact ⟨bad, _, (h (fun _ => 7) ⟨24⟩ ⟨24⟩ ⟨3, 30⟩ ⟨[42], 42⟩ 42 ⟨7, 38⟩ (Transcript.new "x") _ (by decide)
    rfl).2.resolve_left (by decide)⟩

/-- C13 for decryption proofs: acceptance of one proof for two different (context, ciphertext, key,
share) settings is a hash collision. -/
theorem C13_decryption_binding (B : Backend F E) (hB : B.Lawful) (proof : LogEqualityProof F)
    (d₁ d₂ r₁ r₂ : VerifiableDecryption E) (c₁ c₂ : Ciphertext E) (k₁ k₂ : PublicKey E)
    (t₁ t₂ t₁' t₂' : Transcript)
    (h₁ : (CandidateDecryption.ofVerifiable d₁).verify B c₁ k₁ proof t₁ = some (.ok r₁, t₁'))
    (h₂ : (CandidateDecryption.ofVerifiable d₂).verify B c₂ k₂ proof t₂ = some (.ok r₂, t₂'))
    (hne : t₁ ≠ t₂ ∨ c₁.random ≠ c₂.random ∨ k₁.element ≠ k₂.element ∨ d₁ ≠ d₂) :
    t₁'.log ≠ t₂'.log ∧ B.challenge t₁'.log = B.challenge t₂'.log := by
  have open_ : ∀ {d r : VerifiableDecryption E} {c : Ciphertext E} {k : PublicKey E}
      {t t' : Transcript},
      (CandidateDecryption.ofVerifiable d).verify B c k proof t = some (.ok r, t') →
      ∃ b, B.serElem c.random = some b ∧ proof.verify B ⟨b, c.random⟩ (k.element, d.dhElement)
        (t.startProof "decryption_with_custom_key") = some (.ok (), t') := by
    intro d r c k t t' h
    simp only [CandidateDecryption.verify, CandidateDecryption.ofVerifiable, PublicKey.fromElement,
      Option.bind_eq_bind, Option.bind_eq_some_iff, Option.pure_def,
      Option.some.injEq, Prod.mk.injEq, Prod.exists] at h
    obtain ⟨lb, ⟨b, hb, rfl⟩, res, t1, hv, hres, rfl⟩ := h
    cases res with
    | error e => cases hres
    | ok u => exact ⟨b, hb, hv⟩
  obtain ⟨b₁, hb₁, hv₁⟩ := open_ h₁
  obtain ⟨b₂, hb₂, hv₂⟩ := open_ h₂
  refine C13_log_eq_binding B hB proof _ _ _ _ _ _ _ _ (hB.deElem_serElem _ _ hb₁)
    (hB.deElem_serElem _ _ hb₂) hv₁ hv₂ ?_
  rcases hne with h | h | h | h
  · left
    intro heq
    apply h
    cases t₁; cases t₂
    simpa [Transcript.startProof, Transcript.appendMessage] using heq
  · exact .inr (.inl h)
  · refine .inr (.inr fun heq => h ?_)
    simpa using congrArg Prod.fst heq
  · refine .inr (.inr fun heq => h ?_)
    exact VerifiableDecryption.ext (by simpa using congrArg Prod.snd heq)

example : ∃ t₁ t₂ : Transcript, t₁.log ≠ t₂.log :=
  ⟨_, _, (C13_decryption_binding (B101.withHash fun _ => 7) (B101_lawful.withHash _) ⟨7, 38⟩ ⟨25⟩ ⟨24⟩ _ _ ⟨3, 30⟩
    ⟨3, 30⟩ ⟨[42], 42⟩ ⟨[42], 42⟩ (Transcript.new "x") (Transcript.new "x") _ _ rfl rfl
    (.inr (.inr (.inr (by decide))))).1⟩

/-- C50 for verifiable decryption. -/
theorem C50_decryption_verify_total (B : Backend F E) (hT : B.TotalSer) (cand : CandidateDecryption E)
    (c : Ciphertext E) (key : PublicKey E) (proof : LogEqualityProof F) (t : Transcript) :
    ∃ out, cand.verify B c key proof t = some out := by
  obtain ⟨b, hb⟩ := hT c.random
  obtain ⟨⟨r, t'⟩, h⟩ := C50_log_eq_verify_total B hT proof ⟨b, c.random⟩
    (key.element, cand.inner.dhElement) (t.startProof "decryption_with_custom_key")
  exact ⟨(r.map fun _ => cand.inner, t'), by
    simp [CandidateDecryption.verify, PublicKey.fromElement, hb, h]⟩

example : ∃ out, (⟨⟨0⟩⟩ : CandidateDecryption (ZMod 101)).verify B101 ⟨0, 0⟩ ⟨[0], 0⟩ ⟨0, 0⟩ (Transcript.new "x") =
    some out :=
  C50_decryption_verify_total B101 B101_total ⟨⟨0⟩⟩ ⟨0, 0⟩ ⟨[0], 0⟩ ⟨0, 0⟩ (Transcript.new "x")

example :
    let keys : Keypair (ZMod 101) (ZMod 101) := ⟨42, ⟨[42], 42⟩⟩
    let c := (PublicKey.encrypt B101 keys.publicKey 5 (3 : ℕ)).1
    ∃ d proof t' rng', VerifiableDecryption.new B101 c keys (Transcript.new "x") (4 : ℕ)
        = some ((d, proof), t', rng') ∧
      (CandidateDecryption.ofVerifiable d).verify B101 c keys.publicKey proof (Transcript.new "x")
        = some (.ok d, t') ∧ d.decryptToElement c = 5 := by
  intro keys c
  obtain ⟨⟨⟨d, p⟩, t', rng'⟩, h⟩ := C08_decryption_new_total B101 B101_total c keys
    (Transcript.new "x") (4 : ℕ)
  have h2 := C08_decryption_complete B101 c keys (by decide) _ _ _ _ _ _ h
  exact ⟨d, p, t', rng', h, h2.1, by rw [h2.2]; decide⟩

/-! ## C21: zero encryption -/

/-- C21: `encrypt_zero` produces an encryption of zero whose proof verifies. -/
theorem C21_zero_complete (B : Backend F E) (k : F) (pk : PublicKey E) (hk : pk.element = k • B.gen)
    (rng rng' : B.Rng) (c : Ciphertext E) (proof : LogEqualityProof F)
    (h : PublicKey.encryptZero B pk rng = some ((c, proof), rng')) :
    PublicKey.verifyZero B pk c proof = some (.ok ()) ∧ Encrypts B k c 0 := by
  simp only [PublicKey.encryptZero, Option.bind_eq_bind, Option.bind_eq_some_iff, Option.pure_def,
    Option.some.injEq, Prod.mk.injEq, Prod.exists] at h
  obtain ⟨p, t1, rng1, hnew, ⟨rfl, rfl⟩, rfl⟩ := h
  constructor
  · have := C11_log_eq_complete B _ _ _ _ _ _ _ hnew
    simp only [Backend.mulGen] at *
    simp [PublicKey.verifyZero, this]
  · exact ⟨(B.genScalar rng).1, rfl, by simp [SecretKey.generate, hk]⟩

/-- C21: with total encodings `encrypt_zero` never panics. -/
theorem C21_zero_total (B : Backend F E) (hT : B.TotalSer) (pk : PublicKey E) (rng : B.Rng) :
    ∃ out, PublicKey.encryptZero B pk rng = some out := by
  obtain ⟨⟨p, t', rng'⟩, h⟩ := C11_log_eq_new_total B hT pk (B.genScalar rng).1
    (B.mulGen (B.genScalar rng).1, (B.genScalar rng).1 • pk.element)
    (Transcript.new "zero_encryption") (B.genScalar rng).2
  exact ⟨((⟨B.mulGen (B.genScalar rng).1, (B.genScalar rng).1 • pk.element⟩, p), rng'), by
    simp [PublicKey.encryptZero, SecretKey.generate, h]⟩

/-- C21: if `verify_zero` accepts, the ciphertext encrypts zero, or the hash of the data `t'` with which
verification of this very proof ends is the single bad one for that data. -/
theorem C21_zero_sound (B : Backend F E) (hB : B.Lawful) :
    ∃ bad : List Entry → F, ∀ (H : List Entry → F) (pk : PublicKey E) (k : F) (c : Ciphertext E)
      (proof : LogEqualityProof F),
      WellFormedKey B pk → pk.element = k • B.gen →
      PublicKey.verifyZero (B.withHash H) pk c proof = some (.ok ()) →
      Encrypts B k c 0 ∨
        ∃ t', proof.verify (B.withHash H) pk (c.random, c.blinded) (Transcript.new "zero_encryption")
          = some (.ok (), t') ∧ H t'.log = bad t'.log := by
  obtain ⟨bad, hbad⟩ := C12_log_eq_sound B hB
  refine ⟨bad, fun H pk k c proof hwf hk h => ?_⟩
  simp only [PublicKey.verifyZero, Option.bind_eq_bind, Option.bind_eq_some_iff, Option.pure_def,
    Option.some.injEq, Prod.exists] at h
  obtain ⟨res, t', hv, rfl⟩ := h
  rcases hbad H proof _ _ _ _ hwf hv with ⟨r, h1, h2⟩ | h
  · left
    exact ⟨r, h1, by rw [zero_add, ← hk]; exact h2⟩
  · exact Or.inr ⟨t', hv, h⟩

/-- The ciphertext `(3, 30)` encrypts 5, and is accepted for the bad challenge. -/
example : ∃ bad : List Entry → ZMod 101, ∃ t' : Transcript, 7 = bad t'.log := by
  obtain ⟨bad, h⟩ := C21_zero_sound B101 B101_lawful
  rcases h (fun _ => 7) ⟨[42], 42⟩ 42 ⟨3, 30⟩ ⟨7, 38⟩ (by unfold WellFormedKey; decide) (by decide) rfl with
    ⟨r, h1, h2⟩ | ⟨t', -, ht⟩
  · obtain rfl : r = 3 := by simpa [B101, toy] using h1.symm
    exact absurd h2 (by decide)
  · exact ⟨bad, t', ht⟩

/-- C50 for zero encryption. -/
theorem C50_zero_verify_total (B : Backend F E) (hT : B.TotalSer) (pk : PublicKey E)
    (c : Ciphertext E) (proof : LogEqualityProof F) :
    ∃ out, PublicKey.verifyZero B pk c proof = some out := by
  obtain ⟨⟨r, t'⟩, h⟩ := C50_log_eq_verify_total B hT proof pk (c.random, c.blinded)
    (Transcript.new "zero_encryption")
  exact ⟨r, by simp [PublicKey.verifyZero, h]⟩

example : ∃ out, PublicKey.verifyZero B101 ⟨[0], 0⟩ ⟨0, 0⟩ ⟨0, 0⟩ = some out :=
  C50_zero_verify_total B101 B101_total ⟨[0], 0⟩ ⟨0, 0⟩ ⟨0, 0⟩

example : ∃ c proof rng', PublicKey.encryptZero B101 ⟨[42], 42⟩ (3 : ℕ) = some ((c, proof), rng') ∧
    PublicKey.verifyZero B101 ⟨[42], 42⟩ c proof = some (.ok ()) := by
  obtain ⟨⟨⟨c, p⟩, rng'⟩, h⟩ := C21_zero_total B101 B101_total ⟨[42], 42⟩ (3 : ℕ)
  exact ⟨c, p, rng', h, (C21_zero_complete B101 42 ⟨[42], 42⟩ (by decide) _ _ _ _ h).1⟩

/-! ## C51: zero knowledge -/

/-- C51 for log equality proofs: fix a true statement, a context and any hash function. Every accepted
proof is the prover's output for exactly one nonce, with the same final transcript. So the honest proof
is uniformly distributed on the set of accepted proofs, which is defined without the witness. (For the
constant hash function `c` this is the classical simulation: pick `s` uniformly.) -/
theorem C51_log_eq_zk (B : Backend F E) (K : PublicKey E) (r : F) (proof : LogEqualityProof F)
    (t t' : Transcript)
    (ht' : proof.verify B K (r • B.gen, r • K.element) t = some (.ok (), t')) :
    ∃! x : F, LogEqualityProof.new B.withTape K r (r • B.gen, r • K.element) t [x]
        = some (proof, t', []) := by
  obtain ⟨a, d, x, y, ha, hd, hx, hy, rfl, hc⟩ := LogEqualityProof.verify_eq_some.mp ht'
  have hc := checkChallenge_ok.mp hc.symm
  refine ⟨proof.response - proof.challenge * r, ?_, ?_⟩
  · refine LogEqualityProof.new_eq_some.mpr
      ⟨a, d, x, y, ha, hd, ?_, ?_, rfl, hc.symm, by simp, rfl⟩
    · rw [← hx]
      show B.serElem _ = B.serElem _
      congr 1
      simp only [List.headD_cons]; module
    · rw [← hy]
      show B.serElem _ = B.serElem _
      congr 1
      simp only [List.headD_cons]; module
  · intro x' h
    obtain ⟨-, -, -, -, -, -, -, -, -, -, h, -⟩ := LogEqualityProof.new_eq_some.mp h
    simp only [List.headD_cons] at h
    linear_combination -h

example : ∃ t', ∃! x : ZMod 101, LogEqualityProof.new (B101.withHash fun _ => 7).withTape ⟨[42], 42⟩ 5 (5 * 1, 5 * 42)
    (Transcript.new "x") [x] = some (⟨7, 38⟩, t', []) :=
  ⟨_, C51_log_eq_zk (B101.withHash fun _ => 7) ⟨[42], 42⟩ 5 ⟨7, 38⟩ (Transcript.new "x") _ rfl⟩

/-- C51, simulation: for a true statement, any challenge `c` and any response `s`, the proof `(c, s)` is
accepted when the hash answers `c`. -/
theorem C51_log_eq_simulate (B : Backend F E) (hT : B.TotalSer) (K : PublicKey E) (powers : E × E)
    (c s : F) (t : Transcript) :
    ∃ t', (⟨c, s⟩ : LogEqualityProof F).verify (B.withHash fun _ => c) K powers t
      = some (.ok (), t') := by
  obtain ⟨⟨r, t'⟩, h⟩ := C50_log_eq_verify_total (B.withHash fun _ => c) hT ⟨c, s⟩ K powers t
  obtain ⟨a, d, x, y, ha, hd, hx, hy, rfl, hr⟩ := LogEqualityProof.verify_eq_some.mp h
  rw [checkChallenge_self] at hr
  exact ⟨_, hr ▸ h⟩

example : ∃ t', (⟨7, 38⟩ : LogEqualityProof (ZMod 101)).verify (B101.withHash fun _ => 7) ⟨[42], 42⟩ (5, 8)
    (Transcript.new "x") = some (.ok (), t') :=
  C51_log_eq_simulate B101 B101_total ⟨[42], 42⟩ (5, 8) 7 38 (Transcript.new "x")

end ElasticElgamal
