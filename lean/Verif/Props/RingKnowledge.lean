import Verif.Lemmas.RingKnowledge
import Verif.Lemmas.OracleProofs
import Verif.Props.QuadraticVoting

/-!
# C89: provers of ring proofs know the encrypted values and the randomness

From a prover whose ring proofs are accepted with probability `ε`, an admissible value and the randomness of each
ciphertext are extracted by running the prover (and the verifier) twice: see `ExtractableParts` for the
probability and `OpensRing` for how they are computed. Key, context and admissible values are fixed in
advance, with at least 2 values per ring, as in C57. It is not assumed that anybody knows the secret key.
-/

set_option autoImplicit false
set_option linter.unusedSectionVars false

namespace ElasticElgamal

open Spec Toy

variable {F E : Type} [Field F] [AddCommGroup E] [Module F E] [DecidableEq F] [DecidableEq E] [Fintype F]
variable {Ω : Type} [Fintype Ω] [Nonempty Ω]

/-- C89: ring proofs. -/
theorem C89_ring_knowledge (B : Backend F E) (hB : B.Lawful) (K : PublicKey E) (t : Transcript)
    (values : List (List E)) (hn : values.length ≤ 2 ^ 64)
    (hsize : ∀ vs ∈ values, 2 ≤ vs.length ∧ vs.length ≤ 2 ^ 64)
    (alg : Ω → OracleAlg (List Entry) F (List (Ciphertext E) × RingProof F)) (n : ℕ) (halg : ∀ ω, (alg ω).AtMost n) :
    ExtractableParts (m := values.length) (fun ω => withVerifier B K t.log values id (alg ω))
      (evaluations n (values.map List.length))
      (fun ω H => ((alg ω).run H).1.length = values.length ∧
        ∃ t', ((alg ω).run H).2.verify (B.withHash H) K values ((alg ω).run H).1 t = some (.ok (), t'))
      fun ω i H H' => OpensRing B K t.log values i ((alg ω).run H) ((alg ω).run H') H H' :=
  ring_extractable hB K t.log values hn hsize alg halg id _ fun _ _ h => h

example := C89_ring_knowledge (Ω := Unit) B101 B101_lawful ⟨[42], 42⟩ (Transcript.new "x") [[0, 1], [0, 2, 4]]
  (by simp) (by simp) (fun _ => .ask [] fun a => .done ([⟨1, 2⟩, ⟨3, 4⟩], ⟨a, [1, 2, 3, 4, 5]⟩)) 1 fun _ _ => trivial

/-- C89: `verify_bool`. -/
theorem C89_bool_knowledge (B : Backend F E) (hB : B.Lawful) (K : PublicKey E)
    (alg : Ω → OracleAlg (List Entry) F (Ciphertext E × RingProof F)) (n : ℕ) (halg : ∀ ω, (alg ω).AtMost n) :
    ExtractableParts (m := 1)
      (fun ω => withVerifier B K (Transcript.new "bool_encryption").log [[0, B.gen]] (fun o => ([o.1], o.2)) (alg ω))
      (evaluations n [2])
      (fun ω H => K.verifyBool (B.withHash H) ((alg ω).run H).1 ((alg ω).run H).2 = some (.ok ()))
      fun ω i H H' => OpensRing B K (Transcript.new "bool_encryption").log [[0, B.gen]] i
        ([((alg ω).run H).1], ((alg ω).run H).2) ([((alg ω).run H').1], ((alg ω).run H').2) H H' := by
  refine ring_extractable hB K _ [[0, B.gen]] (by simp) (by simp) alg halg (fun o => ([o.1], o.2)) _ ?_
  intro ω H h
  simp only [PublicKey.verifyBool, Option.bind_eq_bind, Option.bind_eq_some_iff, Option.pure_def,
    Option.some.injEq, Prod.exists] at h
  obtain ⟨res, t', hv, rfl⟩ := h
  exact ⟨rfl, t', hv⟩

/-- A prover that encrypts 0 with randomness 5 for the key 42. -/
def exampleBoolProver : OracleAlg (List Entry) (ZMod 101) (Ciphertext (ZMod 101) × RingProof (ZMod 101)) :=
  .ask (ringQuery (ringBase (Transcript.new "bool_encryption").log [42] [5, 8] 0) 0 [3] [25]) fun c =>
    .ask (commonQuery (Transcript.new "bool_encryption").log [42]
        [(leBytes 1 (7 - c * 5).val, leBytes 1 (92 - c * 7).val)]) fun c' =>
      .done (⟨5, 8⟩, ⟨c', [3 + c' * 5, 7]⟩)

theorem exampleBoolProver_accepted (H : List Entry → ZMod 101) :
    (⟨[42], 42⟩ : PublicKey (ZMod 101)).verifyBool (B101.withHash H) (exampleBoolProver.run H).1
      (exampleBoolProver.run H).2 = some (.ok ()) := by
  set c := H (ringQuery (ringBase (Transcript.new "bool_encryption").log [42] [5, 8] 0) 0 [3] [25]) with hc
  set c' := H (commonQuery (Transcript.new "bool_encryption").log [42]
        [(leBytes 1 (7 - c * 5).val, leBytes 1 (92 - c * 7).val)]) with hc'
  have hr : exampleBoolProver.run H = (⟨5, 8⟩, ⟨c', [3 + c' * 5, 7]⟩) := rfl
  rw [hr]
  have k1 : ringComm B101 42 ⟨5, 8⟩ 0 (3 + c' * 5) c' = (3, 25) := by
    refine Prod.ext ?_ ?_
    · show (3 + c' * 5) * 1 - c' * 5 = 3
      ring
    · show (3 + c' * 5) * 42 - c' * (8 - 0) = 25
      rw [show (8 : ZMod 101) = 5 * 42 by decide, show (25 : ZMod 101) = 3 * 42 by decide]; ring
  have k2 : ringComm B101 42 ⟨5, 8⟩ 1 7 c = (7 - c * 5, 92 - c * 7) := by
    refine Prod.ext ?_ ?_
    · show (7 : ZMod 101) * 1 - c * 5 = 7 - c * 5
      ring
    · show (7 : ZMod 101) * 42 - c * (8 - 1) = 92 - c * 7
      rw [show (92 : ZMod 101) = 7 * 42 by decide, show (8 : ZMod 101) - 1 = 7 by decide]
  have hver : RingProof.verify (B101.withHash H) ⟨c', [3 + c' * 5, 7]⟩ ⟨[42], 42⟩ [[0, 1]] [⟨5, 8⟩]
      (Transcript.new "bool_encryption") = some (.ok (), ⟨commonQuery (Transcript.new "bool_encryption").log [42]
        [(leBytes 1 (7 - c * 5).val, leBytes 1 (92 - c * 7).val)]⟩) := by
    have henc : Ciphertext.toBytes (B101.withHash H) ⟨5, 8⟩ = some [5, 8] := rfl
    have hch : ringChal (B101.withHash H) (ringBase (Transcript.new "bool_encryption").log [42] [5, 8] 0) 0 (3, 25) =
        some c := ringChal_eq_some.mpr ⟨[3], [25], rfl, rfl, hc⟩
    have hloop : RingProof.verifyRingLoop (B101.withHash H) ⟨[42], 42⟩ ⟨5, 8⟩ (Ring.ringTranscript
        (RingProof.initializeTranscript (Transcript.new "bool_encryption") ⟨[42], (42 : ZMod 101)⟩) [5, 8] 0) 2 0
        [(0, 3 + c' * 5), (1, 7)] c' (1, 1) = some (7 - c * 5, 92 - c * 7) := by
      rw [RingProof.verifyRingLoop_cons_lt (by norm_num), RingProof.ringTranscript_log]
      have : ringComm (B101.withHash H) 42 ⟨5, 8⟩ 0 (3 + c' * 5) c' = (3, 25) := k1
      rw [this, hch, Option.bind_some, RingProof.verifyRingLoop_cons_last (by norm_num)]
      exact congrArg some k2
    rw [RingProof.verify_eq_some (by simp)]
    refine ⟨⟨(RingProof.initializeTranscript (Transcript.new "bool_encryption") ⟨[42], (42 : ZMod 101)⟩).log ++
      [.msg "R_G" (leBytes 1 (7 - c * 5).val), .msg "R_K" (leBytes 1 (92 - c * 7).val)]⟩, ?_, ?_, ?_⟩
    · have hguard : (guard (0 ≤ 2) : Option Unit) = some () := rfl
      simp only [List.zip_cons_cons, List.zip_nil_left, RingProof.verifyLoop, henc, Option.bind_eq_bind,
        Option.bind_some, List.length_cons, List.length_nil, Nat.zero_add, hguard, List.drop_zero]
      refine Option.bind_eq_some_iff.mpr ⟨_, hloop, ?_⟩
      simp [Backend.appendElement, Transcript.appendElementBytes, Transcript.appendMessage, B101, toy]
    · rw [RingProof.initializeTranscript_log, commonQuery]
      simp
    · exact (checkChallenge_ok.mpr rfl).symm
  have h1 : (B101.withHash H).gen = 1 := rfl
  rw [PublicKey.verifyBool, h1, hver]
  rfl

/-- Provers that always succeed. -/
theorem parts_certain {Q A Ω α : Type} [DecidableEq Q] [Fintype A] [Fintype Ω] [Nonempty A] [Nonempty Ω] {m n : ℕ}
    {alg : Ω → OracleAlg Q A α} {good : Ω → (Q → A) → Prop} {desired : Ω → Fin m → (Q → A) → (Q → A) → Prop}
    (h : ExtractableParts alg n good desired) (hg : ∀ ω H, good ω H) :
    ∃ D₀ : Finset Q, ∀ D, D₀ ⊆ D → ∀ H₀ : Q → A, (1 : ℚ) / 2 ≤ meanHash D H₀ fun H => mean fun ω => ind (∀ i,
      ((1 : ℚ) / (2 * m * n ^ 2) - 1 / Fintype.card A) / n ≤
        mean fun k : Fin n => mean fun c => ind (desired ω i H (rewindAt (alg ω) k H c))) := by
  obtain ⟨D₀, h⟩ := h
  refine ⟨D₀, fun D hD H₀ => ?_⟩
  have := h D hD H₀ 1 (by simp only [ind_true (hg _ _), mean_const, meanHash_const])
  refine this.trans (meanHash_le_meanHash fun H => mean_le_mean fun ω => ind_mono fun h => h.2)

/-- The prover `exampleBoolProver`: for at least one half of all hash functions, 5 is extracted with probability at least
69/12928 > 1/200. -/
example : ∃ D₀ : Finset (List Entry), ∀ D, D₀ ⊆ D → ∀ H₀ : List Entry → ZMod 101, (1 : ℚ) / 2 ≤
    meanHash D H₀ fun H => mean fun _ : Unit => ind (∀ i : Fin 1, (69 : ℚ) / 12928 ≤
      mean fun k : Fin 4 => mean fun c => ind (OpensRing B101 ⟨[42], 42⟩ (Transcript.new "bool_encryption").log [[0, 1]] i
        ([⟨5, 8⟩], (exampleBoolProver.run H).2)
        ([⟨5, 8⟩], (exampleBoolProver.run (rewindAt (withVerifier B101 ⟨[42], 42⟩ (Transcript.new "bool_encryption").log
          [[0, 1]] (fun o => ([o.1], o.2)) exampleBoolProver) k H c)).2) H
        (rewindAt (withVerifier B101 ⟨[42], 42⟩ (Transcript.new "bool_encryption").log
          [[0, 1]] (fun o => ([o.1], o.2)) exampleBoolProver) k H c))) := by
  have := parts_certain (C89_bool_knowledge B101 B101_lawful ⟨[42], 42⟩ (fun _ : Unit => exampleBoolProver) 2
    fun _ _ _ => trivial) fun _ H => exampleBoolProver_accepted H
  have e : ((1 : ℚ) / (2 * (1 : ℕ) * (evaluations 2 [2] : ℕ) ^ 2) - 1 / Fintype.card (ZMod 101)) /
      (evaluations 2 [2] : ℕ) = 69 / 12928 := by
    rw [ZMod.card, show evaluations 2 [2] = 4 from rfl]; norm_num
  rw [e] at this
  exact this

/-! ## Range proofs -/

/-- Range proofs selected in the output of a prover. -/
theorem range_extractable {α : Type} {B : Backend F E} (hB : B.Lawful) (K : PublicKey E) (t : Transcript) {bound : ℕ}
    {range : PreparedRange E} (hr : PreparedFor B bound range) (alg : Ω → OracleAlg (List Entry) F α) {n : ℕ}
    (halg : ∀ ω, (alg ω).AtMost n) (out : α → Ciphertext E × RangeProof F E) (good : Ω → (List Entry → F) → Prop)
    (hgood : ∀ ω H, good ω H → ∃ t', (out ((alg ω).run H)).2.verify (B.withHash H) K range (out ((alg ω).run H)).1 t =
      some (.ok (), t')) :
    ExtractableParts (m := (rangeValues B range).length)
      (fun ω => withVerifier B K (rangeContext t.log range.inner.display) (rangeValues B range)
        (fun a => rangeOut (out a)) (alg ω))
      (evaluations n (range.inner.rings.map (·.size))) good
      fun ω i H H' => OpensRing B K (rangeContext t.log range.inner.display) (rangeValues B range) i
        (rangeOut (out ((alg ω).run H))) (rangeOut (out ((alg ω).run H'))) H H' := by
  obtain ⟨h1, h2⟩ := hr.facts.size_bounds
  have := ring_extractable hB K (rangeContext t.log range.inner.display) (rangeValues B range)
    (by simpa [rangeValues] using h1) (by
      intro vs hvs
      obtain ⟨r, hr, rfl⟩ := List.mem_map.mp hvs
      simpa [ringValues] using h2 r hr) alg halg (fun a => rangeOut (out a)) good ?_
  · have e : (rangeValues B range).map List.length = range.inner.rings.map (·.size) := by
      simp [rangeValues, ringValues, Function.comp_def]
    rw [e] at this
    exact this
  · intro ω H hg
    obtain ⟨t', h⟩ := hgood ω H hg
    have hl := RangeProof.verify_ok_length h
    rw [RangeProof.verify_eq hl, hr.facts.values] at h
    rw [hr.facts.values] at hl
    refine ⟨?_, t', ?_⟩
    · simpa [rangeOut, rangeCiphertexts, rangeValues] using hl
    · rw [← RangeProof.context_log]
      exact h

/-- C89: range proofs for a range `0..bound`, in any context. -/
theorem C89_range_knowledge (B : Backend F E) (hB : B.Lawful) (K : PublicKey E) (t : Transcript)
    (bound : ℕ) (range : PreparedRange E) (hr : PreparedFor B bound range)
    (alg : Ω → OracleAlg (List Entry) F (Ciphertext E × RangeProof F E)) (n : ℕ) (halg : ∀ ω, (alg ω).AtMost n) :
    ExtractableParts (m := (rangeValues B range).length)
      (fun ω => withVerifier B K (rangeContext t.log range.inner.display) (rangeValues B range) rangeOut (alg ω))
      (evaluations n (range.inner.rings.map (·.size)))
      (fun ω H => ∃ t', ((alg ω).run H).2.verify (B.withHash H) K range ((alg ω).run H).1 t = some (.ok (), t'))
      fun ω i H H' => OpensRing B K (rangeContext t.log range.inner.display) (rangeValues B range) i
        (rangeOut ((alg ω).run H)) (rangeOut ((alg ω).run H')) H H' :=
  range_extractable hB K t hr alg halg id _ fun _ _ h => h

example := C89_range_knowledge (Ω := Unit) B101 B101_lawful ⟨[42], 42⟩ (Transcript.new "ciphertext_range") 17 exampleRange
  exampleRange_prepared (fun _ => .ask [] fun a => .done (⟨1, 2⟩, ⟨[⟨1, 2⟩], ⟨a, List.replicate 9 1⟩⟩)) 1
  fun _ _ => trivial

/-- C89: openings of all rings of a range proof are an opening of the ciphertext: the randomness is the sum of all
randomness, the value is an integer from the range. -/
theorem C89_range_opening (B : Backend F E) (bound : ℕ) (range : PreparedRange E) (hr : PreparedFor B bound range)
    (K : PublicKey E) (t : Transcript) (ct : Ciphertext E) (proof : RangeProof F E)
    (hl : proof.partialCiphertexts.length + 1 = (rangeValues B range).length) (H : List Entry → F)
    (o' : Fin (rangeValues B range).length → Ciphertext E × RangeProof F E)
    (H' : Fin (rangeValues B range).length → List Entry → F)
    (h : ∀ i : Fin (rangeValues B range).length, OpensRing B K (rangeContext t.log range.inner.display) (rangeValues B range) i (rangeOut (ct, proof))
      (rangeOut (o' i)) H (H' i)) :
    ∃ opening : Fin (rangeValues B range).length → E × F,
      (∀ i, ∃ c c', (rangeOut (ct, proof)).1[i.1]? = some c ∧ (rangeOut (o' i)).1[i.1]? = some c' ∧
        ringOpening B K.element c
          (proofEquations (B.withHash H) K (rangeContext t.log range.inner.display) (rangeValues B range) i c proof.inner)
          (proofEquations (B.withHash (H' i)) K (rangeContext t.log range.inner.display) (rangeValues B range) i c'
            (o' i).2.inner) = some (opening i)) ∧
      ∃ x < bound, (∑ i, (opening i).1) = (x : F) • B.gen ∧
        ct = ⟨(∑ i, (opening i).2) • B.gen, (x : F) • B.gen + (∑ i, (opening i).2) • K.element⟩ := by
  choose c c' vs v r hc hc' hvs hv hopen hct using h
  refine ⟨fun i => (v i, r i), fun i => ⟨c i, c' i, hc i, hc' i, hopen i⟩, ?_⟩
  have hlen : (rangeValues B range).length = range.inner.rings.length := by simp [rangeValues]
  obtain ⟨idx, x, hrep, h1, h2, h3⟩ := opened_sum (B := B) (K := K.element) range.inner.rings
    (rangeCiphertexts proof.partialCiphertexts ct) (fun i => v (Fin.cast hlen.symm i)) (fun i => r (Fin.cast hlen.symm i))
    (by simpa [rangeCiphertexts, rangeValues] using hl)
    (fun i => by
      have := hvs (Fin.cast hlen.symm i)
      have e : (rangeValues B range)[i.1]? = some (ringValues B (range.inner.rings.get i)) := by simp [rangeValues]
      have e' : ringValues B (range.inner.rings.get i) = vs (Fin.cast hlen.symm i) := Option.some.inj (e.symm.trans this)
      rw [e']
      exact hv _)
    (fun i => by rw [← hct]; exact hc (Fin.cast hlen.symm i))
  have ev : ∑ i : Fin range.inner.rings.length, v (Fin.cast hlen.symm i) = ∑ i, v i :=
    Fintype.sum_equiv (finCongr hlen.symm) _ _ fun _ => rfl
  have er : ∑ i : Fin range.inner.rings.length, r (Fin.cast hlen.symm i) = ∑ i, r i :=
    Fintype.sum_equiv (finCongr hlen.symm) _ _ fun _ => rfl
  rw [ev] at h1 h3
  rw [er] at h2 h3
  refine ⟨x, hr.facts.nested.represents_lt hrep, h1, ?_⟩
  rw [h1] at h3
  simp only [rangeCiphertexts, List.map_append, List.map_cons, List.map_nil, List.sum_append, List.sum_cons, List.sum_nil,
    add_zero, add_sub_cancel] at h2 h3
  simp only [← h2, ← h3]

/-- Two accepted proofs with the same commitments for the value 16 = 3 * 4 + 4 with randomness 2, for hash functions
that always answer 7 and 8. -/
example (t : Transcript) : ∃ opening : Fin (rangeValues B101 exampleRange).length → ZMod 101 × ZMod 101,
    ∃ x < 17, (∑ i, (opening i).1) = ((x : ℕ) : ZMod 101) ∧ ∑ i, (opening i).2 = 2 := by
  obtain ⟨opening, -, x, hx, h1, h2⟩ := C89_range_opening B101 17 exampleRange exampleRange_prepared ⟨[42], 42⟩ t ⟨2, 100⟩
    ⟨[⟨1, 54⟩], ⟨7, [1, 2, 3, 10, 1, 1, 1, 1, 10]⟩⟩ rfl (fun _ => 7)
    (fun _ => (⟨2, 100⟩, ⟨[⟨1, 54⟩], ⟨8, [1, 2, 3, 11, 1, 1, 1, 1, 11]⟩⟩)) (fun _ _ => 8) (by
      intro i
      have hi : i.1 = 0 ∨ i.1 = 1 := by
        have h : i.1 < 2 := i.2
        omega
      have hd : ((10 : ZMod 101) - 11) / (7 - 8) = 1 := by
        rw [show (10 : ZMod 101) - 11 = 7 - 8 by decide]
        exact div_self (by decide)
      rcases hi with hi | hi <;> rw [hi]
      · exact ⟨⟨1, 54⟩, ⟨1, 54⟩, [0, 4, 8, 12], 12, (10 - 11) / (7 - 8), rfl, rfl, by decide, by decide, rfl, by
          rw [hd]; decide⟩
      · exact ⟨⟨1, 46⟩, ⟨1, 46⟩, [0, 1, 2, 3, 4], 4, (10 - 11) / (7 - 8), by decide, by decide, by decide, by decide, rfl, by
          rw [hd]; decide⟩)
  refine ⟨opening, x, hx, h1.trans (mul_one _), ?_⟩
  have := congrArg Ciphertext.random h2
  exact (this.trans (mul_one _)).symm

/-! ## Ballots -/

/-- C89: single-choice and multi-choice ballots: each choice, 0 or 1, is known. -/
theorem C89_choice_knowledge (B : Backend F E) (hB : B.Lawful) {kind : ChoiceKind} (params : ChoiceParams E kind)
    (hn : params.optionsCount ≤ 2 ^ 64) (alg : Ω → OracleAlg (List Entry) F (EncryptedChoice F E kind)) (n : ℕ)
    (halg : ∀ ω, (alg ω).AtMost n) :
    ExtractableParts (m := (List.replicate params.optionsCount [0, B.gen]).length)
      (fun ω => withVerifier B params.receiver (Transcript.new "encrypted_choice_ranges").log
        (List.replicate params.optionsCount [0, B.gen]) (fun b => (b.choices, b.rangeProof)) (alg ω))
      (evaluations n (List.replicate params.optionsCount 2))
      (fun ω H => ∃ cts, ((alg ω).run H).verify (B.withHash H) params = some (.ok cts))
      fun ω i H H' => OpensRing B params.receiver (Transcript.new "encrypted_choice_ranges").log
        (List.replicate params.optionsCount [0, B.gen]) i
        (((alg ω).run H).choices, ((alg ω).run H).rangeProof)
        (((alg ω).run H').choices, ((alg ω).run H').rangeProof) H H' := by
  have := ring_extractable hB params.receiver (Transcript.new "encrypted_choice_ranges").log
    (List.replicate params.optionsCount [0, B.gen]) (by simpa using hn)
    (fun vs h => by obtain rfl := List.eq_of_mem_replicate h; simp) alg halg (fun b => (b.choices, b.rangeProof))
    (fun ω H => ∃ cts, ((alg ω).run H).verify (B.withHash H) params = some (.ok cts)) ?_
  · rw [List.map_replicate] at this
    exact this
  · rintro ω H ⟨cts, h⟩
    obtain ⟨rfl, hl, hne, hsum, t, hring⟩ := EncryptedChoice.verify_ok h
    rw [hl] at hring
    exact ⟨by simpa using hl, t, hring⟩

example := C89_choice_knowledge (Ω := Unit) (kind := .single) B101 B101_lawful ⟨3, ⟨[42], 42⟩⟩ (by simp)
  (fun _ => .ask [] fun a => .done ⟨[⟨1, 2⟩, ⟨3, 4⟩, ⟨5, 6⟩], ⟨a, [1, 2, 3, 4, 5, 6]⟩, ⟨1, 2⟩⟩) 1 fun _ _ => trivial

/-- C89: each vote in a quadratic-voting ballot is known. -/
theorem C89_vote_knowledge (B : Backend F E) (hB : B.Lawful) (params : QuadraticVotingParams E) {o c m : ℕ}
    (hp : VotingParamsFor B params o c m) (alg : Ω → OracleAlg (List Entry) F (QuadraticVotingBallot F E)) (n : ℕ)
    (halg : ∀ ω, (alg ω).AtMost n) (j : ℕ) (hj : j < o) :
    ExtractableParts (m := (rangeValues B params.voteCountRange).length)
      (fun ω => withVerifier B params.receiver
        (rangeContext (Transcript.new "quadratic_voting_variant").log params.voteCountRange.inner.display)
        (rangeValues B params.voteCountRange) (fun b => rangeOut (voteOut j b)) (alg ω))
      (evaluations n (params.voteCountRange.inner.rings.map (·.size)))
      (fun ω H => ∃ cts, ((alg ω).run H).verify (B.withHash H) params = some (.ok cts))
      fun ω i H H' => OpensRing B params.receiver
        (rangeContext (Transcript.new "quadratic_voting_variant").log params.voteCountRange.inner.display)
        (rangeValues B params.voteCountRange) i
        (rangeOut (voteOut j ((alg ω).run H))) (rangeOut (voteOut j ((alg ω).run H'))) H H' := by
  refine range_extractable hB params.receiver _ hp.votes alg halg (voteOut j) _ ?_
  rintro ω H ⟨cts, h⟩
  obtain ⟨-, hl, hv, -⟩ := QuadraticVotingBallot.verify_ok.mp h
  have hj' : j < ((alg ω).run H).votes.length := by rw [hl, hp.options]; exact hj
  simp only [voteOut, List.getElem?_eq_getElem hj']
  exact hv _ (List.getElem_mem hj')

example := C89_vote_knowledge (Ω := Unit) B101 B101_lawful exampleVoting exampleVoting_for.1
  (fun _ => .ask [] fun a => .done ⟨[⟨⟨1, 2⟩, ⟨[], ⟨a, [1, 2]⟩⟩⟩, ⟨⟨1, 2⟩, ⟨[], ⟨a, [1, 2]⟩⟩⟩], ⟨⟨1, 2⟩, ⟨[], ⟨a, [1, 2]⟩⟩⟩,
    ⟨a, [], 1⟩⟩) 1 (fun _ _ => trivial) 1 (by norm_num)

/-- C89: the credit in a quadratic-voting ballot is known. -/
theorem C89_credit_knowledge (B : Backend F E) (hB : B.Lawful) (params : QuadraticVotingParams E) {o c m : ℕ}
    (hp : VotingParamsFor B params o c m) (alg : Ω → OracleAlg (List Entry) F (QuadraticVotingBallot F E)) (n : ℕ)
    (halg : ∀ ω, (alg ω).AtMost n) :
    ExtractableParts (m := (rangeValues B params.creditRange).length)
      (fun ω => withVerifier B params.receiver
        (rangeContext (Transcript.new "quadratic_voting_credit_range").log params.creditRange.inner.display)
        (rangeValues B params.creditRange) (fun b => rangeOut (creditOut b)) (alg ω))
      (evaluations n (params.creditRange.inner.rings.map (·.size)))
      (fun ω H => ∃ cts, ((alg ω).run H).verify (B.withHash H) params = some (.ok cts))
      fun ω i H H' => OpensRing B params.receiver
        (rangeContext (Transcript.new "quadratic_voting_credit_range").log params.creditRange.inner.display)
        (rangeValues B params.creditRange) i
        (rangeOut (creditOut ((alg ω).run H))) (rangeOut (creditOut ((alg ω).run H'))) H H' := by
  refine range_extractable hB params.receiver _ hp.credits alg halg creditOut _ ?_
  rintro ω H ⟨cts, h⟩
  exact (QuadraticVotingBallot.verify_ok.mp h).2.2.2.1

example := C89_credit_knowledge (Ω := Unit) B101 B101_lawful exampleVoting exampleVoting_for.1
  (fun _ => .ask [] fun a => .done ⟨[⟨⟨1, 2⟩, ⟨[], ⟨a, [1, 2]⟩⟩⟩, ⟨⟨1, 2⟩, ⟨[], ⟨a, [1, 2]⟩⟩⟩], ⟨⟨1, 2⟩, ⟨[], ⟨a, [1, 2]⟩⟩⟩,
    ⟨a, [], 1⟩⟩) 1 fun _ _ => trivial

end ElasticElgamal
