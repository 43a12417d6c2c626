import Verif.Lemmas.Commitment
import Verif.Lemmas.Possession
import Verif.Toy

/-!
# C17, C18, C13, C50, C51 for commitment equivalence proofs
-/

set_option autoImplicit false
set_option linter.unusedSectionVars false

namespace ElasticElgamal

open Spec Toy

variable {F E : Type} [Field F] [AddCommGroup E] [Module F E] [DecidableEq F]

/-- C17: for any ciphertext created together with its value and randomness, the returned commitment is the
Pedersen commitment to the same value, and the proof verifies in the same context. -/
theorem C17_commitment_complete (B : Backend F E) (ct : CiphertextWithValue F E) (K : PublicKey E)
    (blinding : F) (base C : E)
    (hct : ct.ciphertext.random = ct.randomness • B.gen ∧
      ct.ciphertext.blinded = ct.value • B.gen + ct.randomness • K.element)
    (t t' : Transcript) (rng rng' : B.Rng) (proof : CommitmentEquivalenceProof F)
    (h : CommitmentEquivalenceProof.new B ct K blinding base t rng = some ((proof, C), t', rng')) :
    proof.verify B ct.ciphertext K C base t = some (.ok (), t') ∧
      CommitsSame B K.element ct.ciphertext C base ct.value ct.randomness blinding := by
  obtain ⟨r, b, c, x, y, z, hC, hr, hb, hc, hx, hy, hz, rfl, hch, h1, h2, h3, -⟩ :=
    CommitmentEquivalenceProof.new_eq_some.mp h
  refine ⟨CommitmentEquivalenceProof.verify_eq_some.mpr
    ⟨r, b, c, x, y, z, hr, hb, hc, ?_, ?_, ?_, rfl, ?_⟩, hct.1, hct.2, hC⟩
  · rw [← hx, h1, hct.1]; congr 1; module
  · rw [← hy, h1, h2, hct.2]; congr 1; module
  · rw [← hz, h2, h3, hC]; congr 1; module
  · rw [← hch, checkChallenge_self]

/-- C17: ciphertexts made by `CiphertextWithValue::new` satisfy the hypothesis above. -/
theorem C17_ciphertext_with_value (B : Backend F E) (v : F) (K : PublicKey E) (rng : B.Rng) :
    let ct := (CiphertextWithValue.new B v K rng).1
    ct.ciphertext.random = ct.randomness • B.gen ∧
      ct.ciphertext.blinded = ct.value • B.gen + ct.randomness • K.element ∧ ct.value = v :=
  ⟨rfl, rfl, rfl⟩

example : (CiphertextWithValue.new B101 9 ⟨[42], 42⟩ (3 : ℕ)).1.ciphertext = ⟨25, 9 + 25 * 42⟩ :=
  Ciphertext.ext (C17_ciphertext_with_value B101 9 ⟨[42], 42⟩ (3 : ℕ)).1
    (C17_ciphertext_with_value B101 9 ⟨[42], 42⟩ (3 : ℕ)).2.1

/-- C17: with total encodings the prover never panics. -/
theorem C17_commitment_new_total (B : Backend F E) (hT : B.TotalSer) (ct : CiphertextWithValue F E)
    (K : PublicKey E) (blinding : F) (base : E) (t : Transcript) (rng : B.Rng) :
    ∃ out, CommitmentEquivalenceProof.new B ct K blinding base t rng = some out := by
  obtain ⟨r, hr⟩ := hT ct.ciphertext.random
  obtain ⟨b, hb⟩ := hT ct.ciphertext.blinded
  obtain ⟨c, hc⟩ := hT (ct.value • B.gen + blinding • base)
  obtain ⟨x, hx⟩ := hT ((CommitmentEquivalenceProof.nonces B rng).1 • B.gen)
  obtain ⟨y, hy⟩ := hT ((CommitmentEquivalenceProof.nonces B rng).2.1 • B.gen +
    (CommitmentEquivalenceProof.nonces B rng).1 • K.element)
  obtain ⟨z, hz⟩ := hT ((CommitmentEquivalenceProof.nonces B rng).2.1 • B.gen +
    (CommitmentEquivalenceProof.nonces B rng).2.2.1 • base)
  let ch := B.challenge (commitmentQuery t.log K.bytes r b c x y z)
  exact ⟨((⟨ch, ch * ct.randomness + _, ch * ct.value + _, ch * blinding + _⟩, _), _, _),
    CommitmentEquivalenceProof.new_eq_some.mpr
    ⟨r, b, c, x, y, z, rfl, hr, hb, hc, hx, hy, hz, rfl, rfl, rfl, rfl, rfl, rfl⟩⟩

example :
    let K : PublicKey (ZMod 101) := ⟨[42], 42⟩
    let ct := (CiphertextWithValue.new B101 9 K (3 : ℕ)).1
    ∃ proof C t' rng', CommitmentEquivalenceProof.new B101 ct K 8 13 (Transcript.new "x") (5 : ℕ)
        = some ((proof, C), t', rng') ∧ C = (9 : ZMod 101) + 8 * 13 ∧
      proof.verify B101 ct.ciphertext K C 13 (Transcript.new "x") = some (.ok (), t') := by
  intro K ct
  obtain ⟨⟨⟨proof, C⟩, t', rng'⟩, h⟩ := C17_commitment_new_total B101 B101_total ct K 8 13
    (Transcript.new "x") (5 : ℕ)
  have := C17_commitment_complete B101 ct K 8 13 C ⟨rfl, rfl⟩ _ _ _ _ _ h
  refine ⟨proof, C, t', rng', h, ?_, this.1⟩
  rw [this.2.2.2]
  rfl

/-- C18: two accepting proofs for the same statement and hashed data with different challenges reveal a
value, encryption randomness and blinding which explain both the ciphertext and the commitment. -/
theorem C18_commitment_extract (B : Backend F E) (hB : B.Lawful) (H₁ H₂ : List Entry → F)
    (p₁ p₂ : CommitmentEquivalenceProof F) (ct : Ciphertext E) (K : PublicKey E) (C base : E)
    (t t' : Transcript)
    (h₁ : p₁.verify (B.withHash H₁) ct K C base t = some (.ok (), t'))
    (h₂ : p₂.verify (B.withHash H₂) ct K C base t = some (.ok (), t'))
    (hne : p₁.challenge ≠ p₂.challenge) :
    CommitsSame B K.element ct C base
      ((p₁.valueResponse - p₂.valueResponse) / (p₁.challenge - p₂.challenge))
      ((p₁.randomnessResponse - p₂.randomnessResponse) / (p₁.challenge - p₂.challenge))
      ((p₁.commitmentResponse - p₂.commitmentResponse) / (p₁.challenge - p₂.challenge)) := by
  obtain ⟨r, b, c, x, y, z, hr, hb, hc, hx, hy, hz, ht, -⟩ :=
    CommitmentEquivalenceProof.verify_eq_some.mp h₁
  obtain ⟨r', b', c', x', y', z', hr', hb', hc', hx', hy', hz', ht', -⟩ :=
    CommitmentEquivalenceProof.verify_eq_some.mp h₂
  rw [ht, Transcript.mk.injEq] at ht'
  obtain ⟨-, -, rfl, rfl, rfl, rfl, rfl, rfl⟩ := commitmentQuery_inj ht'
  have hne' : p₁.challenge - p₂.challenge ≠ 0 := sub_ne_zero.mpr hne
  have key : ∀ {u v : E}, (p₁.challenge - p₂.challenge) • u = (p₁.challenge - p₂.challenge) • v →
      u = v := fun {u v} h => smul_right_injective E hne' h
  have e1 : p₁.randomnessResponse • B.gen - p₁.challenge • ct.random =
    p₂.randomnessResponse • B.gen - p₂.challenge • ct.random := hB.serElem_inj hx hx'
  have e2 : p₁.valueResponse • B.gen + p₁.randomnessResponse • K.element
      - p₁.challenge • ct.blinded = p₂.valueResponse • B.gen + p₂.randomnessResponse • K.element
      - p₂.challenge • ct.blinded := hB.serElem_inj hy hy'
  have e3 : p₁.valueResponse • B.gen + p₁.commitmentResponse • base - p₁.challenge • C =
      p₂.valueResponse • B.gen + p₂.commitmentResponse • base - p₂.challenge • C :=
    hB.serElem_inj hz hz'
  refine ⟨key ?_, key ?_, key ?_⟩
  · rw [smul_smul, mul_div_cancel₀ _ hne']
    linear_combination (norm := module) -e1
  · rw [smul_add, smul_smul, smul_smul, mul_div_cancel₀ _ hne', mul_div_cancel₀ _ hne']
    linear_combination (norm := module) -e2
  · rw [smul_add, smul_smul, smul_smul, mul_div_cancel₀ _ hne', mul_div_cancel₀ _ hne']
    linear_combination (norm := module) -e3

/-- Two proofs with nonces 1, 2, 3 and challenges 7, 8: the value is 5, the randomness 3, the blinding 2. -/
example : CommitsSame B101 42 ⟨3, 30⟩ 31 13 5 3 2 := by
  have := C18_commitment_extract B101 B101_lawful (fun _ => 7) (fun _ => 8) ⟨7, 22, 37, 17⟩ ⟨8, 25, 42, 19⟩
    ⟨3, 30⟩ ⟨[42], 42⟩ 31 13 (Transcript.new "x") _ rfl rfl (by decide)
  convert this using 1 <;> exact eq_div_of_mul_eq (by decide) (by decide)

/-- C18, degenerate base: a bad blinding base (identity) is the one case in which the equivalence is a
property of the group elements alone; then an accepted proof of a false equivalence hits the single bad
challenge. -/
theorem C18_commitment_sound_zero_base (B : Backend F E) (hB : B.Lawful) :
    ∃ bad : List Entry → F, ∀ (H : List Entry → F) (proof : CommitmentEquivalenceProof F)
      (ct : Ciphertext E) (K : PublicKey E) (C : E) (t t' : Transcript),
      WellFormedKey B K →
      proof.verify (B.withHash H) ct K C 0 t = some (.ok (), t') →
      (∃ v r b, CommitsSame B K.element ct C 0 v r b) ∨ H t'.log = bad t'.log := by
  let dl (b : Bytes) : F := B.dlog ((B.deElem b).getD 0)
  refine ⟨fun log => match log.reverse with
    | .chal _ :: .msg _ z :: .msg _ y :: .msg _ x :: .msg _ c :: .msg _ b :: .msg _ r ::
        .msg _ k :: _ =>
      (dl y - dl k * dl x - dl z) / (dl c + dl k * dl r - dl b)
    | _ => 0, fun H proof ct K C t t' hK h => ?_⟩
  obtain ⟨r, b, c, x, y, z, hr, hb, hc, hx, hy, hz, rfl, hch⟩ :=
    CommitmentEquivalenceProof.verify_eq_some.mp h
  have hch := checkChallenge_ok.mp hch.symm
  change B.serElem _ = _ at hr hb hc hx hy hz
  change H _ = _ at hch
  rw [hch]
  simp only [commitmentQuery, List.reverse_append, List.reverse_cons, List.reverse_nil,
    List.nil_append, List.cons_append, dl, hB.deElem_serElem _ _ hr, hB.deElem_serElem _ _ hb,
    hB.deElem_serElem _ _ hc, hB.deElem_serElem _ _ hx, hB.deElem_serElem _ _ hy,
    hB.deElem_serElem _ _ hz, show B.deElem K.bytes = some K.element from hK, Option.getD_some]
  by_cases hs : B.dlog C + B.dlog K.element * B.dlog ct.random - B.dlog ct.blinded = 0
  · left
    refine ⟨B.dlog C, B.dlog ct.random, 0, (hB.dlog_smul_gen _).symm, ?_, ?_⟩
    · apply hB.dlog_inj
      rw [hB.dlog_add, hB.dlog_smul, hB.dlog_smul, hB.dlog_gen]
      linear_combination -hs
    · rw [hB.dlog_smul_gen]; simp
  · right
    rw [eq_div_iff hs]
    simp only [hB.dlog_sub, hB.dlog_add, hB.dlog_smul, hB.dlog_gen, hB.dlog_zero]
    ring

/-- With 7 as the only hash value, a false equivalence (the ciphertext encrypts 5, the commitment is to 6) is accepted
for the bad challenge. -/
example : ∃ bad : List Entry → ZMod 101, ∃ t' : Transcript,
    (∃ v r b, CommitsSame B101 42 ⟨3, 30⟩ 6 0 v r b) ∨ 7 = bad t'.log := by
  obtain ⟨bad, h⟩ := C18_commitment_sound_zero_base B101 B101_lawful
  exact ⟨bad, _, h (fun _ => 7) ⟨7, 22, 37, 17⟩ ⟨3, 30⟩ ⟨[42], 42⟩ 6 (Transcript.new "x") _
    (by unfold WellFormedKey; decide) rfl⟩

/-- C13 for commitment equivalence: acceptance of one proof in two settings which differ in the context,
receiver, ciphertext or commitment is a hash collision; if only the blinding base differs (it is not
hashed by itself), it is a collision unless the commitment response is zero. -/
theorem C13_commitment_binding (B : Backend F E) (hB : B.Lawful)
    (proof : CommitmentEquivalenceProof F) (ct₁ ct₂ : Ciphertext E) (K₁ K₂ : PublicKey E)
    (C₁ C₂ base₁ base₂ : E) (t₁ t₂ t₁' t₂' : Transcript)
    (hK₁ : WellFormedKey B K₁) (hK₂ : WellFormedKey B K₂)
    (h₁ : proof.verify B ct₁ K₁ C₁ base₁ t₁ = some (.ok (), t₁'))
    (h₂ : proof.verify B ct₂ K₂ C₂ base₂ t₂ = some (.ok (), t₂'))
    (hne : t₁ ≠ t₂ ∨ K₁.element ≠ K₂.element ∨ ct₁ ≠ ct₂ ∨ C₁ ≠ C₂ ∨
      (base₁ ≠ base₂ ∧ proof.commitmentResponse ≠ 0)) :
    t₁'.log ≠ t₂'.log ∧ B.challenge t₁'.log = B.challenge t₂'.log := by
  obtain ⟨r, b, c, x, y, z, hr, hb, hc, hx, hy, hz, rfl, hch⟩ :=
    CommitmentEquivalenceProof.verify_eq_some.mp h₁
  obtain ⟨r', b', c', x', y', z', hr', hb', hc', hx', hy', hz', rfl, hch'⟩ :=
    CommitmentEquivalenceProof.verify_eq_some.mp h₂
  have hch := checkChallenge_ok.mp hch.symm
  have hch' := checkChallenge_ok.mp hch'.symm
  refine ⟨fun heq => ?_, hch.trans hch'.symm⟩
  obtain ⟨e1, e2, rfl, rfl, rfl, rfl, rfl, rfl⟩ := commitmentQuery_inj heq
  have hC : C₁ = C₂ := hB.serElem_inj hc hc'
  rcases hne with h | h | h | h | ⟨h, h'⟩
  · exact h (transcript_ext e1)
  · unfold WellFormedKey at hK₁ hK₂
    rw [e2, hK₂] at hK₁
    exact h (Option.some.inj hK₁).symm
  · exact h (Ciphertext.ext (hB.serElem_inj hr hr') (hB.serElem_inj hb hb'))
  · exact h hC
  · subst hC
    have e := hB.serElem_inj hz hz'
    have : proof.commitmentResponse • (base₁ - base₂) = 0 := by
      linear_combination (norm := module) e
    rcases smul_eq_zero.mp this with h0 | h0
    · exact h' h0
    · exact h (sub_eq_zero.mp h0)

/-- With a constant hash function a proof is accepted for other ciphertexts: a hash collision. -/
example : ∃ t₁ t₂ : Transcript, t₁.log ≠ t₂.log :=
  ⟨_, _, (C13_commitment_binding (B101.withHash fun _ => 7) (B101_lawful.withHash _) ⟨7, 22, 37, 17⟩ ⟨3, 30⟩ ⟨3, 31⟩
    ⟨[42], 42⟩ ⟨[42], 42⟩ 31 31 13 13 (Transcript.new "x") (Transcript.new "x") _ _
    (by unfold WellFormedKey; decide) (by unfold WellFormedKey; decide) rfl rfl
    (.inr (.inr (.inl (by decide))))).1⟩

/-- C13, finding: with a zero commitment response the blinding base is not bound at all. -/
theorem C13_commitment_base_unbound (B : Backend F E) (proof : CommitmentEquivalenceProof F)
    (h0 : proof.commitmentResponse = 0) (ct : Ciphertext E) (K : PublicKey E) (C base₁ base₂ : E)
    (t : Transcript) : proof.verify B ct K C base₁ t = proof.verify B ct K C base₂ t := by
  simp [CommitmentEquivalenceProof.verify, h0]

example : (⟨7, 22, 37, 0⟩ : CommitmentEquivalenceProof (ZMod 101)).verify B101 ⟨3, 30⟩ ⟨[42], 42⟩ 31 13
      (Transcript.new "x") =
    (⟨7, 22, 37, 0⟩ : CommitmentEquivalenceProof (ZMod 101)).verify B101 ⟨3, 30⟩ ⟨[42], 42⟩ 31 14 (Transcript.new "x") :=
  C13_commitment_base_unbound B101 ⟨7, 22, 37, 0⟩ rfl ⟨3, 30⟩ ⟨[42], 42⟩ 31 13 14 (Transcript.new "x")

/-- C50 for commitment equivalence proofs. -/
theorem C50_commitment_verify_total (B : Backend F E) (hT : B.TotalSer)
    (proof : CommitmentEquivalenceProof F) (ct : Ciphertext E) (K : PublicKey E) (C base : E)
    (t : Transcript) : ∃ out, proof.verify B ct K C base t = some out := by
  obtain ⟨r, hr⟩ := hT ct.random
  obtain ⟨b, hb⟩ := hT ct.blinded
  obtain ⟨c, hc⟩ := hT C
  obtain ⟨x, hx⟩ := hT (proof.randomnessResponse • B.gen - proof.challenge • ct.random)
  obtain ⟨y, hy⟩ := hT (proof.valueResponse • B.gen + proof.randomnessResponse • K.element
    - proof.challenge • ct.blinded)
  obtain ⟨z, hz⟩ := hT (proof.valueResponse • B.gen + proof.commitmentResponse • base
    - proof.challenge • C)
  exact ⟨(_, _), CommitmentEquivalenceProof.verify_eq_some.mpr
    ⟨r, b, c, x, y, z, hr, hb, hc, hx, hy, hz, rfl, rfl⟩⟩

example : ∃ out, (⟨0, 0, 0, 0⟩ : CommitmentEquivalenceProof (ZMod 101)).verify B101 ⟨0, 0⟩ ⟨[42], 42⟩ 0 0
    (Transcript.new "x") = some out :=
  C50_commitment_verify_total B101 B101_total ⟨0, 0, 0, 0⟩ ⟨0, 0⟩ ⟨[42], 42⟩ 0 0 (Transcript.new "x")

/-- C50, finding: for SEC1 backends the all-zero proof makes the verifier panic. -/
theorem C50_commitment_verify_panics_sec1 (B : Backend F E) (hS : B.Sec1Ser) (ct : Ciphertext E)
    (K : PublicKey E) (C base : E) (t : Transcript) :
    (⟨0, 0, 0, 0⟩ : CommitmentEquivalenceProof F).verify B ct K C base t = none := by
  cases h : (⟨0, 0, 0, 0⟩ : CommitmentEquivalenceProof F).verify B ct K C base t with
  | none => rfl
  | some out =>
    exfalso
    obtain ⟨res, t'⟩ := out
    obtain ⟨r, b, c, x, y, z, -, -, -, hx, -⟩ := CommitmentEquivalenceProof.verify_eq_some.mp h
    simp only [zero_smul, sub_zero] at hx
    rw [(hS 0).mpr rfl] at hx
    cases hx

example : (⟨0, 0, 0, 0⟩ : CommitmentEquivalenceProof (ZMod 101)).verify S101 ⟨3, 30⟩ ⟨[2, 42], 42⟩ 31 13
    (Transcript.new "x") = none :=
  C50_commitment_verify_panics_sec1 S101 S101_sec1 ⟨3, 30⟩ ⟨[2, 42], 42⟩ 31 13 (Transcript.new "x")

/-- C51 for commitment equivalence: every accepted proof is the prover's output for exactly one choice of
the three nonces, for any hash function. -/
theorem C51_commitment_zk (B : Backend F E) (ct : CiphertextWithValue F E) (K : PublicKey E)
    (blinding : F) (base : E)
    (hct : ct.ciphertext.random = ct.randomness • B.gen ∧
      ct.ciphertext.blinded = ct.value • B.gen + ct.randomness • K.element)
    (proof : CommitmentEquivalenceProof F) (t t' : Transcript)
    (ht' : proof.verify B ct.ciphertext K
      (ct.value • B.gen + blinding • base) base t = some (.ok (), t')) :
    ∃! n : F × F × F, CommitmentEquivalenceProof.new B.withTape ct K
      blinding base t [n.1, n.2.1, n.2.2] =
        some ((proof, ct.value • B.gen + blinding • base), t', []) := by
  obtain ⟨r, b, c, x, y, z, hr, hb, hc, hx, hy, hz, rfl, hch⟩ :=
    CommitmentEquivalenceProof.verify_eq_some.mp ht'
  have hch := checkChallenge_ok.mp hch.symm
  change B.serElem _ = _ at hx hy hz
  refine ⟨(proof.randomnessResponse - proof.challenge * ct.randomness,
    proof.valueResponse - proof.challenge * ct.value,
    proof.commitmentResponse - proof.challenge * blinding), ?_, ?_⟩
  · refine CommitmentEquivalenceProof.new_eq_some.mpr ⟨r, b, c, x, y, z, rfl, hr, hb, hc, ?_, ?_, ?_,
      rfl, hch.symm, ?_, ?_, ?_, rfl⟩
    · rw [← hx, hct.1]
      show B.serElem _ = B.serElem _
      congr 1
      simp only [CommitmentEquivalenceProof.nonces, List.headD_cons]
      module
    · rw [← hy, hct.2]
      show B.serElem _ = B.serElem _
      congr 1
      simp only [CommitmentEquivalenceProof.nonces, List.headD_cons, List.tail_cons]
      module
    · rw [← hz]
      show B.serElem _ = B.serElem _
      congr 1
      simp only [CommitmentEquivalenceProof.nonces, List.headD_cons, List.tail_cons]
      module
    all_goals simp [CommitmentEquivalenceProof.nonces]
  · rintro ⟨a, b, c⟩ h
    obtain ⟨-, -, -, -, -, -, -, -, -, -, -, -, -, -, -, h1, h2, h3, -⟩ :=
      CommitmentEquivalenceProof.new_eq_some.mp h
    simp only [CommitmentEquivalenceProof.nonces, List.headD_cons, List.tail_cons] at h1 h2 h3
    rw [h1, h2, h3]
    simp

example : ∃ t', ∃! n : ZMod 101 × ZMod 101 × ZMod 101, CommitmentEquivalenceProof.new
    (B101.withHash fun _ => 7).withTape ⟨⟨⟨3, 30⟩, 3⟩, 5⟩ ⟨[42], 42⟩ 2 13 (Transcript.new "x") [n.1, n.2.1, n.2.2] =
      some ((⟨7, 22, 37, 17⟩, 5 + 2 * 13), t', []) :=
  ⟨_, C51_commitment_zk (B101.withHash fun _ => 7) ⟨⟨⟨3, 30⟩, 3⟩, 5⟩ ⟨[42], 42⟩ 2 13
    (by constructor <;> decide) ⟨7, 22, 37, 17⟩ (Transcript.new "x") _ rfl⟩

end ElasticElgamal
