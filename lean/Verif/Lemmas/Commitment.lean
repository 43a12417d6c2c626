import Verif.Spec.Transcript
import Verif.Model.Proofs.Commitment
import Verif.Lemmas.LogEq

/-!
# Lemmas about commitment equivalence proofs
-/

set_option autoImplicit false
set_option linter.unusedSectionVars false

namespace ElasticElgamal

open Spec

variable {F E : Type} [Field F] [AddCommGroup E] [Module F E]

namespace CommitmentEquivalenceProof

theorem verify_eq_some [DecidableEq F] {B : Backend F E} {proof : CommitmentEquivalenceProof F}
    {ct : Ciphertext E} {K : PublicKey E} {C base : E} {t t' : Transcript}
    {res : Except VerificationError Unit} :
    proof.verify B ct K C base t = some (res, t') ↔
      ∃ r b c x y z, B.serElem ct.random = some r ∧ B.serElem ct.blinded = some b ∧
        B.serElem C = some c ∧
        B.serElem (proof.randomnessResponse • B.gen - proof.challenge • ct.random) = some x ∧
        B.serElem (proof.valueResponse • B.gen + proof.randomnessResponse • K.element
          - proof.challenge • ct.blinded) = some y ∧
        B.serElem (proof.valueResponse • B.gen + proof.commitmentResponse • base
          - proof.challenge • C) = some z ∧
        t' = ⟨commitmentQuery t.log K.bytes r b c x y z⟩ ∧
        res = checkChallenge (B.challenge (commitmentQuery t.log K.bytes r b c x y z))
          proof.challenge := by
  have e1 : B.doubleMulGen (-proof.challenge) ct.random proof.randomnessResponse =
      proof.randomnessResponse • B.gen - proof.challenge • ct.random := by
    simp only [Backend.doubleMulGen]; module
  have e2 : Backend.multiMul [proof.valueResponse, proof.randomnessResponse, -proof.challenge]
      [B.gen, K.element, ct.blinded] = proof.valueResponse • B.gen +
        proof.randomnessResponse • K.element - proof.challenge • ct.blinded := by
    simp only [Backend.multiMul_cons, Backend.multiMul_nil]; module
  have e3 : Backend.multiMul [proof.valueResponse, proof.commitmentResponse, -proof.challenge]
      [B.gen, base, C] = proof.valueResponse • B.gen +
        proof.commitmentResponse • base - proof.challenge • C := by
    simp only [Backend.multiMul_cons, Backend.multiMul_nil]; module
  simp only [verify, e1, e2, e3, Option.bind_eq_bind, Option.bind_eq_some_iff, Option.pure_def,
    Option.some.injEq, Prod.mk.injEq, Backend.appendElement_eq_some, Backend.challengeScalar,
    Transcript.appendElementBytes, Transcript.appendMessage, Transcript.startProof, commitmentQuery,
    List.append_assoc, List.cons_append, List.nil_append]
  constructor
  · rintro ⟨_, ⟨r, hr, rfl⟩, _, ⟨b, hb, rfl⟩, _, ⟨c, hc, rfl⟩, _, ⟨x, hx, rfl⟩, _, ⟨y, hy, rfl⟩,
      _, ⟨z, hz, rfl⟩, rfl, rfl⟩
    exact ⟨r, b, c, x, y, z, hr, hb, hc, hx, hy, hz, by simp, by simp⟩
  · rintro ⟨r, b, c, x, y, z, hr, hb, hc, hx, hy, hz, rfl, rfl⟩
    exact ⟨_, ⟨r, hr, rfl⟩, _, ⟨b, hb, rfl⟩, _, ⟨c, hc, rfl⟩, _, ⟨x, hx, rfl⟩, _, ⟨y, hy, rfl⟩,
      _, ⟨z, hz, rfl⟩, by simp, by simp⟩

/-- The three nonces drawn by the prover. -/
def nonces (B : Backend F E) (rng : B.Rng) : F × F × F × B.Rng :=
  let (a, rng) := B.genScalar rng
  let (b, rng) := B.genScalar rng
  let (c, rng) := B.genScalar rng
  (a, b, c, rng)

theorem new_eq_some {B : Backend F E} {ct : CiphertextWithValue F E} {K : PublicKey E}
    {blinding : F} {base C : E} {t t' : Transcript} {rng rng' : B.Rng}
    {proof : CommitmentEquivalenceProof F} :
    CommitmentEquivalenceProof.new B ct K blinding base t rng = some ((proof, C), t', rng') ↔
      ∃ r b c x y z, C = ct.value • B.gen + blinding • base ∧
        B.serElem ct.ciphertext.random = some r ∧ B.serElem ct.ciphertext.blinded = some b ∧
        B.serElem C = some c ∧
        B.serElem ((nonces B rng).1 • B.gen) = some x ∧
        B.serElem ((nonces B rng).2.1 • B.gen + (nonces B rng).1 • K.element) = some y ∧
        B.serElem ((nonces B rng).2.1 • B.gen + (nonces B rng).2.2.1 • base) = some z ∧
        t' = ⟨commitmentQuery t.log K.bytes r b c x y z⟩ ∧
        proof.challenge = B.challenge (commitmentQuery t.log K.bytes r b c x y z) ∧
        proof.randomnessResponse = proof.challenge * ct.randomness + (nonces B rng).1 ∧
        proof.valueResponse = proof.challenge * ct.value + (nonces B rng).2.1 ∧
        proof.commitmentResponse = proof.challenge * blinding + (nonces B rng).2.2.1 ∧
        rng' = (nonces B rng).2.2.2 := by
  have e0 : Backend.multiMul [ct.value, blinding] [B.gen, base] =
      ct.value • B.gen + blinding • base := by
    simp only [Backend.multiMul_cons, Backend.multiMul_nil]; module
  simp only [CommitmentEquivalenceProof.new, nonces, e0, Option.bind_eq_bind,
    Option.bind_eq_some_iff, Option.pure_def, SecretKey.generate, Backend.mulGen,
    Option.some.injEq, Prod.mk.injEq, Backend.appendElement_eq_some, Backend.challengeScalar,
    Transcript.appendElementBytes, Transcript.appendMessage, Transcript.startProof, commitmentQuery,
    List.append_assoc, List.cons_append, List.nil_append, CommitmentEquivalenceProof.ext_iff]
  constructor
  · rintro ⟨_, ⟨r, hr, rfl⟩, _, ⟨b, hb, rfl⟩, _, ⟨c, hc, rfl⟩, _, ⟨x, hx, rfl⟩, _, ⟨y, hy, rfl⟩,
      _, ⟨z, hz, rfl⟩, ⟨⟨h1, h2, h3, h4⟩, rfl⟩, rfl, rfl⟩
    refine ⟨r, b, c, x, y, z, rfl, hr, hb, hc, hx, hy, hz, by simp, ?_, ?_, ?_, ?_, rfl⟩
    · rw [← h1]; simp
    · rw [← h2, ← h1]
    · rw [← h3, ← h1]
    · rw [← h4, ← h1]
  · rintro ⟨r, b, c, x, y, z, rfl, hr, hb, hc, hx, hy, hz, rfl, h1, h2, h3, h4, rfl⟩
    refine ⟨_, ⟨r, hr, rfl⟩, _, ⟨b, hb, rfl⟩, _, ⟨c, hc, rfl⟩, _, ⟨x, hx, rfl⟩, _, ⟨y, hy, rfl⟩,
      _, ⟨z, hz, rfl⟩, ⟨⟨?_, ?_, ?_, ?_⟩, rfl⟩, by simp, rfl⟩
    · rw [h1]; simp
    · rw [h2, h1]; simp
    · rw [h3, h1]; simp
    · rw [h4, h1]; simp

end CommitmentEquivalenceProof

theorem commitmentQuery_inj {ctx ctx' : List Entry} {k r b c x y z k' r' b' c' x' y' z' : Bytes}
    (h : commitmentQuery ctx k r b c x y z = commitmentQuery ctx' k' r' b' c' x' y' z') :
    ctx = ctx' ∧ k = k' ∧ r = r' ∧ b = b' ∧ c = c' ∧ x = x' ∧ y = y' ∧ z = z' := by
  have := List.append_inj' h rfl
  simpa using this

end ElasticElgamal
