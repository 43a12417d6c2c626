import Verif.Model.Proofs.Common

/-!
# Commitment equivalence proofs

Models `src/proofs/commitment.rs`.
-/

set_option autoImplicit false

namespace ElasticElgamal

variable {F E : Type}

/-- `src/proofs/commitment.rs:115-124` `CommitmentEquivalenceProof`. -/
@[ext] structure CommitmentEquivalenceProof (F : Type) where
  challenge : F
  randomnessResponse : F
  valueResponse : F
  commitmentResponse : F
  deriving DecidableEq

namespace CommitmentEquivalenceProof

variable [Field F] [AddCommGroup E] [Module F E] (B : Backend F E)

/-- `src/proofs/commitment.rs:134-181` `CommitmentEquivalenceProof::new`. -/
def new (ciphertext : CiphertextWithValue F E) (receiver : PublicKey E)
    (commitmentBlinding : SecretKey F) (commitmentBlindingBase : E) (t : Transcript) (rng : B.Rng) :
    Option ((CommitmentEquivalenceProof F × E) × Transcript × B.Rng) := do
  let commitment := Backend.multiMul [ciphertext.value, commitmentBlinding]
    [B.gen, commitmentBlindingBase]
  let t := t.startProof "commitment_equivalence"
  let t := t.appendElementBytes "K" receiver.bytes
  let t ← B.appendElement t "R" ciphertext.ciphertext.random
  let t ← B.appendElement t "B" ciphertext.ciphertext.blinded
  let t ← B.appendElement t "C" commitment
  let (randomScalar, rng) := SecretKey.generate B rng
  let (valueScalar, rng) := SecretKey.generate B rng
  let (commitmentScalar, rng) := SecretKey.generate B rng
  let randomCommitment := B.mulGen randomScalar
  let t ← B.appendElement t "[e_r]G" randomCommitment
  let valueElement := B.mulGen valueScalar
  let encBlindingCommitment := valueElement + randomScalar • receiver.element
  let t ← B.appendElement t "[e_v]G + [e_r]K" encBlindingCommitment
  let commitmentCommitment := valueElement + commitmentScalar • commitmentBlindingBase
  let t ← B.appendElement t "[e_v]G + [e_c]H" commitmentCommitment
  let (challenge, t) := B.challengeScalar t "c"
  let randomnessResponse := challenge * ciphertext.randomness + randomScalar
  let valueResponse := challenge * ciphertext.value + valueScalar
  let commitmentResponse := challenge * commitmentBlinding + commitmentScalar
  return (({ challenge, randomnessResponse, valueResponse, commitmentResponse }, commitment), t, rng)

/-- `src/proofs/commitment.rs:186-238` `CommitmentEquivalenceProof::verify`. -/
def verify [DecidableEq F] (proof : CommitmentEquivalenceProof F) (ciphertext : Ciphertext E)
    (receiver : PublicKey E) (commitment : E) (commitmentBlindingBase : E) (t : Transcript) :
    Option (Except VerificationError Unit × Transcript) := do
  let t := t.startProof "commitment_equivalence"
  let t := t.appendElementBytes "K" receiver.bytes
  let t ← B.appendElement t "R" ciphertext.random
  let t ← B.appendElement t "B" ciphertext.blinded
  let t ← B.appendElement t "C" commitment
  let negChallenge := -proof.challenge
  let randomCommitment := B.doubleMulGen negChallenge ciphertext.random proof.randomnessResponse
  let t ← B.appendElement t "[e_r]G" randomCommitment
  let encBlindingCommitment := Backend.multiMul
    [proof.valueResponse, proof.randomnessResponse, negChallenge]
    [B.gen, receiver.element, ciphertext.blinded]
  let t ← B.appendElement t "[e_v]G + [e_r]K" encBlindingCommitment
  let commitmentCommitment := Backend.multiMul
    [proof.valueResponse, proof.commitmentResponse, negChallenge]
    [B.gen, commitmentBlindingBase, commitment]
  let t ← B.appendElement t "[e_v]G + [e_c]H" commitmentCommitment
  let (expectedChallenge, t) := B.challengeScalar t "c"
  return (checkChallenge expectedChallenge proof.challenge, t)

end CommitmentEquivalenceProof

end ElasticElgamal
