import Verif.Model.Proofs.Common

/-!
# Log equality proofs

Models `src/proofs/log_equality.rs`.
-/

set_option autoImplicit false

namespace ElasticElgamal

variable {F E : Type}

/-- `src/proofs/log_equality.rs:96-101` `LogEqualityProof`. -/
@[ext] structure LogEqualityProof (F : Type) where
  challenge : F
  response : F
  deriving DecidableEq

namespace LogEqualityProof

section
variable [Field F] [AddCommGroup E] [Module F E] (B : Backend F E)

/-- `src/proofs/log_equality.rs:114-139` `LogEqualityProof::new`. -/
def new (logBase : PublicKey E) (secret : SecretKey F) (powers : E × E) (t : Transcript)
    (rng : B.Rng) : Option (LogEqualityProof F × Transcript × B.Rng) := do
  let t := t.startProof "log_eq"
  let t := t.appendElementBytes "K" logBase.bytes
  let t ← B.appendElement t "[r]G" powers.1
  let t ← B.appendElement t "[r]K" powers.2
  let (randomScalar, rng) := SecretKey.generate B rng
  let t ← B.appendElement t "[x]G" (B.mulGen randomScalar)
  let t ← B.appendElement t "[x]K" (randomScalar • logBase.element)
  let (challenge, t) := B.challengeScalar t "c"
  let response := challenge * secret + randomScalar
  return ({ challenge, response }, t, rng)

/-- `src/proofs/log_equality.rs:153-180` `LogEqualityProof::verify`. -/
def verify [DecidableEq F] (proof : LogEqualityProof F) (logBase : PublicKey E) (powers : E × E)
    (t : Transcript) : Option (Except VerificationError Unit × Transcript) := do
  let commitments : E × E :=
    (B.doubleMulGen (-proof.challenge) powers.1 proof.response,
     Backend.multiMul [-proof.challenge, proof.response] [powers.2, logBase.element])
  let t := t.startProof "log_eq"
  let t := t.appendElementBytes "K" logBase.bytes
  let t ← B.appendElement t "[r]G" powers.1
  let t ← B.appendElement t "[r]K" powers.2
  let t ← B.appendElement t "[x]G" commitments.1
  let t ← B.appendElement t "[x]K" commitments.2
  let (expectedChallenge, t) := B.challengeScalar t "c"
  return (checkChallenge expectedChallenge proof.challenge, t)

end

/-- `src/proofs/log_equality.rs:184-189` `LogEqualityProof::to_bytes`. -/
def toBytes (B : Backend F E) (proof : LogEqualityProof F) : Bytes :=
  B.serScalar proof.challenge ++ B.serScalar proof.response

/-- `src/proofs/log_equality.rs:193-204` `LogEqualityProof::from_bytes`. -/
def fromBytes (B : Backend F E) (bytes : Bytes) : Option (LogEqualityProof F) :=
  if bytes.length ≠ 2 * B.scalarSize then none
  else do
    let challenge ← B.deScalar (bytes.take B.scalarSize)
    let response ← B.deScalar (bytes.drop B.scalarSize)
    return { challenge, response }

end LogEqualityProof

namespace PublicKey
variable [Field F] [AddCommGroup E] [Module F E] (B : Backend F E)

/-- `src/keys/impls.rs:31-52` `PublicKey::encrypt_zero`. -/
def encryptZero (receiver : PublicKey E) (rng : B.Rng) :
    Option ((Ciphertext E × LogEqualityProof F) × B.Rng) := do
  let (randomScalar, rng) := SecretKey.generate B rng
  let randomElement := B.mulGen randomScalar
  let blindedElement := randomScalar • receiver.element
  let ciphertext : Ciphertext E := ⟨randomElement, blindedElement⟩
  let (proof, _, rng) ← LogEqualityProof.new B receiver randomScalar (randomElement, blindedElement)
    (Transcript.new "zero_encryption") rng
  return ((ciphertext, proof), rng)

/-- `src/keys/impls.rs:59-69` `PublicKey::verify_zero`. -/
def verifyZero [DecidableEq F] (receiver : PublicKey E) (ciphertext : Ciphertext E)
    (proof : LogEqualityProof F) : Option (Except VerificationError Unit) := do
  let (result, _) ← proof.verify B receiver (ciphertext.random, ciphertext.blinded)
    (Transcript.new "zero_encryption")
  return result

end PublicKey

end ElasticElgamal
