import Verif.Model.Leakage.Ops

/-!
# Operations performed by encryption, decryption and proofs

The functions of `Model/Encryption.lean`, `Model/Decryption.lean`, `Model/Proofs` and `Model/Sharing` that handle
secrets, with the operations they perform. The results are the same (`Verif/Lemmas/Leakage.lean`).
-/

set_option autoImplicit false

namespace ElasticElgamal

open Traced

variable {F E : Type} [Field F] [AddCommGroup E] [Module F E] (B : Backend F E)

/-- `src/keys/mod.rs:52-54` `SecretKey::generate`. -/
def SecretKey.generateTraced (rng : B.Rng) : Traced F E (SecretKey F × B.Rng) := B.genScalarTraced rng

/-- `src/keys/mod.rs:178-185` `PublicKey::from_element`. -/
def PublicKey.fromElementTraced (element : E) : Traced F E (PublicKey E) := do
  let elementBytes ← B.serElemTraced element
  return { element := element, bytes := elementBytes }

/-- `src/keys/mod.rs:285-291` `Keypair::generate`; the public key by `src/keys/mod.rs:198-203`. -/
def Keypair.generateTraced (rng : B.Rng) : Traced F E (Keypair F E × B.Rng) := do
  let (secret, rng) ← SecretKey.generateTraced B rng
  let element ← B.mulGenTraced secret
  let publicKey ← PublicKey.fromElementTraced B element
  return ({ secret, publicKey }, rng)

/-- `src/encryption.rs:310-327` `ExtendedCiphertext::new`. -/
def ExtendedCiphertext.newTraced (value : E) (receiver : PublicKey E) (rng : B.Rng) :
    Traced F E (ExtendedCiphertext F E × B.Rng) := do
  let (randomScalar, rng) ← SecretKey.generateTraced B rng
  let randomElement ← B.mulGenTraced randomScalar
  let dhElement ← mulElemTraced randomScalar receiver.element
  let blindedElement ← addElemTraced value dhElement
  return ({ inner := ⟨randomElement, blindedElement⟩, randomScalar }, rng)

/-- `src/encryption.rs:348-364` `Add for ExtendedCiphertext`, with `src/encryption.rs:163-178`. -/
def ExtendedCiphertext.addTraced (a b : ExtendedCiphertext F E) : Traced F E (ExtendedCiphertext F E) := do
  let random ← addElemTraced a.inner.random b.inner.random
  let blinded ← addElemTraced a.inner.blinded b.inner.blinded
  let randomScalar ← addScalarTraced a.randomScalar b.randomScalar
  return { inner := ⟨random, blinded⟩, randomScalar }

/-- `src/encryption.rs:366-375` `Sub for ExtendedCiphertext`, with `src/encryption.rs:180-195`. -/
def ExtendedCiphertext.subTraced (a b : ExtendedCiphertext F E) : Traced F E (ExtendedCiphertext F E) := do
  let random ← subElemTraced a.inner.random b.inner.random
  let blinded ← subElemTraced a.inner.blinded b.inner.blinded
  let randomScalar ← subScalarTraced a.randomScalar b.randomScalar
  return { inner := ⟨random, blinded⟩, randomScalar }

/-- `src/encryption.rs:403-407` `CiphertextWithValue::new` for `V = Scalar`. -/
def CiphertextWithValue.newTraced (value : F) (receiver : PublicKey E) (rng : B.Rng) :
    Traced F E (CiphertextWithValue F E × B.Rng) := do
  let element ← B.mulGenTraced value
  let (ct, rng) ← ExtendedCiphertext.newTraced B element receiver rng
  return (ct.withValue value, rng)

/-- `src/encryption.rs:403-407` `CiphertextWithValue::new` for `V = u64`. -/
def CiphertextWithValue.newU64Traced (value : Nat) (receiver : PublicKey E) (rng : B.Rng) :
    Traced F E (CiphertextWithValue F E Nat × B.Rng) := do
  let element ← B.mulGenTraced (value : F)
  let (ct, rng) ← ExtendedCiphertext.newTraced B element receiver rng
  return (ct.withValue value, rng)

/-- `src/keys/impls.rs:16-23` `PublicKey::encrypt`. -/
def PublicKey.encryptTraced (receiver : PublicKey E) (value : F) (rng : B.Rng) :
    Traced F E (Ciphertext E × B.Rng) := do
  let element ← B.mulGenTraced value
  let (ct, rng) ← ExtendedCiphertext.newTraced B element receiver rng
  return (ct.inner, rng)

/-- `src/keys/impls.rs:26-28` `PublicKey::encrypt_element`. -/
def PublicKey.encryptElementTraced (receiver : PublicKey E) (value : E) (rng : B.Rng) :
    Traced F E (Ciphertext E × B.Rng) := do
  let (ct, rng) ← ExtendedCiphertext.newTraced B value receiver rng
  return (ct.inner, rng)

/-- `src/keys/impls.rs:160-163` `SecretKey::decrypt_to_element`. -/
def SecretKey.decryptToElementTraced (secret : SecretKey F) (encrypted : Ciphertext E) : Traced F E E := do
  let dhElement ← mulElemTraced secret encrypted.random
  subElemTraced encrypted.blinded dhElement

/-- `src/proofs/log_equality.rs:114-139` `LogEqualityProof::new`. -/
def LogEqualityProof.newTraced (logBase : PublicKey E) (secret : SecretKey F) (powers : E × E) (t : Transcript)
    (rng : B.Rng) : Traced F E (LogEqualityProof F × Transcript × B.Rng) := do
  let t ← t.startProofTraced "log_eq"
  let t ← t.appendElementBytesTraced "K" logBase.bytes
  let t ← B.appendElementTraced t "[r]G" powers.1
  let t ← B.appendElementTraced t "[r]K" powers.2
  let (randomScalar, rng) ← SecretKey.generateTraced B rng
  let randomElement ← B.mulGenTraced randomScalar
  let t ← B.appendElementTraced t "[x]G" randomElement
  let randomPower ← mulElemTraced randomScalar logBase.element
  let t ← B.appendElementTraced t "[x]K" randomPower
  let (challenge, t) ← B.challengeScalarTraced t "c"
  let product ← mulScalarTraced challenge secret
  let response ← addScalarTraced product randomScalar
  return ({ challenge, response }, t, rng)

/-- `src/proofs/log_equality.rs:153-180` `LogEqualityProof::verify`. -/
def LogEqualityProof.verifyTraced [DecidableEq F] (proof : LogEqualityProof F) (logBase : PublicKey E)
    (powers : E × E) (t : Transcript) : Traced F E (Except VerificationError Unit × Transcript) := do
  let negChallenge ← negScalarTraced proof.challenge
  let commitment1 ← B.vartimeDoubleMulGenTraced negChallenge powers.1 proof.response
  let negChallenge ← negScalarTraced proof.challenge
  let commitment2 ← Backend.vartimeMultiMulTraced [negChallenge, proof.response] [powers.2, logBase.element]
  let t ← t.startProofTraced "log_eq"
  let t ← t.appendElementBytesTraced "K" logBase.bytes
  let t ← B.appendElementTraced t "[r]G" powers.1
  let t ← B.appendElementTraced t "[r]K" powers.2
  let t ← B.appendElementTraced t "[x]G" commitment1
  let t ← B.appendElementTraced t "[x]K" commitment2
  let (expectedChallenge, t) ← B.challengeScalarTraced t "c"
  let result ← op .eqScalar (checkChallenge expectedChallenge proof.challenge)
  op (.branch (decide (expectedChallenge = proof.challenge))) (result, t)

/-- `src/keys/impls.rs:31-52` `PublicKey::encrypt_zero`. -/
def PublicKey.encryptZeroTraced (receiver : PublicKey E) (rng : B.Rng) :
    Traced F E ((Ciphertext E × LogEqualityProof F) × B.Rng) := do
  let (randomScalar, rng) ← SecretKey.generateTraced B rng
  let randomElement ← B.mulGenTraced randomScalar
  let blindedElement ← mulElemTraced randomScalar receiver.element
  let ciphertext : Ciphertext E := ⟨randomElement, blindedElement⟩
  let t ← Transcript.newTraced "zero_encryption"
  let (proof, _, rng) ← LogEqualityProof.newTraced B receiver randomScalar (randomElement, blindedElement) t rng
  return ((ciphertext, proof), rng)

/-- `src/decryption.rs:89-110` `VerifiableDecryption::new`. -/
def VerifiableDecryption.newTraced (ciphertext : Ciphertext E) (keys : Keypair F E) (t : Transcript) (rng : B.Rng) :
    Traced F E ((VerifiableDecryption E × LogEqualityProof F) × Transcript × B.Rng) := do
  let t ← t.startProofTraced "decryption_with_custom_key"
  let dhElement ← mulElemTraced keys.secret ciphertext.random
  let logBase ← PublicKey.fromElementTraced B ciphertext.random
  let (proof, t, rng) ←
    LogEqualityProof.newTraced B logBase keys.secret (keys.publicKey.element, dhElement) t rng
  return (({ dhElement }, proof), t, rng)

namespace ProofOfPossession

/-- `src/proofs/possession.rs:106-113`. -/
def drawRandomScalarsTraced : Nat → Transcript → B.Rng → Traced F E (List F × Transcript × B.Rng)
  | 0, t, rng => return ([], t, rng)
  | keyCount + 1, t, rng => do
    let (randomness, rng) ← SecretKey.generateTraced B rng
    let randomElement ← B.mulGenTraced randomness
    let t ← B.appendElementTraced t "R" randomElement
    let (rest, t, rng) ← drawRandomScalarsTraced keyCount t rng
    return (randomness :: rest, t, rng)

/-- `src/proofs/possession.rs:100-104`. -/
def appendKeysTraced : Transcript → List (PublicKey E) → Traced F E Transcript
  | t, [] => return t
  | t, publicKey :: rest => do
    let t ← t.appendElementBytesTraced "K" publicKey.bytes
    appendKeysTraced t rest

/-- `src/proofs/possession.rs:116-122`: compute the responses. -/
def responsesTraced (challenge : F) : List (F × F) → Traced F E (List F)
  | [] => return []
  | (log, randomness) :: rest => do
    let product ← mulScalarTraced log challenge
    let response ← addScalarTraced randomness product
    let responses ← responsesTraced challenge rest
    return response :: responses

/-- `src/proofs/possession.rs:93-128` `ProofOfPossession::from_keys`. -/
def fromKeysTraced (secrets : List (SecretKey F)) (publicKeys : List (PublicKey E)) (t : Transcript)
    (rng : B.Rng) : Traced F E (ProofOfPossession F × Transcript × B.Rng) := do
  let t ← t.startProofTraced "multi_pop"
  let t ← appendKeysTraced t publicKeys
  let keyCount := publicKeys.length
  let (randomScalars, t, rng) ← drawRandomScalarsTraced B keyCount t rng
  let (challenge, t) ← B.challengeScalarTraced t "c"
  let responses ← responsesTraced challenge (secrets.zip randomScalars)
  return ({ challenge, responses }, t, rng)

/-- `src/proofs/possession.rs:80-91` `ProofOfPossession::new`. -/
def newTraced (keypairs : List (Keypair F E)) (t : Transcript) (rng : B.Rng) :
    Traced F E (ProofOfPossession F × Transcript × B.Rng) :=
  fromKeysTraced B (keypairs.map (·.secret)) (keypairs.map (·.publicKey)) t rng

end ProofOfPossession

/-- `src/proofs/commitment.rs:134-181` `CommitmentEquivalenceProof::new`. -/
def CommitmentEquivalenceProof.newTraced (ciphertext : CiphertextWithValue F E) (receiver : PublicKey E)
    (commitmentBlinding : SecretKey F) (commitmentBlindingBase : E) (t : Transcript) (rng : B.Rng) :
    Traced F E ((CommitmentEquivalenceProof F × E) × Transcript × B.Rng) := do
  let commitment ← Backend.multiMulTraced [ciphertext.value, commitmentBlinding]
    [B.gen, commitmentBlindingBase]
  let t ← t.startProofTraced "commitment_equivalence"
  let t ← t.appendElementBytesTraced "K" receiver.bytes
  let t ← B.appendElementTraced t "R" ciphertext.ciphertext.random
  let t ← B.appendElementTraced t "B" ciphertext.ciphertext.blinded
  let t ← B.appendElementTraced t "C" commitment
  let (randomScalar, rng) ← SecretKey.generateTraced B rng
  let (valueScalar, rng) ← SecretKey.generateTraced B rng
  let (commitmentScalar, rng) ← SecretKey.generateTraced B rng
  let randomCommitment ← B.mulGenTraced randomScalar
  let t ← B.appendElementTraced t "[e_r]G" randomCommitment
  let valueElement ← B.mulGenTraced valueScalar
  let blinding ← mulElemTraced randomScalar receiver.element
  let encBlindingCommitment ← addElemTraced valueElement blinding
  let t ← B.appendElementTraced t "[e_v]G + [e_r]K" encBlindingCommitment
  let blinding ← mulElemTraced commitmentScalar commitmentBlindingBase
  let commitmentCommitment ← addElemTraced valueElement blinding
  let t ← B.appendElementTraced t "[e_v]G + [e_c]H" commitmentCommitment
  let (challenge, t) ← B.challengeScalarTraced t "c"
  let product ← mulScalarTraced challenge ciphertext.randomness
  let randomnessResponse ← addScalarTraced product randomScalar
  let product ← mulScalarTraced challenge ciphertext.value
  let valueResponse ← addScalarTraced product valueScalar
  let product ← mulScalarTraced challenge commitmentBlinding
  let commitmentResponse ← addScalarTraced product commitmentScalar
  return (({ challenge, randomnessResponse, valueResponse, commitmentResponse }, commitment), t, rng)

namespace SumOfSquaresProof

/-- `src/proofs/mul.rs:119-136`: the `map` over ciphertexts. -/
def commitLoopTraced (receiver : PublicKey E) : List (CiphertextWithValue F E) → F → Transcript → B.Rng →
    Traced F E (List (CiphertextWithValue F E × F × F) × F × Transcript × B.Rng)
  | [], sumRandomScalar, t, rng => return ([], sumRandomScalar, t, rng)
  | ciphertext :: rest, sumRandomScalar, t, rng => do
    let t ← B.appendElementTraced t "R_x" ciphertext.ciphertext.random
    let t ← B.appendElementTraced t "X" ciphertext.ciphertext.blinded
    let (randomScalar, rng) ← SecretKey.generateTraced B rng
    let randomCommitment ← B.mulGenTraced randomScalar
    let t ← B.appendElementTraced t "[e_r]G" randomCommitment
    let (valueScalar, rng) ← SecretKey.generateTraced B rng
    let valueElement ← B.mulGenTraced valueScalar
    let blinding ← mulElemTraced randomScalar receiver.element
    let valueCommitment ← addElemTraced valueElement blinding
    let t ← B.appendElementTraced t "[e_x]G + [e_r]K" valueCommitment
    let negValue ← negScalarTraced ciphertext.value
    let product ← mulScalarTraced ciphertext.randomness negValue
    let sumRandomScalar ← addScalarTraced sumRandomScalar product
    let (partialScalars, sumRandomScalar, t, rng) ← commitLoopTraced receiver rest sumRandomScalar t rng
    return ((ciphertext, randomScalar, valueScalar) :: partialScalars, sumRandomScalar, t, rng)

/-- `src/proofs/mul.rs:161-171`: compute the responses. -/
def responsesTraced (challenge : F) : List (CiphertextWithValue F E × F × F) → Traced F E (List F)
  | [] => return []
  | (ciphertext, randomScalar, valueScalar) :: rest => do
    let product ← mulScalarTraced challenge ciphertext.randomness
    let response1 ← addScalarTraced product randomScalar
    let product ← mulScalarTraced challenge ciphertext.value
    let response2 ← addScalarTraced product valueScalar
    let responses ← responsesTraced challenge rest
    return [response1, response2] ++ responses

/-- `src/proofs/mul.rs:107-181` `SumOfSquaresProof::new`, with `initialize_transcript` (`src/proofs/mul.rs:96-99`). -/
def newTraced (ciphertexts : List (CiphertextWithValue F E))
    (sumOfSquaresCiphertext : CiphertextWithValue F E) (receiver : PublicKey E) (t : Transcript)
    (rng : B.Rng) : Traced F E (SumOfSquaresProof F × Transcript × B.Rng) := do
  let t ← t.startProofTraced "sum_of_squares"
  let t ← t.appendElementBytesTraced "K" receiver.bytes
  let (sumScalar, rng) ← SecretKey.generateTraced B rng
  let sumRandomScalar := sumOfSquaresCiphertext.randomness
  let (partialScalars, sumRandomScalar, t, rng) ←
    commitLoopTraced B receiver ciphertexts sumRandomScalar t rng
  let scalars := partialScalars.map (fun (_, _, valueScalar) => valueScalar) ++ [sumScalar]
  let randomSumCommitment ← Backend.multiMulTraced scalars
    (partialScalars.map (fun (ciphertext, _) => ciphertext.ciphertext.random) ++ [B.gen])
  let valueSumCommitment ← Backend.multiMulTraced scalars
    (partialScalars.map (fun (ciphertext, _) => ciphertext.ciphertext.blinded) ++ [receiver.element])
  let t ← B.appendElementTraced t "R_z" sumOfSquaresCiphertext.ciphertext.random
  let t ← B.appendElementTraced t "Z" sumOfSquaresCiphertext.ciphertext.blinded
  let t ← B.appendElementTraced t "[e_x]R_x + [e_z]G" randomSumCommitment
  let t ← B.appendElementTraced t "[e_x]X + [e_z]K" valueSumCommitment
  let (challenge, t) ← B.challengeScalarTraced t "c"
  let ciphertextResponses ← responsesTraced challenge partialScalars
  let product ← mulScalarTraced challenge sumRandomScalar
  let sumResponse ← addScalarTraced product sumScalar
  return ({ challenge, ciphertextResponses, sumResponse }, t, rng)

end SumOfSquaresProof

namespace Dealer

/-- `src/sharing/participant.rs:36-38`. -/
def generateKeypairsTraced : Nat → B.Rng → Traced F E (List (Keypair F E) × B.Rng)
  | 0, rng => return ([], rng)
  | n + 1, rng => do
    let (keypair, rng) ← Keypair.generateTraced B rng
    let (rest, rng) ← generateKeypairsTraced n rng
    return (keypair :: rest, rng)

/-- `src/sharing/participant.rs:35-51` `Dealer::new`. -/
def newTraced (params : Params) (rng : B.Rng) : Traced F E (Dealer F E × B.Rng) := do
  let (polynomial, rng) ← generateKeypairsTraced B params.threshold rng
  let t ← Transcript.newTraced "elgamal_share_poly"
  let t ← t.appendU64Traced "n" params.shares
  let t ← t.appendU64Traced "t" params.threshold
  let (proofOfPossession, _, rng) ← ProofOfPossession.newTraced B polynomial t rng
  return ({ params, polynomial, proofOfPossession }, rng)

/-- `src/sharing/participant.rs:77-80`: the loop over the coefficients, highest first. -/
def hornerTraced (power : F) : List (Keypair F E) → F → Traced F E F
  | [], polyValue => return polyValue
  | keypair :: rest, polyValue => do
    let product ← mulScalarTraced polyValue power
    let polyValue ← addScalarTraced product keypair.secret
    hornerTraced power rest polyValue

/-- `src/sharing/participant.rs:69-82` `secret_share_for_participant`. -/
def secretShareForParticipantTraced (dealer : Dealer F E) (index : Nat) : Traced F E (SecretKey F) := do
  assert (index < dealer.params.shares)
  let power := ((index + 1 : Nat) : F)
  hornerTraced power dealer.polynomial.reverse ((0 : Nat) : F)

end Dealer

/-- `src/sharing/key_set.rs:167-171` `PublicKeySet::commit`. -/
def PublicKeySet.commitTraced (ks : PublicKeySet E) (t : Transcript) : Traced F E Transcript := do
  let t ← t.appendU64Traced "n" ks.params.shares
  let t ← t.appendU64Traced "t" ks.params.threshold
  t.appendElementBytesTraced "K" ks.sharedKey.bytes

namespace ActiveParticipant

/-- `src/sharing/participant.rs:108-123` `ActiveParticipant::new`. -/
def newTraced [DecidableEq E] (keySet : PublicKeySet E) (index : Nat) (secretShare : SecretKey F) :
    Traced F E (Except SharingError (ActiveParticipant F E)) := do
  let expected ← ofOption keySet.participantKeys[index]?
  let element ← B.mulGenTraced secretShare
  let equal ← op .eqElem (decide (element = expected.element))
  let equal ← op (.branch equal) equal
  if equal then return .ok { keySet, index, secretShare }
  else return .error .InvalidSecret

/-- `src/sharing/participant.rs:149-159` `proof_of_possession`. -/
def proofOfPossessionTraced (p : ActiveParticipant F E) (rng : B.Rng) :
    Traced F E (ProofOfPossession F × B.Rng) := do
  let t ← Transcript.newTraced "elgamal_participant_pop"
  let t ← p.keySet.commitTraced t
  let t ← t.appendU64Traced "i" p.index
  let publicKeyShare ← ofOption p.publicKeyShare
  let (proof, _, rng) ← ProofOfPossession.fromKeysTraced B [p.secretShare] [publicKeyShare] t rng
  return (proof, rng)

/-- `src/sharing/participant.rs:163-185` `decrypt_share`. -/
def decryptShareTraced (p : ActiveParticipant F E) (ciphertext : Ciphertext E) (rng : B.Rng) :
    Traced F E ((VerifiableDecryption E × LogEqualityProof F) × B.Rng) := do
  let dhElement ← mulElemTraced p.secretShare ciphertext.random
  let ourPublicKey ← ofOption p.publicKeyShare
  let t ← Transcript.newTraced "elgamal_decryption_share"
  let t ← p.keySet.commitTraced t
  let t ← t.appendU64Traced "i" p.index
  let logBase ← PublicKey.fromElementTraced B ciphertext.random
  let (proof, _, rng) ← LogEqualityProof.newTraced B logBase p.secretShare
    (ourPublicKey.element, dhElement) t rng
  return ((VerifiableDecryption.fromElement dhElement, proof), rng)

end ActiveParticipant

end ElasticElgamal
