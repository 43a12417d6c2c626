import Verif.Model.Leakage.Rings

/-!
# Operations performed by verification of proofs and ballots

The verifiers of `Model/Proofs` and `Model/App` with the operations they perform. Everything a verifier handles
is public; the operations are modelled to count them.
-/

set_option autoImplicit false

namespace ElasticElgamal

open Traced

variable {F E : Type} [Field F] [AddCommGroup E] [Module F E] (B : Backend F E)

/-- `src/encryption.rs:163-178` `Add for Ciphertext`. -/
def Ciphertext.addTraced (a b : Ciphertext E) : Traced F E (Ciphertext E) := do
  let random ← addElemTraced a.random b.random
  let blinded ← addElemTraced a.blinded b.blinded
  return ⟨random, blinded⟩

/-- `src/encryption.rs:180-195` `Sub for Ciphertext`. -/
def Ciphertext.subTraced (a b : Ciphertext E) : Traced F E (Ciphertext E) := do
  let random ← subElemTraced a.random b.random
  let blinded ← subElemTraced a.blinded b.blinded
  return ⟨random, blinded⟩

/-- `fold` with `+` (`src/proofs/range.rs:562-565`); `reduce` (`src/app/choice.rs:363`) after the first item. -/
def Ciphertext.sumTraced : List (Ciphertext E) → Ciphertext E → Traced F E (Ciphertext E)
  | [], acc => return acc
  | ciphertext :: rest, acc => do
    let acc ← acc.addTraced ciphertext
    sumTraced rest acc

/-- The comparison of challenges that ends verification, e.g. `src/proofs/ring.rs:369-373`. -/
def checkChallengeTraced [DecidableEq F] (expected actual : F) : Traced F E (Except VerificationError Unit) := do
  let result ← op .eqScalar (checkChallenge expected actual)
  op (.branch (decide (expected = actual))) result

namespace RingProof

/-- `src/proofs/ring.rs:355-359`: the challenge for the next equation. -/
def nextChallengeTraced (ringT : Transcript) (eqIndex : Nat) (commitments : E × E) : Traced F E F := do
  let eqT ← ringT.appendU64Traced "j" eqIndex
  let eqT ← B.appendElementTraced eqT "R_G" commitments.1
  let eqT ← B.appendElementTraced eqT "R_K" commitments.2
  let (challenge, _) ← B.challengeScalarTraced eqT "c"
  return challenge

/-- `src/proofs/ring.rs:333-361`: the loop over equations of one ring. -/
def verifyRingLoopTraced (receiver : PublicKey E) (ciphertext : Ciphertext E) (ringT : Transcript)
    (valuesLen : Nat) : Nat → List (E × F) → F → E × E → Traced F E (E × E)
  | _, [], _, commitments => return commitments
  | eqIndex, (admissibleValue, response) :: rest, challenge, _ => do
    let dhElement ← subElemTraced ciphertext.blinded admissibleValue
    let negChallenge ← negScalarTraced challenge
    let commitment1 ← B.vartimeDoubleMulGenTraced negChallenge ciphertext.random response
    let commitment2 ← Backend.vartimeMultiMulTraced [response, negChallenge] [receiver.element, dhElement]
    let challenge ←
      if eqIndex + 1 < valuesLen then nextChallengeTraced B ringT eqIndex (commitment1, commitment2)
      else pure challenge
    verifyRingLoopTraced receiver ciphertext ringT valuesLen (eqIndex + 1) rest challenge (commitment1, commitment2)

/-- `src/proofs/ring.rs:324-366`: the loop over rings. -/
def verifyLoopTraced (proof : RingProof F) (receiver : PublicKey E) (initialRingT : Transcript) :
    Nat → Nat → List (List E × Ciphertext E) → Transcript → Traced F E Transcript
  | _, _, [], t => return t
  | ringIndex, startingResponse, (values, ciphertext) :: rest, t => do
    let ringT ← initialRingT.startProofTraced "ring_enc"
    let bytes ← ciphertext.toBytesTraced B
    let ringT ← ringT.appendMessageTraced "enc" bytes
    let ringT ← ringT.appendU64Traced "i" ringIndex
    assert (startingResponse ≤ proof.ringResponses.length)
    let commitments ← verifyRingLoopTraced B receiver ciphertext ringT values.length 0
      (values.zip (proof.ringResponses.drop startingResponse)) proof.commonChallenge (B.gen, B.gen)
    let t ← B.appendElementTraced t "R_G" commitments.1
    let t ← B.appendElementTraced t "R_K" commitments.2
    verifyLoopTraced proof receiver initialRingT (ringIndex + 1) (startingResponse + values.length) rest t

/-- `src/proofs/ring.rs:302-374` `RingProof::verify`. -/
def verifyTraced [DecidableEq F] (proof : RingProof F) (receiver : PublicKey E)
    (admissibleValues : List (List E)) (ciphertexts : List (Ciphertext E)) (t : Transcript) :
    Traced F E (Except VerificationError Unit × Transcript) :=
  match VerificationError.checkLengths "items in all rings" proof.totalRingsSize
    (admissibleValues.map List.length).sum with
  | .error e => return (.error e, t)
  | .ok () => do
    let t ← t.startProofTraced "multi_ring_enc"
    let t ← t.appendElementBytesTraced "K" receiver.bytes
    let t ← verifyLoopTraced B proof receiver t 0 0 (admissibleValues.zip ciphertexts) t
    let (expectedChallenge, t) ← B.challengeScalarTraced t "c"
    let result ← checkChallengeTraced expectedChallenge proof.commonChallenge
    return (result, t)

end RingProof

namespace ProofOfPossession

/-- `src/proofs/possession.rs:148-155`: recompute and append the commitments. -/
def appendCommitmentsTraced (challenge : F) : List (PublicKey E × F) → Transcript → Traced F E Transcript
  | [], t => return t
  | (key, response) :: rest, t => do
    let negChallenge ← negScalarTraced challenge
    let commitment ← B.vartimeDoubleMulGenTraced negChallenge key.element response
    let t ← B.appendElementTraced t "R" commitment
    appendCommitmentsTraced challenge rest t

/-- `src/proofs/possession.rs:135-163` `ProofOfPossession::verify`. -/
def verifyTraced [DecidableEq F] (proof : ProofOfPossession F) (publicKeys : List (PublicKey E))
    (t : Transcript) : Traced F E (Except VerificationError Unit × Transcript) := do
  let t ← t.startProofTraced "multi_pop"
  let t ← appendKeysTraced t publicKeys
  match VerificationError.checkLengths "public keys" proof.responses.length publicKeys.length with
  | .error e => return (.error e, t)
  | .ok () => do
    let t ← appendCommitmentsTraced B proof.challenge (publicKeys.zip proof.responses) t
    let (expectedChallenge, t) ← B.challengeScalarTraced t "c"
    let result ← checkChallengeTraced expectedChallenge proof.challenge
    return (result, t)

end ProofOfPossession

/-- `src/keys/impls.rs:101-113` `PublicKey::verify_bool`. -/
def PublicKey.verifyBoolTraced [DecidableEq F] (receiver : PublicKey E) (ciphertext : Ciphertext E)
    (proof : RingProof F) : Traced F E (Except VerificationError Unit) := do
  let t ← Transcript.newTraced "bool_encryption"
  let (result, _) ← proof.verifyTraced B receiver [[0, B.gen]] [ciphertext] t
  return result

/-- `src/proofs/range.rs:547-577` `RangeProof::verify`. -/
def RangeProof.verifyTraced [DecidableEq F] (proof : RangeProof F E) (receiver : PublicKey E)
    (range : PreparedRange E) (ciphertext : Ciphertext E) (t : Transcript) :
    Traced F E (Except VerificationError Unit × Transcript) :=
  match VerificationError.checkLengths "admissible values" (proof.partialCiphertexts.length + 1)
    range.admissibleValues.length with
  | .error e => return (.error e, t)
  | .ok () => do
    let t ← t.startProofTraced "encryption_range_proof"
    let t ← t.appendMessageTraced "range" range.inner.display
    let ciphertextSum ← Ciphertext.sumTraced proof.partialCiphertexts Ciphertext.zero
    let last ← ciphertext.subTraced ciphertextSum
    proof.inner.verifyTraced B receiver range.admissibleValues (proof.partialCiphertexts ++ [last]) t

/-- `src/keys/impls.rs:143-151` `PublicKey::verify_range`. -/
def PublicKey.verifyRangeTraced [DecidableEq F] (receiver : PublicKey E) (range : PreparedRange E)
    (ciphertext : Ciphertext E) (proof : RangeProof F E) : Traced F E (Except VerificationError Unit) := do
  let t ← Transcript.newTraced "ciphertext_range"
  let (result, _) ← proof.verifyTraced B receiver range ciphertext t
  return result

namespace SumOfSquaresProof

/-- `src/proofs/mul.rs:206-232`: the loop over ciphertexts. -/
def verifyLoopTraced (receiver : PublicKey E) (challenge negChallenge : F) :
    List (List F × Ciphertext E) → Transcript → Traced F E Transcript
  | [], t => return t
  | (responseChunk, ciphertext) :: rest, t => do
    let t ← B.appendElementTraced t "R_x" ciphertext.random
    let t ← B.appendElementTraced t "X" ciphertext.blinded
    let rResponse ← ofOption responseChunk[0]?
    let vResponse ← ofOption responseChunk[1]?
    let minusChallenge ← negScalarTraced challenge
    let randomCommitment ← B.vartimeDoubleMulGenTraced minusChallenge ciphertext.random rResponse
    let t ← B.appendElementTraced t "[e_r]G" randomCommitment
    let valueCommitment ← Backend.vartimeMultiMulTraced [vResponse, rResponse, negChallenge]
      [B.gen, receiver.element, ciphertext.blinded]
    let t ← B.appendElementTraced t "[e_x]G + [e_r]K" valueCommitment
    verifyLoopTraced receiver challenge negChallenge rest t

/-- `src/proofs/mul.rs:190-260` `SumOfSquaresProof::verify`. -/
def verifyTraced [DecidableEq F] (proof : SumOfSquaresProof F) (ciphertexts : List (Ciphertext E))
    (sumOfSquaresCiphertext : Ciphertext E) (receiver : PublicKey E) (t : Transcript) :
    Traced F E (Except VerificationError Unit × Transcript) :=
  match VerificationError.checkLengths "ciphertext responses" proof.ciphertextResponses.length
    (ciphertexts.length * 2) with
  | .error e => return (.error e, t)
  | .ok () => do
    let t ← t.startProofTraced "sum_of_squares"
    let t ← t.appendElementBytesTraced "K" receiver.bytes
    let negChallenge ← negScalarTraced proof.challenge
    let t ← verifyLoopTraced B receiver proof.challenge negChallenge
      ((chunks 2 proof.ciphertextResponses).zip ciphertexts) t
    let scalars := (OddItems.new proof.ciphertextResponses).collect ++ [proof.sumResponse, negChallenge]
    let randomSumCommitment ← Backend.vartimeMultiMulTraced scalars
      (ciphertexts.map (·.random) ++ [B.gen, sumOfSquaresCiphertext.random])
    let valueSumCommitment ← Backend.vartimeMultiMulTraced scalars
      (ciphertexts.map (·.blinded) ++ [receiver.element, sumOfSquaresCiphertext.blinded])
    let t ← B.appendElementTraced t "R_z" sumOfSquaresCiphertext.random
    let t ← B.appendElementTraced t "Z" sumOfSquaresCiphertext.blinded
    let t ← B.appendElementTraced t "[e_x]R_x + [e_z]G" randomSumCommitment
    let t ← B.appendElementTraced t "[e_x]X + [e_z]K" valueSumCommitment
    let (expectedChallenge, t) ← B.challengeScalarTraced t "c"
    let result ← checkChallengeTraced expectedChallenge proof.challenge
    return (result, t)

end SumOfSquaresProof

/-- `ProveSum::verify`: `src/app/choice.rs:77-94` for `SingleChoice`, `src/app/choice.rs:120-127` for
`MultiChoice`. -/
def SumProof.verifyTraced [DecidableEq F] : (kind : ChoiceKind) → Ciphertext E → SumProof F kind → PublicKey E →
    Traced F E (Except ChoiceVerificationError Unit)
  | .single, ciphertext, proof, receiver => do
    let blinded ← subElemTraced ciphertext.blinded B.gen
    let t ← Transcript.newTraced "choice_encryption_sum"
    let (result, _) ← LogEqualityProof.verifyTraced B proof receiver (ciphertext.random, blinded) t
    return result.mapError .Sum
  | .multi, _, _, _ => return .ok ()

/-- `src/app/choice.rs:358-380` `EncryptedChoice::verify`. -/
def EncryptedChoice.verifyTraced [DecidableEq F] {kind : ChoiceKind} (self : EncryptedChoice F E kind)
    (params : ChoiceParams E kind) : Traced F E (Except ChoiceVerificationError (List (Ciphertext E))) :=
  match params.checkOptionsCount self.choices.length with
  | .error e => return .error e
  | .ok () => do
    let first ← ofOption self.choices.head?
    let sumOfCiphertexts ← Ciphertext.sumTraced self.choices.tail first
    let result ← SumProof.verifyTraced B kind sumOfCiphertexts self.sumProof params.receiver
    match result with
    | .error e => return .error e
    | .ok () => do
      let t ← Transcript.newTraced "encrypted_choice_ranges"
      let (result, _) ← self.rangeProof.verifyTraced B params.receiver
        (List.replicate self.choices.length [0, B.gen]) self.choices t
      return (result.map fun _ => self.choices).mapError .Range

namespace QuadraticVotingBallot

/-- `src/app/quadratic_voting.rs:297-307`: the loop over votes. -/
def verifyVotesTraced [DecidableEq F] (receiver : PublicKey E) (voteCountRange : PreparedRange E) :
    Nat → List (CiphertextWithRangeProof F E) → Traced F E (Except QuadraticVotingError Unit)
  | _, [] => return .ok ()
  | i, voteCount :: rest => do
    let t ← Transcript.newTraced "quadratic_voting_variant"
    let (result, _) ← voteCount.rangeProof.verifyTraced B receiver voteCountRange voteCount.ciphertext t
    match result with
    | .error error => return .error (.Variant i error)
    | .ok () => verifyVotesTraced receiver voteCountRange (i + 1) rest

/-- `src/app/quadratic_voting.rs:291-329` `QuadraticVotingBallot::verify`. -/
def verifyTraced [DecidableEq F] (self : QuadraticVotingBallot F E) (params : QuadraticVotingParams E) :
    Traced F E (Except QuadraticVotingError (List (Ciphertext E))) :=
  match params.checkOptionsCount self.votes.length with
  | .error e => return .error e
  | .ok () => do
    let result ← verifyVotesTraced B params.receiver params.voteCountRange 0 self.votes
    match result with
    | .error e => return .error e
    | .ok () => do
      let t ← Transcript.newTraced "quadratic_voting_credit_range"
      let (result, _) ← self.credit.rangeProof.verifyTraced B params.receiver params.creditRange
        self.credit.ciphertext t
      match result with
      | .error e => return .error (.CreditRange e)
      | .ok () => do
        let t ← Transcript.newTraced "quadratic_voting_credit_equiv"
        let (result, _) ← self.creditEquivalenceProof.verifyTraced B
          (self.votes.map (·.ciphertext)) self.credit.ciphertext params.receiver t
        match result with
        | .error e => return .error (.CreditEquivalence e)
        | .ok () => return .ok (self.votes.map (·.ciphertext))

end QuadraticVotingBallot

end ElasticElgamal
