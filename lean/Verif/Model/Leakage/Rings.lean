import Verif.Model.Leakage.Proofs

/-!
# Operations performed by ring proofs and what is built on them

The functions of `Model/Proofs/{Ring,Range}.lean` and `Model/App` that handle secrets, with the operations they
perform. Reading `admissible_values[value_index]` at a secret position is not an operation here.
-/

set_option autoImplicit false

namespace ElasticElgamal

open Traced

variable {F E : Type} [Field F] [AddCommGroup E] [Module F E] (B : Backend F E)

namespace Ring

/-- `src/proofs/ring.rs:103-118`: the loop of `Ring::new`. -/
def newLoopTraced (logBase : E) (ciphertext : Ciphertext E) (t : Transcript) :
    Nat → List E → E × E → List F → B.Rng → Traced F E ((E × E) × List F × B.Rng)
  | _, [], commitments, responses, rng => return (commitments, responses, rng)
  | eqIndex, admissibleValue :: values, commitments, responses, rng => do
    let eqT ← t.appendU64Traced "j" (eqIndex - 1)
    let eqT ← B.appendElementTraced eqT "R_G" commitments.1
    let eqT ← B.appendElementTraced eqT "R_K" commitments.2
    let (challenge, _) ← B.challengeScalarTraced eqT "c"
    let (response, rng) ← B.genScalarTraced rng
    let responses ← ofOption (setAt responses eqIndex response)
    let dhElement ← subElemTraced ciphertext.blinded admissibleValue
    let element1 ← B.mulGenTraced response
    let element2 ← mulElemTraced challenge ciphertext.random
    let commitment1 ← subElemTraced element1 element2
    let negChallenge ← negScalarTraced challenge
    let commitment2 ← Backend.multiMulTraced [response, negChallenge] [logBase, dhElement]
    newLoopTraced logBase ciphertext t (eqIndex + 1) values (commitment1, commitment2) responses rng

/-- `src/encryption.rs:155-160` `Ciphertext::to_bytes`. -/
def _root_.ElasticElgamal.Ciphertext.toBytesTraced (a : Ciphertext E) : Traced F E Bytes := do
  let r ← B.serElemTraced a.random
  let b ← B.serElemTraced a.blinded
  return r ++ b

/-- `src/proofs/ring.rs:54-131` `Ring::new`. The encoded ciphertext has `2 * ELEMENT_SIZE` bytes. -/
def newTraced [DecidableEq E] (index : Nat) (logBase : E) (ciphertext : ExtendedCiphertext F E)
    (admissibleValues : List E) (valueIndex : Nat) (t : Transcript) (responses : List F)
    (rng : B.Rng) : Traced F E (Ring F E × B.Rng) := do
  assert (admissibleValues ≠ [])
  assert (valueIndex < admissibleValues.length)
  B.debugAssertTraced [] (responses.length = admissibleValues.length)
  let blindedValue := ciphertext.inner.blinded
  let knownValue ← ofOption admissibleValues[valueIndex]?
  B.debugAssertTraced [.mulElem, .addElem, .eqElem]
    (ciphertext.randomScalar • logBase + knownValue = blindedValue)
  let t ← t.startProofTraced "ring_enc"
  let bytes ← ciphertext.inner.toBytesTraced B
  let t ← op (.append "enc" (2 * B.elementSize)) (t.appendMessage "enc" bytes)
  let t ← t.appendU64Traced "i" index
  let (randomScalar, rng) ← SecretKey.generateTraced B rng
  let commitment1 ← B.mulGenTraced randomScalar
  let commitment2 ← mulElemTraced randomScalar logBase
  let (commitments, responses, rng) ← newLoopTraced B logBase ciphertext.inner t (valueIndex + 1)
    (admissibleValues.drop (valueIndex + 1)) (commitment1, commitment2) responses rng
  return ({ index, valueIndex, admissibleValues, ciphertext := ciphertext.inner, transcript := t,
            responses, terminalCommitments := commitments,
            discreteLog := ciphertext.randomScalar, randomScalar }, rng)

/-- `src/proofs/ring.rs:169-187`: the loop of `Ring::finalize`. -/
def finalizeLoopTraced (logBase : E) (ciphertext : Ciphertext E) (t : Transcript) :
    Nat → List E → F → List F → B.Rng → Traced F E (F × List F × B.Rng)
  | _, [], challenge, responses, rng => return (challenge, responses, rng)
  | eqIndex, admissibleValue :: values, challenge, responses, rng => do
    let (response, rng) ← B.genScalarTraced rng
    let responses ← ofOption (setAt responses eqIndex response)
    let dhElement ← subElemTraced ciphertext.blinded admissibleValue
    let element1 ← B.mulGenTraced response
    let element2 ← mulElemTraced challenge ciphertext.random
    let commitment1 ← subElemTraced element1 element2
    let negChallenge ← negScalarTraced challenge
    let commitment2 ← Backend.multiMulTraced [response, negChallenge] [logBase, dhElement]
    let eqT ← t.appendU64Traced "j" eqIndex
    let eqT ← B.appendElementTraced eqT "R_G" commitment1
    let eqT ← B.appendElementTraced eqT "R_K" commitment2
    let (challenge, _) ← B.challengeScalarTraced eqT "c"
    finalizeLoopTraced logBase ciphertext t (eqIndex + 1) values challenge responses rng

/-- `src/proofs/ring.rs:162-194` `Ring::finalize`. -/
def finalizeTraced [DecidableEq F] (ring : Ring F E) (logBase : E) (commonChallenge : F) (rng : B.Rng) :
    Traced F E (List F × B.Rng) := do
  let (challenge, responses, rng) ← finalizeLoopTraced B logBase ring.ciphertext ring.transcript 0
    (ring.admissibleValues.take ring.valueIndex) commonChallenge ring.responses rng
  let placeholder ← ofOption responses[ring.valueIndex]?
  B.debugAssertTraced [.eqScalar] (placeholder = ((0 : Nat) : F))
  let product ← mulScalarTraced challenge ring.discreteLog
  let response ← addScalarTraced product ring.randomScalar
  let responses ← ofOption (setAt responses ring.valueIndex response)
  return (responses, rng)

/-- `src/proofs/ring.rs:149-153`. -/
def appendTerminalTraced : List (Ring F E) → Transcript → Traced F E Transcript
  | [], t => return t
  | ring :: rings, t => do
    let t ← B.appendElementTraced t "R_G" ring.terminalCommitments.1
    let t ← B.appendElementTraced t "R_K" ring.terminalCommitments.2
    appendTerminalTraced rings t

/-- `src/proofs/ring.rs:156-158`. -/
def finalizeAllTraced [DecidableEq F] (logBase : E) (commonChallenge : F) :
    List (Ring F E) → B.Rng → Traced F E (List F × B.Rng)
  | [], rng => return ([], rng)
  | ring :: rings, rng => do
    let (responses, rng) ← ring.finalizeTraced B logBase commonChallenge rng
    let (rest, rng) ← finalizeAllTraced logBase commonChallenge rings rng
    return (responses ++ rest, rng)

/-- `src/proofs/ring.rs:138-160` `Ring::aggregate`. -/
def aggregateTraced [DecidableEq F] (rings : List (Ring F E)) (logBase : E) (t : Transcript)
    (rng : B.Rng) : Traced F E (F × List F × Transcript × B.Rng) := do
  B.debugAssertTraced [] (rings.map (·.index) = List.range rings.length)
  let t ← appendTerminalTraced B rings t
  let (commonChallenge, t) ← B.challengeScalarTraced t "c"
  let (responses, rng) ← finalizeAllTraced B logBase commonChallenge rings rng
  return (commonChallenge, responses, t, rng)

end Ring

namespace RingProofBuilder

/-- `src/proofs/ring.rs:442-457` `RingProofBuilder::new`, with `initialize_transcript`
(`src/proofs/ring.rs:290-293`). -/
def newTraced (receiver : PublicKey E) (ringResponses : List F) (t : Transcript) (rng : B.Rng) :
    Traced F E (RingProofBuilder B) := do
  let t ← t.startProofTraced "multi_ring_enc"
  let t ← t.appendElementBytesTraced "K" receiver.bytes
  return { receiver, transcript := t, rings := [], ringResponses, rng }

/-- `src/proofs/ring.rs:471-492` `add_precomputed_value`. -/
def addPrecomputedValueTraced [DecidableEq E] (b : RingProofBuilder B)
    (ciphertext : ExtendedCiphertext F E) (admissibleValues : List E) (valueIndex : Nat) :
    Traced F E (RingProofBuilder B) := do
  assert (admissibleValues.length ≤ b.ringResponses.length)
  let responsesForRing := b.ringResponses.take admissibleValues.length
  let rest := b.ringResponses.drop admissibleValues.length
  let (ring, rng) ← Ring.newTraced B b.rings.length b.receiver.element ciphertext admissibleValues
    valueIndex b.transcript responsesForRing b.rng
  return { b with rings := b.rings ++ [ring], ringResponses := rest, rng }

/-- `src/proofs/ring.rs:460-469` `add_value`. -/
def addValueTraced [DecidableEq E] (b : RingProofBuilder B) (admissibleValues : List E)
    (valueIndex : Nat) : Traced F E (ExtendedCiphertext F E × RingProofBuilder B) := do
  let value ← ofOption admissibleValues[valueIndex]?
  let (extCiphertext, rng) ← ExtendedCiphertext.newTraced B value b.receiver b.rng
  let b ← addPrecomputedValueTraced B { b with rng } extCiphertext admissibleValues valueIndex
  return (extCiphertext, b)

/-- `src/proofs/ring.rs:495-506` `build`. -/
def buildTraced [DecidableEq F] (b : RingProofBuilder B) :
    Traced F E (F × List F × Transcript × B.Rng) := do
  B.debugAssertTraced [] (b.ringResponses = [])
  let (commonChallenge, responses, t, rng) ←
    Ring.aggregateTraced B b.rings b.receiver.element b.transcript b.rng
  return (commonChallenge, responses ++ b.ringResponses, t, rng)

end RingProofBuilder

/-- `src/keys/impls.rs:77-89` `PublicKey::encrypt_bool`; `usize::from(value)` does not branch. -/
def PublicKey.encryptBoolTraced [DecidableEq F] [DecidableEq E] (receiver : PublicKey E) (value : Bool)
    (rng : B.Rng) : Traced F E ((Ciphertext E × RingProof F) × B.Rng) := do
  let t ← Transcript.newTraced "bool_encryption"
  let admissibleValues : List E := [0, B.gen]
  let ringResponses : List F := List.replicate 2 0
  let builder ← RingProofBuilder.newTraced B receiver ringResponses t rng
  let (ciphertext, builder) ← builder.addValueTraced B admissibleValues (if value then 1 else 0)
  let (commonChallenge, ringResponses, _, rng) ← builder.buildTraced B
  return ((ciphertext.inner, { commonChallenge, ringResponses }), rng)

/-- `src/proofs/range.rs:199-207`: the loop of `RangeDecomposition::decompose`; the smaller of the two numbers is
selected without a branch. -/
def RangeDecomposition.decomposeLoopTraced (dbg : Bool) : List RingSpec → Nat → Traced F E (List Nat × Nat)
  | [], secretValue => return ([], secretValue)
  | spec :: rest, secretValue => do
    assert (spec.step ≠ 0)
    let valueIndex ← op .divU64 (secretValue / spec.step)
    let ringMaxValue ← subU64Traced dbg spec.size 1
    let overflow ← op .ctGt (decide (valueIndex > ringMaxValue))
    let valueIndex ← op .ctAssign (if overflow then ringMaxValue else valueIndex)
    let taken ← mulU64Traced dbg valueIndex spec.step
    let secretValue ← subU64Traced dbg secretValue taken
    let (indexes, secretValue) ← decomposeLoopTraced dbg rest secretValue
    return (valueIndex :: indexes, secretValue)

/-- `src/proofs/range.rs:363-373` `PreparedRange::decompose` and `src/proofs/range.rs:199-210`. The number of
operations in `upper_bound` depends on the range only and is not counted. -/
def PreparedRange.decomposeTraced (dbg : Bool) (range : PreparedRange E) (secretValue : Nat) :
    Traced F E (List Nat) := do
  let upperBound ← ofOption (range.inner.upperBound dbg)
  assert (secretValue < upperBound)
  let (indexes, rest) ← RangeDecomposition.decomposeLoopTraced dbg range.inner.rings secretValue
  assert (dbg = false ∨ rest = 0)
  return indexes

namespace RangeProof

/-- `src/proofs/range.rs:509-518`. -/
def addValuesTraced [DecidableEq E] : List (Nat × List E) → ExtendedCiphertext F E → RingProofBuilder B →
    Traced F E (List (Ciphertext E) × ExtendedCiphertext F E × RingProofBuilder B)
  | [], cumulative, builder => return ([], cumulative, builder)
  | (valueIndex, admissibleValues) :: rest, cumulative, builder => do
    let (ciphertext, builder) ← builder.addValueTraced B admissibleValues valueIndex
    let inner := ciphertext.inner
    let cumulative ← cumulative.addTraced ciphertext
    let (ciphertexts, cumulative, builder) ← addValuesTraced rest cumulative builder
    return (inner :: ciphertexts, cumulative, builder)

/-- `src/proofs/range.rs:482-534` `RangeProof::from_ciphertext`. -/
def fromCiphertextTraced [DecidableEq F] [DecidableEq E] (receiver : PublicKey E) (range : PreparedRange E)
    (ciphertext : CiphertextWithValue F E Nat) (t : Transcript) (rng : B.Rng) :
    Traced F E (RangeProof F E × Transcript × B.Rng) := do
  let valueIndexes ← range.decomposeTraced B.debug ciphertext.value
  B.debugAssertTraced [] (valueIndexes.length = range.admissibleValues.length)
  let t ← t.startProofTraced "encryption_range_proof"
  let t ← t.appendMessageTraced "range" range.inner.display
  let ringResponsesSize ← ofOption (range.inner.ringsSize B.debug)
  let ringResponses : List F := List.replicate ringResponsesSize 0
  let builder ← RingProofBuilder.newTraced B receiver ringResponses t rng
  let items := valueIndexes.zip range.admissibleValues
  assert (valueIndexes ≠ [])
  let (partialCiphertexts, cumulative, builder) ←
    addValuesTraced B (items.take (valueIndexes.length - 1)) ExtendedCiphertext.zero builder
  let lastPartialCiphertext ← ciphertext.inner.subTraced cumulative
  let (valueIndex, admissibleValues) ← ofOption (items.drop (valueIndexes.length - 1)).head?
  let builder ← builder.addPrecomputedValueTraced B lastPartialCiphertext admissibleValues valueIndex
  let (commonChallenge, ringResponses, t, rng) ← builder.buildTraced B
  return ({ partialCiphertexts, inner := { commonChallenge, ringResponses } }, t, rng)

/-- `src/proofs/range.rs:462-473` `RangeProof::new`. -/
def newTraced [DecidableEq F] [DecidableEq E] (receiver : PublicKey E) (range : PreparedRange E)
    (value : Nat) (t : Transcript) (rng : B.Rng) :
    Traced F E ((CiphertextWithValue F E Nat × RangeProof F E) × Transcript × B.Rng) := do
  let (ciphertext, rng) ← CiphertextWithValue.newU64Traced B value receiver rng
  let (proof, t, rng) ← fromCiphertextTraced B receiver range ciphertext t rng
  return ((ciphertext, proof), t, rng)

end RangeProof

/-- `src/keys/impls.rs:124-133` `PublicKey::encrypt_range`. -/
def PublicKey.encryptRangeTraced [DecidableEq F] [DecidableEq E] (receiver : PublicKey E) (range : PreparedRange E)
    (value : Nat) (rng : B.Rng) : Traced F E ((Ciphertext E × RangeProof F E) × B.Rng) := do
  let t ← Transcript.newTraced "ciphertext_range"
  let ((ciphertext, proof), _, rng) ← RangeProof.newTraced B receiver range value t rng
  return ((ciphertext.ciphertext, proof), rng)

/-- `ProveSum::prove`: `src/app/choice.rs:59-75` for `SingleChoice`, `src/app/choice.rs:111-118` for
`MultiChoice`. -/
def SumProof.proveTraced : (kind : ChoiceKind) → CiphertextWithValue F E Nat → PublicKey E → B.Rng →
    Traced F E (SumProof F kind × B.Rng)
  | .single, ciphertext, receiver, rng => do
    let blinded ← subElemTraced ciphertext.ciphertext.blinded B.gen
    let t ← Transcript.newTraced "choice_encryption_sum"
    let (proof, _, rng) ← LogEqualityProof.newTraced B receiver ciphertext.randomness
      (ciphertext.ciphertext.random, blinded) t rng
    return (proof, rng)
  | .multi, _, _, rng => return ((), rng)

namespace EncryptedChoice

/-- `src/app/choice.rs:333-336`; `usize::from(flag)` does not branch. -/
def addChoicesTraced [DecidableEq E] (admissibleValues : List E) : List Bool → RingProofBuilder B →
    Traced F E (List (ExtendedCiphertext F E) × RingProofBuilder B)
  | [], builder => return ([], builder)
  | flag :: rest, builder => do
    let (ciphertext, builder) ← builder.addValueTraced B admissibleValues (if flag then 1 else 0)
    let (ciphertexts, builder) ← addChoicesTraced admissibleValues rest builder
    return (ciphertext :: ciphertexts, builder)

/-- `src/app/choice.rs:332`: the sum of flags. -/
def sumTraced : List Bool → Nat → Traced F E Nat
  | [], sum => return sum
  | flag :: rest, sum => do
    let sum ← op .addU64 (sum + if flag then 1 else 0)
    sumTraced rest sum

/-- `src/app/choice.rs:339`: `reduce(ops::Add::add)`, after the first item. -/
def sumCiphertextsTraced : List (ExtendedCiphertext F E) → ExtendedCiphertext F E →
    Traced F E (ExtendedCiphertext F E)
  | [], sum => return sum
  | ciphertext :: rest, sum => do
    let sum ← sum.addTraced ciphertext
    sumCiphertextsTraced rest sum

/-- `src/app/choice.rs:313-349` `EncryptedChoice::new`. -/
def newTraced [DecidableEq F] [DecidableEq E] {kind : ChoiceKind} (params : ChoiceParams E kind)
    (choices : List Bool) (rng : B.Rng) : Traced F E (EncryptedChoice F E kind × B.Rng) := do
  assert (choices ≠ [])
  assert (choices.length = params.optionsCount)
  let admissibleValues : List E := [0, B.gen]
  let ringResponses : List F := List.replicate (2 * params.optionsCount) 0
  let t ← Transcript.newTraced "encrypted_choice_ranges"
  let builder ← RingProofBuilder.newTraced B params.receiver ringResponses t rng
  let sum ← sumTraced choices 0
  let (choices, builder) ← addChoicesTraced B admissibleValues choices builder
  let (commonChallenge, ringResponses, _, rng) ← builder.buildTraced B
  let rangeProof : RingProof F := { commonChallenge, ringResponses }
  let first ← ofOption choices.head?
  let sumCiphertext ← sumCiphertextsTraced choices.tail first
  let sumCiphertext : CiphertextWithValue F E Nat := sumCiphertext.withValue sum
  let (sumProof, rng) ← SumProof.proveTraced B kind sumCiphertext params.receiver rng
  return ({ choices := choices.map (·.inner), rangeProof, sumProof }, rng)

/-- `src/app/choice.rs:288-300` `EncryptedChoice::single`; `choice == i` does not branch. -/
def singleTraced [DecidableEq F] [DecidableEq E] (params : ChoiceParams E .single) (choice : Nat)
    (rng : B.Rng) : Traced F E (EncryptedChoice F E .single × B.Rng) := do
  assert (choice < params.optionsCount)
  let choices := (List.range params.optionsCount).map fun i => decide (choice = i)
  newTraced B params choices rng

end EncryptedChoice

namespace QuadraticVotingBallot

/-- `src/app/quadratic_voting.rs:244`: the sum of squares. -/
def creditOfTraced (dbg : Bool) : List Nat → Nat → Traced F E Nat
  | [], credit => return credit
  | vote :: rest, credit => do
    let square ← mulU64Traced dbg vote vote
    let credit ← addU64Traced dbg credit square
    creditOfTraced dbg rest credit

/-- `src/app/quadratic_voting.rs:246-258`. -/
def encryptVotesTraced [DecidableEq F] [DecidableEq E] (receiver : PublicKey E)
    (voteCountRange : PreparedRange E) : List Nat → B.Rng →
    Traced F E (List (CiphertextWithValue F E × RangeProof F E) × B.Rng)
  | [], rng => return ([], rng)
  | voteCount :: rest, rng => do
    let t ← Transcript.newTraced "quadratic_voting_variant"
    let ((ciphertext, proof), _, rng) ← RangeProof.newTraced B receiver voteCountRange voteCount t rng
    let (encrypted, rng) ← encryptVotesTraced receiver voteCountRange rest rng
    return ((ciphertext.generalize, proof) :: encrypted, rng)

/-- `src/app/quadratic_voting.rs:234-284` `QuadraticVotingBallot::new`. -/
def newTraced [DecidableEq F] [DecidableEq E] (params : QuadraticVotingParams E) (votes : List Nat)
    (rng : B.Rng) : Traced F E (QuadraticVotingBallot F E × B.Rng) := do
  assert (votes.length = params.optionsCount)
  let credit ← creditOfTraced B.debug votes 0
  let (votes, rng) ← encryptVotesTraced B params.receiver params.voteCountRange votes rng
  let t ← Transcript.newTraced "quadratic_voting_credit_range"
  let ((credit, creditRangeProof), _, rng) ← RangeProof.newTraced B params.receiver params.creditRange
    credit t rng
  let credit := credit.generalize
  let t ← Transcript.newTraced "quadratic_voting_credit_equiv"
  let (creditEquivalenceProof, _, rng) ← SumOfSquaresProof.newTraced B (votes.map Prod.fst) credit
    params.receiver t rng
  return ({ votes := votes.map fun (ciphertext, proof) => ⟨ciphertext.ciphertext, proof⟩,
            credit := ⟨credit.ciphertext, creditRangeProof⟩,
            creditEquivalenceProof }, rng)

end QuadraticVotingBallot

end ElasticElgamal
