import Verif.Model.Proofs.Common

/-!
# Ring proofs

Models `src/proofs/ring.rs` and the boolean encryption in `src/keys/impls.rs`.
-/

set_option autoImplicit false

namespace ElasticElgamal

variable {F E : Type}

/-- `src/proofs/ring.rs:22-37` `Ring`. The mutable slice `responses` is owned by the model's ring. -/
structure Ring (F E : Type) where
  index : Nat
  admissibleValues : List E
  ciphertext : Ciphertext E
  transcript : Transcript
  responses : List F
  terminalCommitments : E × E
  valueIndex : Nat
  discreteLog : SecretKey F
  randomScalar : SecretKey F

/-- `responses[i] = x`: panics when out of bounds. -/
def setAt {α : Type} (l : List α) (i : Nat) (x : α) : Option (List α) :=
  if i < l.length then some (l.set i x) else none

namespace Ring

variable [Field F] [AddCommGroup E] [Module F E] (B : Backend F E)

/-- `src/proofs/ring.rs:103-118`: the loop of `Ring::new` over the equations following the known one.
`eqIndex` is the index of the head of `values`. -/
def newLoop (logBase : E) (ciphertext : Ciphertext E) (t : Transcript) :
    Nat → List E → E × E → List F → B.Rng → Option ((E × E) × List F × B.Rng)
  | _, [], commitments, responses, rng => some (commitments, responses, rng)
  | eqIndex, admissibleValue :: values, commitments, responses, rng => do
    let eqT := t.appendU64 "j" (eqIndex - 1)
    let eqT ← B.appendElement eqT "R_G" commitments.1
    let eqT ← B.appendElement eqT "R_K" commitments.2
    let (challenge, _) := B.challengeScalar eqT "c"
    let (response, rng) := B.genScalar rng
    let responses ← setAt responses eqIndex response
    let dhElement := ciphertext.blinded - admissibleValue
    let commitments :=
      (B.mulGen response - challenge • ciphertext.random,
       Backend.multiMul [response, -challenge] [logBase, dhElement])
    newLoop logBase ciphertext t (eqIndex + 1) values commitments responses rng

/-- `src/proofs/ring.rs:54-131` `Ring::new`. -/
def new [DecidableEq E] (index : Nat) (logBase : E) (ciphertext : ExtendedCiphertext F E)
    (admissibleValues : List E) (valueIndex : Nat) (t : Transcript) (responses : List F)
    (rng : B.Rng) : Option (Ring F E × B.Rng) := do
  -- `assert!(!admissible_values.is_empty())`, `assert!(value_index < admissible_values.len())`
  guard (admissibleValues ≠ [])
  guard (valueIndex < admissibleValues.length)
  B.debugAssert (responses.length = admissibleValues.length)
  let blindedValue := ciphertext.inner.blinded
  let knownValue ← admissibleValues[valueIndex]?
  B.debugAssert (ciphertext.randomScalar • logBase + knownValue = blindedValue)
  let t := t.startProof "ring_enc"
  let t := t.appendMessage "enc" (← ciphertext.inner.toBytes B)
  let t := t.appendU64 "i" index
  let (randomScalar, rng) := SecretKey.generate B rng
  let commitments := (B.mulGen randomScalar, randomScalar • logBase)
  let (commitments, responses, rng) ← newLoop B logBase ciphertext.inner t (valueIndex + 1)
    (admissibleValues.drop (valueIndex + 1)) commitments responses rng
  return ({ index, valueIndex, admissibleValues, ciphertext := ciphertext.inner, transcript := t,
            responses, terminalCommitments := commitments,
            discreteLog := ciphertext.randomScalar, randomScalar }, rng)

/-- `src/proofs/ring.rs:169-187`: the loop of `Ring::finalize` over the equations preceding the known
one. -/
def finalizeLoop (logBase : E) (ciphertext : Ciphertext E) (t : Transcript) :
    Nat → List E → F → List F → B.Rng → Option (F × List F × B.Rng)
  | _, [], challenge, responses, rng => some (challenge, responses, rng)
  | eqIndex, admissibleValue :: values, challenge, responses, rng => do
    let (response, rng) := B.genScalar rng
    let responses ← setAt responses eqIndex response
    let dhElement := ciphertext.blinded - admissibleValue
    let commitments :=
      (B.mulGen response - challenge • ciphertext.random,
       Backend.multiMul [response, -challenge] [logBase, dhElement])
    let eqT := t.appendU64 "j" eqIndex
    let eqT ← B.appendElement eqT "R_G" commitments.1
    let eqT ← B.appendElement eqT "R_K" commitments.2
    let (challenge, _) := B.challengeScalar eqT "c"
    finalizeLoop logBase ciphertext t (eqIndex + 1) values challenge responses rng

/-- `src/proofs/ring.rs:162-194` `Ring::finalize`; returns the filled responses. -/
def finalize [DecidableEq F] (ring : Ring F E) (logBase : E) (commonChallenge : F) (rng : B.Rng) :
    Option (List F × B.Rng) := do
  let (challenge, responses, rng) ← finalizeLoop B logBase ring.ciphertext ring.transcript 0
    (ring.admissibleValues.take ring.valueIndex) commonChallenge ring.responses rng
  let placeholder ← responses[ring.valueIndex]?
  B.debugAssert (placeholder = ((0 : Nat) : F))
  let responses ← setAt responses ring.valueIndex (challenge * ring.discreteLog + ring.randomScalar)
  return (responses, rng)

/-- `src/proofs/ring.rs:149-153`: append terminal commitments of all rings. -/
def appendTerminal : List (Ring F E) → Transcript → Option Transcript
  | [], t => some t
  | ring :: rings, t => do
    let t ← B.appendElement t "R_G" ring.terminalCommitments.1
    let t ← B.appendElement t "R_K" ring.terminalCommitments.2
    appendTerminal rings t

/-- `src/proofs/ring.rs:156-158`: finalize all rings in order; returns all responses concatenated. -/
def finalizeAll [DecidableEq F] (logBase : E) (commonChallenge : F) :
    List (Ring F E) → B.Rng → Option (List F × B.Rng)
  | [], rng => some ([], rng)
  | ring :: rings, rng => do
    let (responses, rng) ← ring.finalize B logBase commonChallenge rng
    let (rest, rng) ← finalizeAll logBase commonChallenge rings rng
    return (responses ++ rest, rng)

/-- `src/proofs/ring.rs:138-160` `Ring::aggregate`; besides the common challenge returns the contents of
the response slices of all rings. -/
def aggregate [DecidableEq F] (rings : List (Ring F E)) (logBase : E) (t : Transcript)
    (rng : B.Rng) : Option (F × List F × Transcript × B.Rng) := do
  B.debugAssert (rings.map (·.index) = List.range rings.length)
  let t ← appendTerminal B rings t
  let (commonChallenge, t) := B.challengeScalar t "c"
  let (responses, rng) ← finalizeAll B logBase commonChallenge rings rng
  return (commonChallenge, responses, t, rng)

end Ring

/-- `src/proofs/ring.rs:282-287` `RingProof`. -/
@[ext] structure RingProof (F : Type) where
  commonChallenge : F
  ringResponses : List F
  deriving DecidableEq

namespace RingProof

/-- `src/proofs/ring.rs:290-293` `initialize_transcript`. -/
def initializeTranscript (t : Transcript) (receiver : PublicKey E) : Transcript :=
  let t := t.startProof "multi_ring_enc"
  t.appendElementBytes "K" receiver.bytes

/-- `src/proofs/ring.rs:376-378` `total_rings_size`. -/
def totalRingsSize (proof : RingProof F) : Nat := proof.ringResponses.length

section
variable [Field F] [AddCommGroup E] [Module F E] (B : Backend F E)

/-- `src/proofs/ring.rs:333-361`: the loop over equations of one ring. `valuesLen` is `values.len()`,
`eqIndex` the index of the head of the zipped list. -/
def verifyRingLoop (receiver : PublicKey E) (ciphertext : Ciphertext E) (ringT : Transcript)
    (valuesLen : Nat) : Nat → List (E × F) → F → E × E → Option (E × E)
  | _, [], _, commitments => some commitments
  | eqIndex, (admissibleValue, response) :: rest, challenge, _ => do
    let dhElement := ciphertext.blinded - admissibleValue
    let negChallenge := -challenge
    let commitments :=
      (B.doubleMulGen negChallenge ciphertext.random response,
       Backend.multiMul [response, negChallenge] [receiver.element, dhElement])
    let challenge ←
      if eqIndex + 1 < valuesLen then do
        let eqT := ringT.appendU64 "j" eqIndex
        let eqT ← B.appendElement eqT "R_G" commitments.1
        let eqT ← B.appendElement eqT "R_K" commitments.2
        pure (B.challengeScalar eqT "c").1
      else pure challenge
    verifyRingLoop receiver ciphertext ringT valuesLen (eqIndex + 1) rest challenge commitments

/-- `src/proofs/ring.rs:324-366`: the loop over rings. -/
def verifyLoop (proof : RingProof F) (receiver : PublicKey E) (initialRingT : Transcript) :
    Nat → Nat → List (List E × Ciphertext E) → Transcript → Option Transcript
  | _, _, [], t => some t
  | ringIndex, startingResponse, (values, ciphertext) :: rest, t => do
    let challenge := proof.commonChallenge
    let commitments := (B.gen, B.gen)
    let ringT := initialRingT.startProof "ring_enc"
    let ringT := ringT.appendMessage "enc" (← ciphertext.toBytes B)
    let ringT := ringT.appendU64 "i" ringIndex
    -- `self.ring_responses[starting_response..]` panics when out of bounds
    guard (startingResponse ≤ proof.ringResponses.length)
    let commitments ← verifyRingLoop B receiver ciphertext ringT values.length 0
      (values.zip (proof.ringResponses.drop startingResponse)) challenge commitments
    let startingResponse := startingResponse + values.length
    let t ← B.appendElement t "R_G" commitments.1
    let t ← B.appendElement t "R_K" commitments.2
    verifyLoop proof receiver initialRingT (ringIndex + 1) startingResponse rest t

/-- `src/proofs/ring.rs:302-374` `RingProof::verify`. -/
def verify [DecidableEq F] (proof : RingProof F) (receiver : PublicKey E)
    (admissibleValues : List (List E)) (ciphertexts : List (Ciphertext E)) (t : Transcript) :
    Option (Except VerificationError Unit × Transcript) :=
  let totalRingsSize := (admissibleValues.map List.length).sum
  match VerificationError.checkLengths "items in all rings" proof.totalRingsSize totalRingsSize with
  | .error e => some (.error e, t)
  | .ok () => do
    let t := initializeTranscript t receiver
    let initialRingT := t
    let t ← verifyLoop B proof receiver initialRingT 0 0 (admissibleValues.zip ciphertexts) t
    let (expectedChallenge, t) := B.challengeScalar t "c"
    return (checkChallenge expectedChallenge proof.commonChallenge, t)

end

/-- `src/proofs/ring.rs:383-392` `RingProof::to_bytes`. -/
def toBytes (B : Backend F E) (proof : RingProof F) : Bytes :=
  B.serScalar proof.commonChallenge ++ proof.ringResponses.flatMap B.serScalar

/-- `src/proofs/ring.rs:397-414` `RingProof::from_bytes`; outer `none` = panic of the debug assertion. -/
def fromBytes (B : Backend F E) (bytes : Bytes) : Option (Option (RingProof F)) :=
  if bytes.length % B.scalarSize ≠ 0 ∨ bytes.length < 3 * B.scalarSize then some none
  else match B.deScalar (bytes.take B.scalarSize) with
    | none => some none
    | some commonChallenge =>
      match (chunks B.scalarSize (bytes.drop B.scalarSize)).mapM B.deScalar with
      | none => some none
      | some ringResponses => do
        B.debugAssert (2 ≤ ringResponses.length)
        return some { commonChallenge, ringResponses }

end RingProof

/-- `src/proofs/ring.rs:421-427` `RingProofBuilder`; `ringResponses` is the part of the response buffer
not yet handed to rings. -/
structure RingProofBuilder (B : Backend F E) where
  receiver : PublicKey E
  transcript : Transcript
  rings : List (Ring F E)
  ringResponses : List F
  rng : B.Rng

namespace RingProofBuilder

variable [Field F] [AddCommGroup E] [Module F E] (B : Backend F E)

/-- `src/proofs/ring.rs:442-457` `RingProofBuilder::new` (`ring_count` only reserves capacity). -/
def new (receiver : PublicKey E) (ringResponses : List F) (t : Transcript) (rng : B.Rng) :
    RingProofBuilder B :=
  { receiver, transcript := RingProof.initializeTranscript t receiver, rings := [],
    ringResponses, rng }

/-- `src/proofs/ring.rs:471-492` `add_precomputed_value`; `split_at_mut` panics when out of bounds. -/
def addPrecomputedValue [DecidableEq E] (b : RingProofBuilder B)
    (ciphertext : ExtendedCiphertext F E) (admissibleValues : List E) (valueIndex : Nat) :
    Option (RingProofBuilder B) := do
  guard (admissibleValues.length ≤ b.ringResponses.length)
  let responsesForRing := b.ringResponses.take admissibleValues.length
  let rest := b.ringResponses.drop admissibleValues.length
  let (ring, rng) ← Ring.new B b.rings.length b.receiver.element ciphertext admissibleValues
    valueIndex b.transcript responsesForRing b.rng
  return { b with rings := b.rings ++ [ring], ringResponses := rest, rng }

/-- `src/proofs/ring.rs:460-469` `add_value`; indexing panics when out of bounds. -/
def addValue [DecidableEq E] (b : RingProofBuilder B) (admissibleValues : List E)
    (valueIndex : Nat) : Option (ExtendedCiphertext F E × RingProofBuilder B) := do
  let value ← admissibleValues[valueIndex]?
  let (extCiphertext, rng) := ExtendedCiphertext.new B value b.receiver b.rng
  let b ← addPrecomputedValue B { b with rng } extCiphertext admissibleValues valueIndex
  return (extCiphertext, b)

/-- `src/proofs/ring.rs:495-506` `build`; also returns the final contents of the response buffer,
transcript and RNG. -/
def build [DecidableEq F] (b : RingProofBuilder B) :
    Option (F × List F × Transcript × B.Rng) := do
  B.debugAssert (b.ringResponses = [])
  let (commonChallenge, responses, t, rng) ←
    Ring.aggregate B b.rings b.receiver.element b.transcript b.rng
  return (commonChallenge, responses ++ b.ringResponses, t, rng)

end RingProofBuilder

namespace PublicKey

variable [Field F] [AddCommGroup E] [Module F E] (B : Backend F E)

/-- `src/keys/impls.rs:77-89` `PublicKey::encrypt_bool`. -/
def encryptBool [DecidableEq F] [DecidableEq E] (receiver : PublicKey E) (value : Bool)
    (rng : B.Rng) : Option ((Ciphertext E × RingProof F) × B.Rng) := do
  let t := Transcript.new "bool_encryption"
  let admissibleValues : List E := [0, B.gen]
  let ringResponses : List F := List.replicate 2 0
  let builder := RingProofBuilder.new B receiver ringResponses t rng
  let (ciphertext, builder) ← builder.addValue B admissibleValues (if value then 1 else 0)
  let (commonChallenge, ringResponses, _, rng) ← builder.build B
  return ((ciphertext.inner, { commonChallenge, ringResponses }), rng)

/-- `src/keys/impls.rs:101-113` `PublicKey::verify_bool`. -/
def verifyBool [DecidableEq F] (receiver : PublicKey E) (ciphertext : Ciphertext E)
    (proof : RingProof F) : Option (Except VerificationError Unit) := do
  let admissibleValues : List E := [0, B.gen]
  let (result, _) ← proof.verify B receiver [admissibleValues] [ciphertext]
    (Transcript.new "bool_encryption")
  return result

end PublicKey

end ElasticElgamal
