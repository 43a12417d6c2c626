import Verif.Model.Proofs.Ring
import Verif.Model.Proofs.RangeDecomposition

/-!
# Range proofs

Models the group-dependent part of `src/proofs/range.rs` and the range encryption in
`src/keys/impls.rs`.
-/

set_option autoImplicit false

namespace ElasticElgamal

variable {F E : Type}

/-- `src/proofs/range.rs:329-332` `PreparedRange`. -/
structure PreparedRange (E : Type) where
  inner : RangeDecomposition
  admissibleValues : List (List E)

namespace PreparedRange

/-- `src/proofs/range.rs:341-355` `PreparedRange::new` (also `From<RangeDecomposition>`, 334-338). -/
def new [Field F] [AddCommGroup E] [Module F E] (B : Backend F E) (inner : RangeDecomposition) :
    Option (PreparedRange E) := do
  let admissibleValues ← inner.rings.mapM fun spec =>
    (List.range spec.size).mapM fun i => do
      let value ← mulU64 B.debug i spec.step
      return B.mulGen (value : F)
  return { inner, admissibleValues }

/-- `src/proofs/range.rs:363-373` `PreparedRange::decompose`. -/
def decompose (dbg : Bool) (range : PreparedRange E) (secretValue : Nat) : Option (List Nat) := do
  let upperBound ← range.inner.upperBound dbg
  guard (secretValue < upperBound)
  range.inner.decompose dbg secretValue

end PreparedRange

/-- `src/proofs/range.rs:446-450` `RangeProof`. -/
@[ext] structure RangeProof (F E : Type) where
  partialCiphertexts : List (Ciphertext E)
  inner : RingProof F
  deriving DecidableEq

namespace RangeProof

variable [Field F] [AddCommGroup E] [Module F E] (B : Backend F E)

/-- `src/proofs/range.rs:509-518`: add all rings but the last one, accumulating the ciphertexts. -/
def addValues [DecidableEq E] : List (Nat × List E) → ExtendedCiphertext F E → RingProofBuilder B →
    Option (List (Ciphertext E) × ExtendedCiphertext F E × RingProofBuilder B)
  | [], cumulative, builder => some ([], cumulative, builder)
  | (valueIndex, admissibleValues) :: rest, cumulative, builder => do
    let (ciphertext, builder) ← builder.addValue B admissibleValues valueIndex
    let inner := ciphertext.inner
    let cumulative := cumulative.add ciphertext
    let (ciphertexts, cumulative, builder) ← addValues rest cumulative builder
    return (inner :: ciphertexts, cumulative, builder)

/-- `src/proofs/range.rs:482-534` `RangeProof::from_ciphertext`. -/
def fromCiphertext [DecidableEq F] [DecidableEq E] (receiver : PublicKey E) (range : PreparedRange E)
    (ciphertext : CiphertextWithValue F E Nat) (t : Transcript) (rng : B.Rng) :
    Option (RangeProof F E × Transcript × B.Rng) := do
  let valueIndexes ← range.decompose B.debug ciphertext.value
  B.debugAssert (valueIndexes.length = range.admissibleValues.length)
  let t := t.startProof "encryption_range_proof"
  let t := t.appendMessage "range" range.inner.display
  let ringResponsesSize ← range.inner.ringsSize B.debug
  let ringResponses : List F := List.replicate ringResponsesSize 0
  let builder := RingProofBuilder.new B receiver ringResponses t rng
  let items := valueIndexes.zip range.admissibleValues
  -- `value_indexes.len() - 1` underflows if there are no rings
  guard (valueIndexes ≠ [])
  let (partialCiphertexts, cumulative, builder) ←
    addValues B (items.take (valueIndexes.length - 1)) ExtendedCiphertext.zero builder
  let lastPartialCiphertext := ciphertext.inner.sub cumulative
  let (valueIndex, admissibleValues) ← (items.drop (valueIndexes.length - 1)).head?
  let builder ← builder.addPrecomputedValue B lastPartialCiphertext admissibleValues valueIndex
  let (commonChallenge, ringResponses, t, rng) ← builder.build B
  return ({ partialCiphertexts, inner := { commonChallenge, ringResponses } }, t, rng)

/-- `src/proofs/range.rs:462-473` `RangeProof::new`. -/
def new [DecidableEq F] [DecidableEq E] (receiver : PublicKey E) (range : PreparedRange E)
    (value : Nat) (t : Transcript) (rng : B.Rng) :
    Option ((CiphertextWithValue F E Nat × RangeProof F E) × Transcript × B.Rng) := do
  let (ciphertext, rng) := CiphertextWithValue.newU64 B value receiver rng
  let (proof, t, rng) ← fromCiphertext B receiver range ciphertext t rng
  return ((ciphertext, proof), t, rng)

/-- `src/proofs/range.rs:547-577` `RangeProof::verify`. -/
def verify [DecidableEq F] (proof : RangeProof F E) (receiver : PublicKey E)
    (range : PreparedRange E) (ciphertext : Ciphertext E) (t : Transcript) :
    Option (Except VerificationError Unit × Transcript) :=
  match VerificationError.checkLengths "admissible values" (proof.partialCiphertexts.length + 1)
    range.admissibleValues.length with
  | .error e => some (.error e, t)
  | .ok () =>
    let t := t.startProof "encryption_range_proof"
    let t := t.appendMessage "range" range.inner.display
    let ciphertextSum := proof.partialCiphertexts.foldl (fun acc c => acc.add c) Ciphertext.zero
    let ciphertexts := proof.partialCiphertexts ++ [ciphertext.sub ciphertextSum]
    proof.inner.verify B receiver range.admissibleValues ciphertexts t

end RangeProof

namespace PublicKey

variable [Field F] [AddCommGroup E] [Module F E] [DecidableEq F] (B : Backend F E)

/-- `src/keys/impls.rs:124-133` `PublicKey::encrypt_range`. -/
def encryptRange [DecidableEq E] (receiver : PublicKey E) (range : PreparedRange E) (value : Nat)
    (rng : B.Rng) : Option ((Ciphertext E × RangeProof F E) × B.Rng) := do
  let t := Transcript.new "ciphertext_range"
  let ((ciphertext, proof), _, rng) ← RangeProof.new B receiver range value t rng
  return ((ciphertext.ciphertext, proof), rng)

/-- `src/keys/impls.rs:143-151` `PublicKey::verify_range`. -/
def verifyRange (receiver : PublicKey E) (range : PreparedRange E) (ciphertext : Ciphertext E)
    (proof : RangeProof F E) : Option (Except VerificationError Unit) := do
  let t := Transcript.new "ciphertext_range"
  let (result, _) ← proof.verify B receiver range ciphertext t
  return result

end PublicKey

end ElasticElgamal
