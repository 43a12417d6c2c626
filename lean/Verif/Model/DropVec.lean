import Verif.Model.Drop
import Verif.Model.App.Choice
import Verif.Model.Proofs.Range
import Verif.Model.Proofs.SumOfSquares
import Verif.Model.Proofs.Possession

/-!
# Memory of vectors with secrets

Vectors with their capacity, and with what was left in buffers that were deallocated when they grew.
-/

set_option autoImplicit false

namespace ElasticElgamal

/-- `Vec<T>`: items, capacity of the buffer, and contents of earlier, deallocated buffers. -/
structure VecBuf (α : Type) where
  items : List α
  capacity : Nat
  freed : List α
  deriving DecidableEq

namespace VecBuf

variable {α : Type}

/-- `Vec::with_capacity`. Simplification: the allocator gives exactly this capacity. -/
def withCapacity (n : Nat) : VecBuf α := { items := [], capacity := n, freed := [] }

/-- `Vec::push`: if the buffer is full, items are moved to a buffer of at least twice the size, and nothing is overwritten in
the old one. Simplification: the minimal capacity of small vectors is ignored. -/
def push (v : VecBuf α) (x : α) : VecBuf α :=
  if v.items.length < v.capacity then { v with items := v.items ++ [x] }
  else { items := v.items ++ [x], capacity := max (2 * v.capacity) (v.items.length + 1), freed := v.freed ++ v.items }

/-- `collect` of an iterator that knows its length. -/
def collect (items : List α) : VecBuf α := { items, capacity := items.length, freed := [] }

/-- What is left of a dropped `Zeroizing<Vec<T>>` for integers or booleans: `zeroize` overwrites the whole capacity of the
buffer. -/
def dropZeroizing (zero : α) (v : VecBuf α) : List α := List.replicate v.capacity zero ++ v.freed

/-- What is left of a dropped `Vec<T>`, if `drop` is the destructor of `T`. -/
def dropItems (drop : α → α) (v : VecBuf α) : List α := v.items.map drop ++ v.freed

/-- What is left of a `Vec<T>` after all items were moved out with `into_iter` or a `for` loop: moves copy items and do not
overwrite the buffer, which is deallocated as it is. Destructors run for the moved items, in other places. -/
def movedOut (v : VecBuf α) : List α := v.items ++ v.freed

end VecBuf

variable {F E : Type}

/-- `src/proofs/range.rs:199-210` `RangeDecomposition::decompose`: the argument `value_indexes`. -/
def RangeDecomposition.decomposeInto (dbg : Bool) (d : RangeDecomposition) (valueIndexes : VecBuf Nat) (secretValue : Nat) :
    Option (VecBuf Nat) := do
  let indexes ← d.decompose dbg secretValue
  return indexes.foldl VecBuf.push valueIndexes

/-- `src/proofs/range.rs:363-373` `PreparedRange::decompose`. -/
def PreparedRange.decomposeVec (dbg : Bool) (range : PreparedRange E) (secretValue : Nat) : Option (VecBuf Nat) := do
  let upperBound ← range.inner.upperBound dbg
  guard (secretValue < upperBound)
  let decomposition := VecBuf.withCapacity range.admissibleValues.length
  range.inner.decomposeInto dbg decomposition secretValue

/-- `src/app/choice.rs:298-299`: the vector `choices` of `EncryptedChoice::single`. -/
def EncryptedChoice.singleVec (params : ChoiceParams E .single) (choice : Nat) : VecBuf Bool :=
  VecBuf.collect ((List.range params.optionsCount).map fun i => decide (choice = i))

/-- `src/proofs/ring.rs:442-457,491`: the vector `rings` of a builder created with `ring_count`, to which all rings were
added by `push`. -/
def RingProofBuilder.ringVec {B : Backend F E} (ringCount : Nat) (b : RingProofBuilder B) : VecBuf (Ring F E) :=
  b.rings.foldl VecBuf.push (VecBuf.withCapacity ringCount)

/-- `src/keys/impls.rs:85`: the rings of `PublicKey::encrypt_bool`. -/
def PublicKey.boolRings {B : Backend F E} (b : RingProofBuilder B) : VecBuf (Ring F E) := b.ringVec 1

/-- `src/app/choice.rs:324-330`: the rings of `EncryptedChoice::new`. -/
def EncryptedChoice.rings {B : Backend F E} {kind : ChoiceKind} (params : ChoiceParams E kind) (b : RingProofBuilder B) :
    VecBuf (Ring F E) := b.ringVec params.optionsCount

/-- `src/proofs/range.rs:498-504`: the rings of `RangeProof::from_ciphertext`. -/
def RangeProof.rings {B : Backend F E} (range : PreparedRange E) (b : RingProofBuilder B) : VecBuf (Ring F E) :=
  b.ringVec range.admissibleValues.length

/-- `src/proofs/ring.rs:156-158`: the rings after `RingProofBuilder::build`; `for ring in rings` moves them. -/
def RingProofBuilder.builtRings {B : Backend F E} (ringCount : Nat) (b : RingProofBuilder B) : List (Ring F E) :=
  (b.ringVec ringCount).movedOut

/-- `src/proofs/mul.rs:114-136`: the secrets in `partial_scalars` of `SumOfSquaresProof::new` (the references to ciphertexts are
omitted). Simplification: the given iterator knows its length, otherwise the vector may also grow. -/
def SumOfSquaresProof.partialScalars [Field F] [AddCommGroup E] [Module F E] (B : Backend F E)
    (ciphertexts : List (CiphertextWithValue F E)) (sumOfSquaresCiphertext : CiphertextWithValue F E) (receiver : PublicKey E)
    (t : Transcript) (rng : B.Rng) : Option (VecBuf (SecretKey F × SecretKey F)) := do
  let t := initializeTranscript t receiver
  let (_, rng) := SecretKey.generate B rng
  let sumRandomScalar := sumOfSquaresCiphertext.randomness
  let (partialScalars, _, _, _) ← commitLoop B receiver ciphertexts sumRandomScalar t rng
  return VecBuf.collect (partialScalars.map fun (_, randomScalar, valueScalar) => (randomScalar, valueScalar))

/-- `src/proofs/mul.rs:163-172`: `partial_scalars.into_iter()`. -/
def SumOfSquaresProof.leftScalars (v : VecBuf (SecretKey F × SecretKey F)) : List (SecretKey F × SecretKey F) := v.movedOut

/-- `src/proofs/possession.rs:100-113`: `random_scalars` of `ProofOfPossession::from_keys`; ranges know their length. -/
def ProofOfPossession.randomScalars [Field F] [AddCommGroup E] [Module F E] (B : Backend F E) (publicKeys : List (PublicKey E))
    (t : Transcript) (rng : B.Rng) : Option (VecBuf (SecretKey F)) := do
  let t := t.startProof "multi_pop"
  let t := appendKeys t publicKeys
  let (randomScalars, _, _) ← drawRandomScalars B publicKeys.length t rng
  return VecBuf.collect randomScalars

/-- `src/proofs/possession.rs:116-122`: `secrets.zip(random_scalars)`. -/
def ProofOfPossession.leftScalars (v : VecBuf (SecretKey F)) : List (SecretKey F) := v.movedOut

end ElasticElgamal
