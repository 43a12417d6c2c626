import Verif.Model.Proofs.SumOfSquares
import Verif.Model.Sharing.Basic

/-!
# Overrides of arithmetic for groups over `curve25519-dalek`

`Ristretto` and `Curve25519Subgroup` replace default methods of the traits by functions of `curve25519-dalek`
(`src/group/ristretto.rs:44-53, 114-146`, `src/group/curve25519.rs:55-63, 130-162`). The replacements have preconditions
which the defaults do not have: `multiscalar_mul` and `vartime_multiscalar_mul` assert that the iterators of
scalars and of elements report the same exact size, and inverting in a batch expects nonzero scalars. The functions
with such calls are modelled once more here, over any arithmetic. Iterators have their size hints.

The bodies of the replacements follow our knowledge of `curve25519-dalek` (`edwards.rs`, `scalar.rs`), as the
dependencies are not available here; `src/proofs/mul.rs:263-265` confirms the assertion.
-/

set_option autoImplicit false

namespace ElasticElgamal

variable {F E : Type}

/-- An iterator: remaining items and `size_hint()`. -/
structure Iter (α : Type) where
  items : List α
  lower : Nat
  upper : Option Nat

namespace Iter
variable {α β : Type}

/-- Iterators over slices, vectors and arrays. -/
def ofList (l : List α) : Iter α := ⟨l, l.length, some l.length⟩

/-- `Iterator::map`. -/
def map (f : α → β) (it : Iter α) : Iter β := ⟨it.items.map f, it.lower, it.upper⟩

/-- `Iterator::chain`; sizes do not overflow `usize`. -/
def chain (it it' : Iter α) : Iter α :=
  ⟨it.items ++ it'.items, it.lower + it'.lower, do return (← it.upper) + (← it'.upper)⟩

/-- `Iterator::take`. -/
def take (n : Nat) (it : Iter α) : Iter α :=
  ⟨it.items.take n, min it.lower n, match it.upper with
    | some upper => some (if upper < n then upper else n)
    | none => some n⟩

/-- `Iterator::filter`, whose size hint is the number of items to filter from above only. -/
def filter (p : α → Bool) (it : Iter α) : Iter α := ⟨it.items.filter p, 0, it.upper⟩

/-- `OddItems` over a slice (`src/proofs/mul.rs:267-298`). -/
def oddItems (l : List α) : Iter α :=
  ⟨(OddItems.new l).collect, (OddItems.new l).sizeHint.1, (OddItems.new l).sizeHint.2⟩

end Iter

/-- The methods of `ScalarOps` and `Group` with overrides; `none` is a panic. -/
structure Arith (F E : Type) where
  /-- `Group::multi_mul`, `Group::vartime_multi_mul` -/
  multiMul : Iter F → Iter E → Option E
  /-- `ScalarOps::invert_scalars` -/
  invertScalars : List F → Option (List F)

namespace Arith
variable [Field F] [AddCommGroup E] [Module F E]

/-- The defaults (`src/group/mod.rs:114-118, 214-224, 248-254`) with `invert_scalar` of `Generic`. -/
def generic [DecidableEq F] : Arith F E where
  multiMul scalars elements := some (Backend.multiMul scalars.items elements.items)
  invertScalars := Backend.invertScalars

/-- `multiscalar_mul`, `vartime_multiscalar_mul` of `curve25519-dalek`: the sizes are asserted to be exact and equal. -/
def dalekMultiMul (scalars : Iter F) (elements : Iter E) : Option E := do
  guard (scalars.lower = elements.lower)
  guard (scalars.upper = some scalars.lower)
  guard (elements.upper = some elements.lower)
  return Backend.multiMul scalars.items elements.items

/-- First pass of inverting in a batch: products of the inputs before each one, and of all inputs. -/
def batchProducts : F → List F → List F × F
  | acc, [] => ([], acc)
  | acc, input :: inputs =>
    let (scratch, product) := batchProducts (acc * input) inputs
    (acc :: scratch, product)

/-- Second pass, from the end of the list. -/
def batchInverses : F → List (F × F) → List F
  | _, [] => []
  | acc, (input, scratch) :: rest => acc * scratch :: batchInverses (acc * input) rest

/-- `Scalar::invert_batch_alloc` (`Scalar::batch_invert` for `curve25519-dalek-ng`). Zero has the inverse zero. -/
def dalekInvertScalars [DecidableEq F] (debug : Bool) (inputs : List F) : Option (List F) := do
  let (scratch, acc) := batchProducts 1 inputs
  guard (debug = false ∨ acc ≠ 0)
  return (batchInverses acc⁻¹ (inputs.zip scratch).reverse).reverse

/-- The overrides. -/
def dalek [DecidableEq F] (debug : Bool) : Arith F E where
  multiMul := dalekMultiMul
  invertScalars := dalekInvertScalars debug

end Arith

variable [Field F] [AddCommGroup E] [Module F E] (A : Arith F E)

/-- `src/sharing/mod.rs:191-202` `PublicPolynomial::value_at`. -/
def PublicPolynomial.valueAtWith (p : PublicPolynomial E) (x : F) : Option E :=
  A.multiMul (.ofList (powers x p.length 1)) (.ofList p)

/-- `src/sharing/mod.rs:139-170` `lagrange_coefficients`. -/
def lagrangeCoefficientsWith (indexes : List Nat) : Option (List F × F) := do
  let denominators ← A.invertScalars (indexes.map (lagrangeDenominator (F := F) indexes))
  let scale := (indexes.map fun index => ((index + 1 : Nat) : F)).foldl (fun acc value => acc * value) 1
  return (denominators, scale)

/-- `src/sharing/mod.rs:302-325` `Params::combine_shares`. -/
def Params.combineSharesWith (params : Params) (shares : List (Nat × VerifiableDecryption E)) :
    Option (Option (VerifiableDecryption E)) :=
  let taken := shares.take params.threshold
  let indexes := taken.map Prod.fst
  let shares := taken.map fun (_, share) => share.dhElement
  if shares.length < params.threshold then some none
  else do
    guard (indexes.all fun index => index < params.shares)
    let (denominators, scale) ← lagrangeCoefficientsWith A indexes
    let restoredValue ← A.multiMul (.ofList denominators) (.ofList shares)
    let dhElement := scale • restoredValue
    return some (VerifiableDecryption.fromElement dhElement)

namespace PublicKeySet
variable (B : Backend F E)

/-- `src/sharing/key_set.rs:60-78` `PublicKeySet::new`. -/
def newWith [DecidableEq F] (params : Params) (publicPolynomial : List E)
    (proofOfPossession : ProofOfPossession F) : Option (Except SharingError (PublicKeySet E)) := do
  match ← validate B params publicPolynomial proofOfPossession with
  | .error e => return .error e
  | .ok () =>
    let sharedKey ← PublicKey.fromElement B (← PublicPolynomial.valueAtZero publicPolynomial)
    let participantKeys ← (List.range params.shares).mapM fun idx => do
      PublicKey.fromElement B (← PublicPolynomial.valueAtWith A publicPolynomial ((idx + 1 : Nat) : F))
    return .ok { params, sharedKey, participantKeys }

/-- `src/sharing/key_set.rs:113-137`: see `checkKeys`. -/
def checkKeysWith [DecidableEq F] [DecidableEq E] (params : Params) (denominators inverses : List F)
    (startingKeys : Iter E) : Nat → List (PublicKey E) → Option (Except SharingError Unit)
  | _, [] => some (.ok ())
  | x, key :: rest => do
    let indexes := List.range params.threshold
    let keyScale := (indexes.map fun idx => ((x - idx : Nat) : F)).foldl (fun acc value => acc * value) 1
    let keyDenominators ← denominators.zipIdx.mapM fun (d, idx) => do
      let inverse ← inverses[x - idx - 1]?
      return d * ((idx + 1 : Nat) : F) * inverse
    let keyScale := if params.threshold % 2 = 0 then -keyScale else keyScale
    let interpolatedKey ← A.multiMul (.ofList keyDenominators) startingKeys
    let interpolatedKey := keyScale • interpolatedKey
    if interpolatedKey ≠ key.element then return .error .MalformedParticipantKeys
    else checkKeysWith params denominators inverses startingKeys (x + 1) rest

/-- `src/sharing/key_set.rs:87-144` `PublicKeySet::from_participants`. -/
def fromParticipantsWith [DecidableEq F] [DecidableEq E] (params : Params)
    (participantKeys : List (PublicKey E)) : Option (Except SharingError (PublicKeySet E)) :=
  if params.shares ≠ participantKeys.length then some (.error .ParticipantCountMismatch)
  else do
    let indexes := List.range params.threshold
    let (denominators, scale) ← lagrangeCoefficientsWith A indexes
    let startingKeys := ((Iter.ofList participantKeys).map (·.element)).take params.threshold
    let sharedKey ← A.multiMul (.ofList denominators) startingKeys
    let sharedKey ← PublicKey.fromElement B (scale • sharedKey)
    let inverses ← A.invertScalars ((List.range' 1 params.shares).map fun (i : Nat) => (i : F))
    match ← checkKeysWith A params denominators inverses startingKeys params.threshold
      (participantKeys.drop params.threshold) with
    | .error e => return .error e
    | .ok () => return .ok { params, sharedKey, participantKeys }

end PublicKeySet

namespace SumOfSquaresProof
variable (B : Backend F E)

/-- `src/proofs/mul.rs:107-181` `SumOfSquaresProof::new`; the ciphertexts are collected into a vector first. -/
def newWith (ciphertexts : Iter (CiphertextWithValue F E))
    (sumOfSquaresCiphertext : CiphertextWithValue F E) (receiver : PublicKey E) (t : Transcript)
    (rng : B.Rng) : Option (SumOfSquaresProof F × Transcript × B.Rng) := do
  let t := initializeTranscript t receiver
  let (sumScalar, rng) := SecretKey.generate B rng
  let sumRandomScalar := sumOfSquaresCiphertext.randomness
  let (partialScalars, sumRandomScalar, t, rng) ←
    commitLoop B receiver ciphertexts.items sumRandomScalar t rng
  let scalars := ((Iter.ofList partialScalars).map fun (_, _, valueScalar) => valueScalar).chain (.ofList [sumScalar])
  let randomSumCommitment ← A.multiMul scalars
    (((Iter.ofList partialScalars).map fun (ciphertext, _) => ciphertext.ciphertext.random).chain (.ofList [B.gen]))
  let valueSumCommitment ← A.multiMul scalars
    (((Iter.ofList partialScalars).map fun (ciphertext, _) => ciphertext.ciphertext.blinded).chain
      (.ofList [receiver.element]))
  let t ← B.appendElement t "R_z" sumOfSquaresCiphertext.ciphertext.random
  let t ← B.appendElement t "Z" sumOfSquaresCiphertext.ciphertext.blinded
  let t ← B.appendElement t "[e_x]R_x + [e_z]G" randomSumCommitment
  let t ← B.appendElement t "[e_x]X + [e_z]K" valueSumCommitment
  let (challenge, t) := B.challengeScalar t "c"
  let ciphertextResponses := partialScalars.flatMap fun (ciphertext, randomScalar, valueScalar) =>
    [challenge * ciphertext.randomness + randomScalar, challenge * ciphertext.value + valueScalar]
  let sumResponse := challenge * sumRandomScalar + sumScalar
  return ({ challenge, ciphertextResponses, sumResponse }, t, rng)

/-- `src/proofs/mul.rs:190-260` `SumOfSquaresProof::verify`; products of three arrays of fixed sizes are as in
`verifyLoop`. -/
def verifyWith [DecidableEq F] (proof : SumOfSquaresProof F) (ciphertexts : Iter (Ciphertext E))
    (sumOfSquaresCiphertext : Ciphertext E) (receiver : PublicKey E) (t : Transcript) :
    Option (Except VerificationError Unit × Transcript) :=
  let ciphertextsCount := ciphertexts.items.length
  match VerificationError.checkLengths "ciphertext responses" proof.ciphertextResponses.length
    (ciphertextsCount * 2) with
  | .error e => some (.error e, t)
  | .ok () => do
    let t := initializeTranscript t receiver
    let negChallenge := -proof.challenge
    let t ← verifyLoop B receiver proof.challenge negChallenge
      ((chunks 2 proof.ciphertextResponses).zip ciphertexts.items) t
    let scalars := (Iter.oddItems proof.ciphertextResponses).chain (.ofList [proof.sumResponse, negChallenge])
    let randomSumCommitment ← A.multiMul scalars
      ((ciphertexts.map (·.random)).chain (.ofList [B.gen, sumOfSquaresCiphertext.random]))
    let valueSumCommitment ← A.multiMul scalars
      ((ciphertexts.map (·.blinded)).chain (.ofList [receiver.element, sumOfSquaresCiphertext.blinded]))
    let t ← B.appendElement t "R_z" sumOfSquaresCiphertext.random
    let t ← B.appendElement t "Z" sumOfSquaresCiphertext.blinded
    let t ← B.appendElement t "[e_x]R_x + [e_z]G" randomSumCommitment
    let t ← B.appendElement t "[e_x]X + [e_z]K" valueSumCommitment
    let (expectedChallenge, t) := B.challengeScalar t "c"
    return (checkChallenge expectedChallenge proof.challenge, t)

end SumOfSquaresProof

end ElasticElgamal
