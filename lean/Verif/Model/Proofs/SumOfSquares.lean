import Verif.Model.Proofs.Common

/-!
# Sum of squares proofs

Models `src/proofs/mul.rs`.
-/

set_option autoImplicit false

namespace ElasticElgamal

variable {F E : Type}

/-- `src/proofs/mul.rs:267-270` `OddItems`: an iterator (here: the list of remaining items) and a flag. -/
structure OddItems (α : Type) where
  iter : List α
  ended : Bool
  deriving DecidableEq

namespace OddItems
variable {α : Type}

/-- `Iterator::next` of the wrapped slice iterator. -/
def iterNext : List α → Option α × List α
  | [] => (none, [])
  | x :: xs => (some x, xs)

/-- `src/proofs/mul.rs:273-275` `OddItems::new`. -/
def new (iter : List α) : OddItems α := { iter, ended := false }

/-- `src/proofs/mul.rs:281-293` `OddItems::next`. -/
def next (it : OddItems α) : Option α × OddItems α :=
  if it.ended then (none, it)
  else
    let (skipped, iter) := iterNext it.iter
    let it : OddItems α := { iter, ended := skipped.isNone }
    if it.ended then (none, it)
    else
      let (item, iter) := iterNext it.iter
      (item, { iter, ended := item.isNone })

/-- `src/proofs/mul.rs:295-298` `OddItems::size_hint`; the wrapped slice iterator reports its exact
remaining length as both bounds. -/
def sizeHint (it : OddItems α) : Nat × Option Nat :=
  let (min, max) := (it.iter.length, some it.iter.length)
  (min / 2, max.map (· / 2))

/-- Draining the iterator (`Iterator::collect`), with a bound on the number of `next` calls. -/
def collectFuel : Nat → OddItems α → List α
  | 0, _ => []
  | fuel + 1, it =>
    match it.next with
    | (none, _) => []
    | (some x, it) => x :: collectFuel fuel it

/-- Draining the iterator; every `next` that yields an item consumes at least one wrapped item, so
`length + 1` calls suffice. -/
def collect (it : OddItems α) : List α := collectFuel (it.iter.length + 1) it

end OddItems

/-- `src/proofs/mul.rs:86-93` `SumOfSquaresProof`. -/
@[ext] structure SumOfSquaresProof (F : Type) where
  challenge : F
  ciphertextResponses : List F
  sumResponse : F
  deriving DecidableEq

namespace SumOfSquaresProof

/-- `src/proofs/mul.rs:96-99` `initialize_transcript`. -/
def initializeTranscript (t : Transcript) (receiver : PublicKey E) : Transcript :=
  let t := t.startProof "sum_of_squares"
  t.appendElementBytes "K" receiver.bytes

variable [Field F] [AddCommGroup E] [Module F E] (B : Backend F E)

/-- `src/proofs/mul.rs:119-136`: the `map` over ciphertexts; threads the transcript, the RNG and the
running `sum_random_scalar`, returning `(ciphertext, random_scalar, value_scalar)` triples. -/
def commitLoop (receiver : PublicKey E) : List (CiphertextWithValue F E) → F → Transcript → B.Rng →
    Option (List (CiphertextWithValue F E × F × F) × F × Transcript × B.Rng)
  | [], sumRandomScalar, t, rng => some ([], sumRandomScalar, t, rng)
  | ciphertext :: rest, sumRandomScalar, t, rng => do
    let t ← B.appendElement t "R_x" ciphertext.ciphertext.random
    let t ← B.appendElement t "X" ciphertext.ciphertext.blinded
    let (randomScalar, rng) := SecretKey.generate B rng
    let randomCommitment := B.mulGen randomScalar
    let t ← B.appendElement t "[e_r]G" randomCommitment
    let (valueScalar, rng) := SecretKey.generate B rng
    let valueCommitment := B.mulGen valueScalar + randomScalar • receiver.element
    let t ← B.appendElement t "[e_x]G + [e_r]K" valueCommitment
    let negValue := -ciphertext.value
    let sumRandomScalar :=
      SecretKey.add sumRandomScalar (SecretKey.mul ciphertext.randomness negValue)
    let (partialScalars, sumRandomScalar, t, rng) ← commitLoop receiver rest sumRandomScalar t rng
    return ((ciphertext, randomScalar, valueScalar) :: partialScalars, sumRandomScalar, t, rng)

/-- `src/proofs/mul.rs:107-181` `SumOfSquaresProof::new`. -/
def new (ciphertexts : List (CiphertextWithValue F E))
    (sumOfSquaresCiphertext : CiphertextWithValue F E) (receiver : PublicKey E) (t : Transcript)
    (rng : B.Rng) : Option (SumOfSquaresProof F × Transcript × B.Rng) := do
  let t := initializeTranscript t receiver
  let (sumScalar, rng) := SecretKey.generate B rng
  let sumRandomScalar := sumOfSquaresCiphertext.randomness
  let (partialScalars, sumRandomScalar, t, rng) ←
    commitLoop B receiver ciphertexts sumRandomScalar t rng
  let scalars := partialScalars.map (fun (_, _, valueScalar) => valueScalar) ++ [sumScalar]
  let randomSumCommitment := Backend.multiMul scalars
    (partialScalars.map (fun (ciphertext, _) => ciphertext.ciphertext.random) ++ [B.gen])
  let valueSumCommitment := Backend.multiMul scalars
    (partialScalars.map (fun (ciphertext, _) => ciphertext.ciphertext.blinded) ++ [receiver.element])
  let t ← B.appendElement t "R_z" sumOfSquaresCiphertext.ciphertext.random
  let t ← B.appendElement t "Z" sumOfSquaresCiphertext.ciphertext.blinded
  let t ← B.appendElement t "[e_x]R_x + [e_z]G" randomSumCommitment
  let t ← B.appendElement t "[e_x]X + [e_z]K" valueSumCommitment
  let (challenge, t) := B.challengeScalar t "c"
  let ciphertextResponses := partialScalars.flatMap fun (ciphertext, randomScalar, valueScalar) =>
    [challenge * ciphertext.randomness + randomScalar, challenge * ciphertext.value + valueScalar]
  let sumResponse := challenge * sumRandomScalar + sumScalar
  return ({ challenge, ciphertextResponses, sumResponse }, t, rng)

/-- `src/proofs/mul.rs:207-230`: the verification loop over `chunks(2)` zipped with ciphertexts;
indexing a chunk out of bounds panics. -/
def verifyLoop (receiver : PublicKey E) (challenge negChallenge : F) :
    List (List F × Ciphertext E) → Transcript → Option Transcript
  | [], t => some t
  | (responseChunk, ciphertext) :: rest, t => do
    let t ← B.appendElement t "R_x" ciphertext.random
    let t ← B.appendElement t "X" ciphertext.blinded
    let rResponse ← responseChunk[0]?
    let vResponse ← responseChunk[1]?
    let randomCommitment := B.doubleMulGen (-challenge) ciphertext.random rResponse
    let t ← B.appendElement t "[e_r]G" randomCommitment
    let valueCommitment := Backend.multiMul [vResponse, rResponse, negChallenge]
      [B.gen, receiver.element, ciphertext.blinded]
    let t ← B.appendElement t "[e_x]G + [e_r]K" valueCommitment
    verifyLoop receiver challenge negChallenge rest t

/-- `src/proofs/mul.rs:190-260` `SumOfSquaresProof::verify`. -/
def verify [DecidableEq F] (proof : SumOfSquaresProof F) (ciphertexts : List (Ciphertext E))
    (sumOfSquaresCiphertext : Ciphertext E) (receiver : PublicKey E) (t : Transcript) :
    Option (Except VerificationError Unit × Transcript) :=
  let ciphertextsCount := ciphertexts.length
  match VerificationError.checkLengths "ciphertext responses" proof.ciphertextResponses.length
    (ciphertextsCount * 2) with
  | .error e => some (.error e, t)
  | .ok () => do
    let t := initializeTranscript t receiver
    let negChallenge := -proof.challenge
    let t ← verifyLoop B receiver proof.challenge negChallenge
      ((chunks 2 proof.ciphertextResponses).zip ciphertexts) t
    let scalars := (OddItems.new proof.ciphertextResponses).collect ++
      [proof.sumResponse, negChallenge]
    let randomSumCommitment := Backend.multiMul scalars
      (ciphertexts.map (·.random) ++ [B.gen, sumOfSquaresCiphertext.random])
    let valueSumCommitment := Backend.multiMul scalars
      (ciphertexts.map (·.blinded) ++ [receiver.element, sumOfSquaresCiphertext.blinded])
    let t ← B.appendElement t "R_z" sumOfSquaresCiphertext.random
    let t ← B.appendElement t "Z" sumOfSquaresCiphertext.blinded
    let t ← B.appendElement t "[e_x]R_x + [e_z]G" randomSumCommitment
    let t ← B.appendElement t "[e_x]X + [e_z]K" valueSumCommitment
    let (expectedChallenge, t) := B.challengeScalar t "c"
    return (checkChallenge expectedChallenge proof.challenge, t)

end SumOfSquaresProof

end ElasticElgamal
