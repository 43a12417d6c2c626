import Verif.Model.Proofs.LogEquality
import Verif.Model.Proofs.Ring

/-!
# Encrypted choices

Models `src/app/choice.rs`.
-/

set_option autoImplicit false

namespace ElasticElgamal

variable {F E : Type}

/-- The two implementors of `ProveSum` (`src/app/choice.rs:21-44`, sealed trait): `SingleChoice`
(`src/app/choice.rs:52`) and `MultiChoice` (`src/app/choice.rs:104`). -/
inductive ChoiceKind where
  | single
  | multi
  deriving DecidableEq

/-- `ProveSum::Proof`: `LogEqualityProof` for `SingleChoice` (`src/app/choice.rs:57`), `()` for
`MultiChoice` (`src/app/choice.rs:109`). -/
def SumProof (F : Type) : ChoiceKind → Type
  | .single => LogEqualityProof F
  | .multi => Unit

/-- `src/app/choice.rs:407-419` `ChoiceVerificationError`. -/
inductive ChoiceVerificationError where
  | OptionsLenMismatch (expected actual : Nat)
  | Sum (e : VerificationError)
  | Range (e : VerificationError)
  deriving DecidableEq

/-- `src/app/choice.rs:132-136` `ChoiceParams`; the type parameter `S` is `kind`. -/
structure ChoiceParams (E : Type) (kind : ChoiceKind) where
  optionsCount : Nat
  receiver : PublicKey E

namespace ChoiceParams

/-- `src/app/choice.rs:177-184` `ChoiceParams::single`. -/
def single (receiver : PublicKey E) (optionsCount : Nat) : Option (ChoiceParams E .single) := do
  guard (optionsCount > 0)
  return { optionsCount, receiver }

/-- `src/app/choice.rs:193-200` `ChoiceParams::multi`. -/
def multi (receiver : PublicKey E) (optionsCount : Nat) : Option (ChoiceParams E .multi) := do
  guard (optionsCount > 0)
  return { optionsCount, receiver }

/-- `src/app/choice.rs:149-158` `check_options_count`. -/
def checkOptionsCount {kind : ChoiceKind} (params : ChoiceParams E kind) (actualCount : Nat) :
    Except ChoiceVerificationError Unit :=
  if params.optionsCount = actualCount then .ok ()
  else .error (.OptionsLenMismatch params.optionsCount actualCount)

end ChoiceParams

section
variable [Field F] [AddCommGroup E] [Module F E] (B : Backend F E)

namespace SumProof

/-- `ProveSum::prove`: `src/app/choice.rs:59-75` for `SingleChoice`, `src/app/choice.rs:111-118` for
`MultiChoice`. -/
def prove : (kind : ChoiceKind) → CiphertextWithValue F E Nat → PublicKey E → B.Rng →
    Option (SumProof F kind × B.Rng)
  | .single, ciphertext, receiver, rng => do
    let (proof, _, rng) ← LogEqualityProof.new B receiver ciphertext.randomness
      (ciphertext.ciphertext.random, ciphertext.ciphertext.blinded - B.gen)
      (Transcript.new "choice_encryption_sum") rng
    return (proof, rng)
  | .multi, _, _, rng => some ((), rng)

/-- `ProveSum::verify`: `src/app/choice.rs:77-94` for `SingleChoice`, `src/app/choice.rs:120-127` for
`MultiChoice`. -/
def verify [DecidableEq F] : (kind : ChoiceKind) → Ciphertext E → SumProof F kind → PublicKey E →
    Option (Except ChoiceVerificationError Unit)
  | .single, ciphertext, proof, receiver => do
    let powers := (ciphertext.random, ciphertext.blinded - B.gen)
    let (result, _) ← LogEqualityProof.verify B proof receiver powers
      (Transcript.new "choice_encryption_sum")
    return result.mapError .Sum
  | .multi, _, _, _ => some (.ok ())

end SumProof

/-- Rust `Iterator::reduce` followed by `unwrap()`: `none` for an empty iterator. -/
def reduce {α : Type} (f : α → α → α) : List α → Option α
  | [] => none
  | x :: xs => some (xs.foldl f x)

/-- `src/app/choice.rs:276-280` `EncryptedChoice`. -/
structure EncryptedChoice (F E : Type) (kind : ChoiceKind) where
  choices : List (Ciphertext E)
  rangeProof : RingProof F
  sumProof : SumProof F kind

namespace EncryptedChoice

/-- `src/app/choice.rs:333-336`: the `map` adding a ring per option. -/
def addChoices [DecidableEq E] (admissibleValues : List E) : List Bool → RingProofBuilder B →
    Option (List (ExtendedCiphertext F E) × RingProofBuilder B)
  | [], builder => some ([], builder)
  | flag :: rest, builder => do
    let (ciphertext, builder) ← builder.addValue B admissibleValues (if flag then 1 else 0)
    let (ciphertexts, builder) ← addChoices admissibleValues rest builder
    return (ciphertext :: ciphertexts, builder)

/-- `src/app/choice.rs:313-349` `EncryptedChoice::new`. Simplification: the `u64` sum of flags cannot
overflow since a slice has fewer than `2^64` items, hence it is a plain count. -/
def new [DecidableEq F] [DecidableEq E] {kind : ChoiceKind} (params : ChoiceParams E kind)
    (choices : List Bool) (rng : B.Rng) : Option (EncryptedChoice F E kind × B.Rng) := do
  guard (choices ≠ [])
  guard (choices.length = params.optionsCount)
  let admissibleValues : List E := [0, B.gen]
  let ringResponses : List F := List.replicate (2 * params.optionsCount) 0
  let t := Transcript.new "encrypted_choice_ranges"
  let builder := RingProofBuilder.new B params.receiver ringResponses t rng
  let sum := (choices.map fun flag => if flag then 1 else 0).sum
  let (choices, builder) ← addChoices B admissibleValues choices builder
  let (commonChallenge, ringResponses, _, rng) ← builder.build B
  let rangeProof : RingProof F := { commonChallenge, ringResponses }
  let sumCiphertext ← reduce ExtendedCiphertext.add choices
  let sumCiphertext : CiphertextWithValue F E Nat := sumCiphertext.withValue sum
  let (sumProof, rng) ← SumProof.prove B kind sumCiphertext params.receiver rng
  return ({ choices := choices.map (·.inner), rangeProof, sumProof }, rng)

/-- `src/app/choice.rs:288-300` `EncryptedChoice::single`. -/
def single [DecidableEq F] [DecidableEq E] (params : ChoiceParams E .single) (choice : Nat)
    (rng : B.Rng) : Option (EncryptedChoice F E .single × B.Rng) := do
  guard (choice < params.optionsCount)
  let choices := (List.range params.optionsCount).map fun i => decide (choice = i)
  new B params choices rng

/-- `src/app/choice.rs:358-380` `EncryptedChoice::verify`. -/
def verify [DecidableEq F] {kind : ChoiceKind} (self : EncryptedChoice F E kind)
    (params : ChoiceParams E kind) :
    Option (Except ChoiceVerificationError (List (Ciphertext E))) :=
  match params.checkOptionsCount self.choices.length with
  | .error e => some (.error e)
  | .ok () => do
    let sumOfCiphertexts ← reduce Ciphertext.add self.choices
    match ← SumProof.verify B kind sumOfCiphertexts self.sumProof params.receiver with
    | .error e => return .error e
    | .ok () =>
      let admissibleValues : List E := [0, B.gen]
      let (result, _) ← self.rangeProof.verify B params.receiver
        (List.replicate self.choices.length admissibleValues) self.choices
        (Transcript.new "encrypted_choice_ranges")
      return (result.map fun _ => self.choices).mapError .Range

/-- `src/app/choice.rs:384-386` `EncryptedChoice::len`. -/
def len {kind : ChoiceKind} (self : EncryptedChoice F E kind) : Nat := self.choices.length

end EncryptedChoice

end

end ElasticElgamal
