import Verif.Model.Keys

/-!
# Ciphertexts, discrete log tables, encryption and decryption

Models `src/encryption.rs` and the non-proof part of `src/keys/impls.rs`.
-/

set_option autoImplicit false

namespace ElasticElgamal

variable {F E : Type}

/-- `src/encryption.rs:96-101` `Ciphertext`. -/
@[ext] structure Ciphertext (E : Type) where
  random : E
  blinded : E
  deriving DecidableEq

namespace Ciphertext

section
variable [Field F] [AddCommGroup E] [Module F E]

/-- `src/encryption.rs:115-120` `Ciphertext::from_elements`. -/
def fromElements (random blinded : E) : Ciphertext E := ⟨random, blinded⟩

/-- `src/encryption.rs:123-128` `Ciphertext::zero`. -/
def zero : Ciphertext E := ⟨0, 0⟩

/-- `src/encryption.rs:132-141` `Ciphertext::non_blinded`. -/
def nonBlinded (B : Backend F E) (value : F) : Ciphertext E := ⟨0, B.mulGen value⟩

/-- `src/encryption.rs:163-178` `Add`, `AddAssign for Ciphertext`. -/
def add (a b : Ciphertext E) : Ciphertext E := ⟨a.random + b.random, a.blinded + b.blinded⟩

/-- `src/encryption.rs:180-195` `Sub`, `SubAssign for Ciphertext`. -/
def sub (a b : Ciphertext E) : Ciphertext E := ⟨a.random - b.random, a.blinded - b.blinded⟩

/-- `src/encryption.rs:197-206` `Mul<&Scalar> for Ciphertext`. -/
def mul (a : Ciphertext E) (k : F) : Ciphertext E := ⟨k • a.random, k • a.blinded⟩

/-- `src/encryption.rs:208-215` `Mul<u64> for Ciphertext`; the scalar type is explicit. -/
def mulU64 (F : Type) [Field F] [Module F E] (a : Ciphertext E) (k : Nat) : Ciphertext E :=
  mul a (k : F)

/-- `src/encryption.rs:217-226` `Neg for Ciphertext`. -/
def neg (a : Ciphertext E) : Ciphertext E := ⟨-a.random, -a.blinded⟩

end

/-- `src/encryption.rs:155-160` `Ciphertext::to_bytes`. -/
def toBytes (B : Backend F E) (a : Ciphertext E) : Option Bytes := do
  let r ← B.serElem a.random
  let b ← B.serElem a.blinded
  return r ++ b

end Ciphertext

/-- `src/encryption.rs:303-306` `ExtendedCiphertext`. -/
structure ExtendedCiphertext (F E : Type) where
  inner : Ciphertext E
  randomScalar : SecretKey F
  deriving DecidableEq

/-- `src/encryption.rs:383-386` `CiphertextWithValue<G, V>`. The code uses `V = Scalar` (here `F`, the
default) and `V = u64` (here `Nat`). -/
structure CiphertextWithValue (F E : Type) (V : Type := F) where
  inner : ExtendedCiphertext F E
  value : V
  deriving DecidableEq

section
variable [Field F] [AddCommGroup E] [Module F E]

namespace ExtendedCiphertext

/-- `src/encryption.rs:310-327` `ExtendedCiphertext::new`. -/
def new (B : Backend F E) (value : E) (receiver : PublicKey E) (rng : B.Rng) :
    ExtendedCiphertext F E × B.Rng :=
  let (randomScalar, rng) := SecretKey.generate B rng
  let randomElement := B.mulGen randomScalar
  let dhElement := randomScalar • receiver.element
  let blindedElement := value + dhElement
  ({ inner := ⟨randomElement, blindedElement⟩, randomScalar }, rng)

/-- `src/encryption.rs:329-334` `ExtendedCiphertext::zero`. -/
def zero : ExtendedCiphertext F E := { inner := Ciphertext.zero, randomScalar := ((0 : Nat) : F) }

/-- `src/encryption.rs:348-364` `Add`, `AddAssign for ExtendedCiphertext`. -/
def add (a b : ExtendedCiphertext F E) : ExtendedCiphertext F E :=
  { inner := a.inner.add b.inner, randomScalar := SecretKey.add a.randomScalar b.randomScalar }

/-- `src/encryption.rs:366-375` `Sub for ExtendedCiphertext`. -/
def sub (a b : ExtendedCiphertext F E) : ExtendedCiphertext F E :=
  { inner := a.inner.sub b.inner, randomScalar := SecretKey.sub a.randomScalar b.randomScalar }

/-- `src/encryption.rs:336-345` `ExtendedCiphertext::with_value`. -/
def withValue {V : Type} (a : ExtendedCiphertext F E) (value : V) : CiphertextWithValue F E V :=
  { inner := a, value }

end ExtendedCiphertext

namespace CiphertextWithValue

/-- `src/encryption.rs:403-407` `CiphertextWithValue::new` for `V = Scalar`. -/
def new (B : Backend F E) (value : F) (receiver : PublicKey E) (rng : B.Rng) :
    CiphertextWithValue F E × B.Rng :=
  let element := B.mulGen value
  let (ct, rng) := ExtendedCiphertext.new B element receiver rng
  (ct.withValue value, rng)

/-- `src/encryption.rs:403-407` `CiphertextWithValue::new` for `V = u64`. -/
def newU64 (B : Backend F E) (value : Nat) (receiver : PublicKey E) (rng : B.Rng) :
    CiphertextWithValue F E Nat × B.Rng :=
  let element := B.mulGen (value : F)
  let (ct, rng) := ExtendedCiphertext.new B element receiver rng
  (ct.withValue value, rng)

/-- `src/encryption.rs:410-415` `CiphertextWithValue::generalize` for `V = u64`. -/
def generalize (a : CiphertextWithValue F E Nat) : CiphertextWithValue F E :=
  { inner := a.inner, value := (a.value : F) }

variable {V : Type}

/-- `src/encryption.rs:424-426` `CiphertextWithValue::inner` (also `From<..> for Ciphertext`, 388-392). -/
def ciphertext (a : CiphertextWithValue F E V) : Ciphertext E := a.inner.inner

/-- `src/encryption.rs:432-434` `CiphertextWithValue::randomness`. -/
def randomness (a : CiphertextWithValue F E V) : SecretKey F := a.inner.randomScalar

end CiphertextWithValue

namespace PublicKey

/-- `src/keys/impls.rs:16-23` `PublicKey::encrypt` (for `T = Scalar`; for `T = u64` apply the cast). -/
def encrypt (B : Backend F E) (receiver : PublicKey E) (value : F) (rng : B.Rng) :
    Ciphertext E × B.Rng :=
  let element := B.mulGen value
  let (ct, rng) := ExtendedCiphertext.new B element receiver rng
  (ct.inner, rng)

/-- `src/keys/impls.rs:26-28` `PublicKey::encrypt_element`. -/
def encryptElement (B : Backend F E) (receiver : PublicKey E) (value : E) (rng : B.Rng) :
    Ciphertext E × B.Rng :=
  let (ct, rng) := ExtendedCiphertext.new B value receiver rng
  (ct.inner, rng)

end PublicKey

namespace SecretKey

/-- `src/keys/impls.rs:160-163` `SecretKey::decrypt_to_element`. -/
def decryptToElement (secret : SecretKey F) (encrypted : Ciphertext E) : E :=
  let dhElement := secret • encrypted.random
  encrypted.blinded - dhElement

end SecretKey

end

/-- `src/encryption.rs:260-263` `DiscreteLogTable`. The `HashMap<Vec<u8>, u64>` is modelled by the
list of inserted pairs, most recent first; `HashMap::get` is lookup of the most recent insertion. -/
structure DiscreteLogTable where
  inner : List (Bytes × Nat)
  deriving DecidableEq

namespace DiscreteLogTable

variable [Field F] [AddCommGroup E] [Module F E]

/-- `src/encryption.rs:267-283` `DiscreteLogTable::new`. -/
def new (B : Backend F E) (values : List Nat) : Option DiscreteLogTable := do
  let pairs ← (values.filter (fun value => decide (value ≠ 0))).mapM fun (i : Nat) => do
    let bytes ← B.serElem (B.mulGen (i : F))
    return (bytes, i)
  -- `collect()` inserts the pairs in order, later insertions replace earlier ones
  return ⟨pairs.foldl (fun table kv => kv :: table) []⟩

/-- `src/encryption.rs:287-297` `DiscreteLogTable::get`. Outer `none` = panic. -/
def get [DecidableEq E] (B : Backend F E) (table : DiscreteLogTable) (e : E) : Option (Option Nat) :=
  if e = 0 then some (some 0)
  else do
    let bytes ← B.serElem e
    return table.inner.lookup bytes

end DiscreteLogTable

/-- `src/keys/impls.rs:170-176` `SecretKey::decrypt`. -/
def SecretKey.decrypt [Field F] [AddCommGroup E] [Module F E] [DecidableEq E] (B : Backend F E)
    (secret : SecretKey F) (encrypted : Ciphertext E) (table : DiscreteLogTable) :
    Option (Option Nat) :=
  table.get B (SecretKey.decryptToElement secret encrypted)

end ElasticElgamal
