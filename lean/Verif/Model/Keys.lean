import Verif.Model.Base

/-!
# Keys

Models `src/keys/mod.rs`.
-/

set_option autoImplicit false

namespace ElasticElgamal

variable {F E : Type}

/-- `src/keys/mod.rs:17` `SecretKey`: a thin wrapper around the scalar; modelled by the scalar itself
(for zeroization on drop see `Model/Drop.lean`). -/
abbrev SecretKey (F : Type) := F

/-- `src/keys/mod.rs:122-125` `PublicKey`: cached bytes and the decompressed element. -/
structure PublicKey (E : Type) where
  bytes : Bytes
  element : E
  deriving DecidableEq

/-- `src/keys/mod.rs:260-263` `Keypair`. -/
structure Keypair (F E : Type) where
  secret : SecretKey F
  publicKey : PublicKey E
  deriving DecidableEq

/-- `src/keys/mod.rs:208-215` `PublicKeyConversionError`. -/
inductive PublicKeyConversionError where
  | InvalidByteSize
  | InvalidGroupElement
  | IdentityKey
  deriving DecidableEq

namespace SecretKey

/-- `src/keys/mod.rs:52-54` `SecretKey::generate`. -/
def generate (B : Backend F E) (rng : B.Rng) : SecretKey F × B.Rng := B.genScalar rng

/-- `src/keys/mod.rs:58-63` `SecretKey::from_bytes`. -/
def fromBytes (B : Backend F E) (bytes : Bytes) : Option (SecretKey F) :=
  if bytes.length ≠ B.scalarSize then none else B.deScalar bytes

variable [Field F]

/-- `src/keys/mod.rs:71-83` `Add`, `AddAssign` for `SecretKey`. -/
def add (a b : SecretKey F) : SecretKey F := a + b

/-- `src/keys/mod.rs:85-97` `Sub`, `SubAssign` for `SecretKey`. -/
def sub (a b : SecretKey F) : SecretKey F := a - b

/-- `src/keys/mod.rs:99-113` `Mul<&Scalar>` for `SecretKey` and `&SecretKey`. -/
def mul (a : SecretKey F) (k : F) : SecretKey F := a * k

end SecretKey

namespace PublicKey

/-- `src/keys/mod.rs:161-176` `PublicKey::from_bytes`. -/
def fromBytes [Zero E] [DecidableEq E] (B : Backend F E) (bytes : Bytes) :
    Except PublicKeyConversionError (PublicKey E) :=
  if bytes.length ≠ B.elementSize then .error .InvalidByteSize
  else match B.deElem bytes with
    | none => .error .InvalidGroupElement
    | some element =>
      if element = 0 then .error .IdentityKey else .ok { bytes := bytes, element := element }

/-- `src/keys/mod.rs:178-185` `PublicKey::from_element`. -/
def fromElement (B : Backend F E) (element : E) : Option (PublicKey E) := do
  let elementBytes ← B.serElem element
  return { element := element, bytes := elementBytes }

/-- `src/keys/mod.rs:145-152` `PartialEq for PublicKey`: compares cached bytes only. -/
def eq (a b : PublicKey E) : Bool := decide (a.bytes = b.bytes)

variable [Field F] [AddCommGroup E] [Module F E] (B : Backend F E)

/-- `src/keys/mod.rs:198-203` `From<&SecretKey> for PublicKey`. -/
def ofSecret (secret : SecretKey F) : Option (PublicKey E) := fromElement B (B.mulGen secret)

/-- `src/keys/mod.rs:232-239` `Add for PublicKey`. -/
def add (a b : PublicKey E) : Option (PublicKey E) := fromElement B (a.element + b.element)

/-- `src/keys/mod.rs:241-248` `Mul<&Scalar> for PublicKey`. -/
def mul (a : PublicKey E) (k : F) : Option (PublicKey E) := fromElement B (k • a.element)

/-- `src/keys/mod.rs:250-256` `Mul<u64> for PublicKey`. -/
def mulU64 (a : PublicKey E) (k : Nat) : Option (PublicKey E) := mul B a (k : F)

end PublicKey

namespace Keypair

variable [Field F] [AddCommGroup E] [Module F E] (B : Backend F E)

/-- `src/keys/mod.rs:285-291` `Keypair::generate`. -/
def generate (rng : B.Rng) : Option (Keypair F E × B.Rng) := do
  let (secret, rng) := SecretKey.generate B rng
  let publicKey ← PublicKey.ofSecret B secret
  return ({ secret, publicKey }, rng)

/-- `src/keys/mod.rs:309-316` `From<SecretKey> for Keypair`. -/
def ofSecret (secret : SecretKey F) : Option (Keypair F E) := do
  let publicKey ← PublicKey.ofSecret B secret
  return { secret, publicKey }

/-- `src/keys/mod.rs:304-306` `Keypair::into_tuple`. -/
def intoTuple (kp : Keypair F E) : PublicKey E × SecretKey F := (kp.publicKey, kp.secret)

/-- `src/keys/mod.rs:318-327` `Mul<&Scalar> for Keypair`. -/
def mul (kp : Keypair F E) (k : F) : Option (Keypair F E) := do
  let publicKey ← PublicKey.mul B kp.publicKey k
  return { secret := SecretKey.mul kp.secret k, publicKey }

end Keypair

end ElasticElgamal
