import Verif.Model.Proofs.LogEquality

/-!
# Verifiable decryption

Models `src/decryption.rs`.
-/

set_option autoImplicit false

namespace ElasticElgamal

variable {F E : Type}

/-- `src/decryption.rs:75-78` `VerifiableDecryption`. -/
@[ext] structure VerifiableDecryption (E : Type) where
  dhElement : E
  deriving DecidableEq

/-- `src/decryption.rs:162-164` `CandidateDecryption`. -/
@[ext] structure CandidateDecryption (E : Type) where
  inner : VerifiableDecryption E
  deriving DecidableEq

namespace VerifiableDecryption

section
variable [Field F] [AddCommGroup E] [Module F E] (B : Backend F E)

/-- `src/decryption.rs:89-110` `VerifiableDecryption::new`. -/
def new (ciphertext : Ciphertext E) (keys : Keypair F E) (t : Transcript) (rng : B.Rng) :
    Option ((VerifiableDecryption E × LogEqualityProof F) × Transcript × B.Rng) := do
  let t := t.startProof "decryption_with_custom_key"
  let dhElement := keys.secret • ciphertext.random
  let logBase ← PublicKey.fromElement B ciphertext.random
  let (proof, t, rng) ←
    LogEqualityProof.new B logBase keys.secret (keys.publicKey.element, dhElement) t rng
  return (({ dhElement }, proof), t, rng)

/-- `src/decryption.rs:129-131` `VerifiableDecryption::decrypt_to_element`. -/
def decryptToElement (decryption : VerifiableDecryption E) (encrypted : Ciphertext E) : E :=
  encrypted.blinded - decryption.dhElement

/-- `src/decryption.rs:138-144` `VerifiableDecryption::decrypt`. -/
def decrypt [DecidableEq E] (decryption : VerifiableDecryption E) (encrypted : Ciphertext E)
    (table : DiscreteLogTable) : Option (Option Nat) :=
  table.get B (decryption.decryptToElement encrypted)

end

/-- `src/decryption.rs:81-83` `VerifiableDecryption::from_element`. -/
def fromElement (dhElement : E) : VerifiableDecryption E := { dhElement }

/-- `src/decryption.rs:118-122` `VerifiableDecryption::to_bytes`. -/
def toBytes (B : Backend F E) (decryption : VerifiableDecryption E) : Option Bytes :=
  B.serElem decryption.dhElement

end VerifiableDecryption

namespace CandidateDecryption

/-- `src/decryption.rs:168-177` `CandidateDecryption::from_bytes`. -/
def fromBytes (B : Backend F E) (bytes : Bytes) : Option (CandidateDecryption E) :=
  if bytes.length = B.elementSize then do
    let dhElement ← B.deElem bytes
    return { inner := { dhElement } }
  else none

/-- `src/decryption.rs:210-212` `into_unchecked`. -/
def intoUnchecked (c : CandidateDecryption E) : VerifiableDecryption E := c.inner

/-- `src/decryption.rs:215-219` `From<VerifiableDecryption> for CandidateDecryption`. -/
def ofVerifiable (d : VerifiableDecryption E) : CandidateDecryption E := { inner := d }

variable [Field F] [AddCommGroup E] [Module F E] [DecidableEq F] (B : Backend F E)

/-- `src/decryption.rs:189-205` `CandidateDecryption::verify`. -/
def verify (c : CandidateDecryption E) (ciphertext : Ciphertext E) (key : PublicKey E)
    (proof : LogEqualityProof F) (t : Transcript) :
    Option (Except VerificationError (VerifiableDecryption E) × Transcript) := do
  let t := t.startProof "decryption_with_custom_key"
  let dhElement := c.inner.dhElement
  let logBase ← PublicKey.fromElement B ciphertext.random
  let (result, t) ← proof.verify B logBase (key.element, dhElement) t
  return (result.map (fun _ => c.inner), t)

end CandidateDecryption

end ElasticElgamal
