import Verif.Model.Dkg

/-!
# Destructors of types that hold secrets

`T.drop x` is what the storage of the value `x` contains after its destructor has run: `Drop::drop` of the type, if there is
one, and the destructors of all fields. Fields without destructors keep their contents.

Not modelled: bytes left behind when values are moved, arguments and intermediate results of functions, and
whether the compiler keeps the writes. Buffers of vectors: see `Verif/Model/DropVec.lean`. `zeroize` of the dependencies writes
zeros: the number 0, or 0 for each byte.
-/

set_option autoImplicit false

namespace ElasticElgamal

variable {F E : Type} [Field F]

/-- `src/keys/mod.rs:34-38` `Zeroize for SecretKey`. -/
def SecretKey.zeroize (_ : SecretKey F) : SecretKey F := 0

/-- `src/keys/mod.rs:40-44` `Drop for SecretKey`. -/
def SecretKey.drop (secret : SecretKey F) : SecretKey F := SecretKey.zeroize secret

/-- `src/keys/mod.rs:260-263` `Keypair`: no `Drop`, so that the fields are dropped. -/
def Keypair.drop (keypair : Keypair F E) : Keypair F E := { keypair with secret := SecretKey.drop keypair.secret }

/-- `src/encryption.rs:303-306` `ExtendedCiphertext`. -/
def ExtendedCiphertext.drop (ct : ExtendedCiphertext F E) : ExtendedCiphertext F E :=
  { ct with randomScalar := SecretKey.drop ct.randomScalar }

/-- `src/encryption.rs:383-386` `CiphertextWithValue`; `zeroize` is that of `V`, called by the destructor of
`Zeroizing<V>`. -/
def CiphertextWithValue.drop {V : Type} (zeroize : V → V) (ct : CiphertextWithValue F E V) : CiphertextWithValue F E V :=
  { inner := ct.inner.drop, value := zeroize ct.value }

/-- `zeroize` of scalars. -/
def zeroizeScalar (_ : F) : F := 0

/-- `zeroize` of `u64`. -/
def zeroizeNat (_ : Nat) : Nat := 0

/-- `src/dkg.rs:181` `Opening(Zeroizing<[u8; 32]>)`. -/
def dropOpening (opening : Bytes) : Bytes := opening.map fun _ => 0

/-- `src/sharing/participant.rs:27-31` `Dealer`. -/
def Dealer.drop (dealer : Dealer F E) : Dealer F E := { dealer with polynomial := dealer.polynomial.map Keypair.drop }

/-- `src/sharing/participant.rs:91-95` `ActiveParticipant`. -/
def ActiveParticipant.drop (p : ActiveParticipant F E) : ActiveParticipant F E :=
  { p with secretShare := SecretKey.drop p.secretShare }

/-- `src/dkg.rs:190-196` `ParticipantCollectingCommitments`. -/
def CollectingCommitments.drop (p : CollectingCommitments F E) : CollectingCommitments F E :=
  { p with dealer := p.dealer.drop, opening := dropOpening p.opening }

/-- `src/dkg.rs:326-333` `ParticipantCollectingPolynomials`. -/
def CollectingPolynomials.drop (p : CollectingPolynomials F E) : CollectingPolynomials F E :=
  { p with dealer := p.dealer.drop, opening := dropOpening p.opening }

/-- `src/dkg.rs:430-437` `ParticipantExchangingSecrets`. -/
def ExchangingSecrets.drop (p : ExchangingSecrets F E) : ExchangingSecrets F E :=
  { p with dealer := p.dealer.drop, accumulatedShare := SecretKey.drop p.accumulatedShare }

/-- `src/proofs/ring.rs:22-37` `Ring`: `value_index` is an integer without destructor. The responses are borrowed. -/
def Ring.drop (ring : Ring F E) : Ring F E :=
  { ring with discreteLog := SecretKey.drop ring.discreteLog, randomScalar := SecretKey.drop ring.randomScalar }

/-- `src/proofs/ring.rs:421-427` `RingProofBuilder`: everything but the rings is borrowed. -/
def RingProofBuilder.drop {B : Backend F E} (b : RingProofBuilder B) : RingProofBuilder B :=
  { b with rings := b.rings.map Ring.drop }

end ElasticElgamal
