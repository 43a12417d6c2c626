import Verif.Model.Serde
import Verif.Spec.Keys

/-!
# Specifications for serialization
-/

set_option autoImplicit false

namespace ElasticElgamal.Spec

variable {F E : Type} [Field F] [AddCommGroup E] [Module F E]

/-- A value survives a round trip: serialization does not panic and deserialization of its result returns
the same value. -/
def RoundTrips {α : Type} (ser : α → Option Data) (de : Data → Except DeError α) (x : α) : Prop :=
  ∃ d, ser x = some d ∧ de d = .ok x

/-- Same for types whose deserialization may panic. -/
def RoundTripsP {α : Type} (ser : α → Option Data) (de : Data → Option (Except DeError α)) (x : α) : Prop :=
  ∃ d, ser x = some d ∧ de d = some (.ok x)

/-- The group element has an encoding: any element of Ristretto and Curve25519, any but the identity for
SEC1 encodings. -/
def Encodable (B : Backend F E) (e : E) : Prop := ∃ b, B.serElem e = some b

/-- Both elements of a ciphertext have encodings. -/
def EncodableCt (B : Backend F E) (c : Ciphertext E) : Prop := Encodable B c.random ∧ Encodable B c.blinded

/-- A public key which is not the identity and whose cached bytes are its encoding. -/
def KeyOk (B : Backend F E) (key : PublicKey E) : Prop :=
  key.element ≠ 0 ∧ B.serElem key.element = some key.bytes

/-- A range proof that can be serialized: at least two ring responses. -/
def RangeOk (B : Backend F E) (p : RangeProof F E) : Prop :=
  (∀ c ∈ p.partialCiphertexts, EncodableCt B c) ∧ 2 ≤ p.inner.ringResponses.length

/-- A quadratic voting ballot that can be serialized. -/
def BallotOk (B : Backend F E) (b : QuadraticVotingBallot F E) : Prop :=
  (∀ v ∈ b.votes, EncodableCt B v.ciphertext ∧ RangeOk B v.rangeProof) ∧
  EncodableCt B b.credit.ciphertext ∧ RangeOk B b.credit.rangeProof ∧
  2 ≤ b.creditEquivalenceProof.ciphertextResponses.length

/-- Both parameters are `usize` values. -/
def ParamsFit (p : Params) : Prop := p.shares < 2 ^ 64 ∧ p.threshold < 2 ^ 64

/-- A dealer that can be serialized. -/
def DealerOk (B : Backend F E) (d : Dealer F E) : Prop :=
  ParamsFit d.params ∧ (∀ kp ∈ d.polynomial, KeyOf B kp.publicKey kp.secret) ∧
  1 ≤ d.proofOfPossession.responses.length

/-- A polynomial that can be serialized. -/
def PolynomialOk (B : Backend F E) (p : List E) : Prop := 1 ≤ p.length ∧ ∀ e ∈ p, Encodable B e

/-- The datum carries these bytes: base64url text in human-readable formats, or raw bytes. -/
def Carries (fmt : Format) (d : Data) (b : Bytes) : Prop :=
  d = .bytes b ∨ fmt.humanReadable = true ∧ ∃ s, d = .str s ∧ fmt.decode s = some b

end ElasticElgamal.Spec
