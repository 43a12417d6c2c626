import Verif.Spec.Serde

/-!
# Specifications: the wire format

`IsX … d x` says that the data `d` represent the value `x` of the type `X` of the crate. Structs are maps
with named fields, in any order and possibly with unknown fields in addition.
-/

set_option autoImplicit false

namespace ElasticElgamal.Spec

variable {F E : Type} [Field F] [AddCommGroup E] [Module F E]

/-- There is exactly one field with this name, and it contains `d`. -/
def OneField (fields : List (String × Data)) (name : String) (d : Data) : Prop :=
  ∃ pre post, fields = pre ++ (name, d) :: post ∧ ∀ f ∈ pre ++ post, f.1 ≠ name

/-- A map with (at least) the given fields, each exactly once. -/
def IsStruct (d : Data) (spec : List (String × (Data → Prop))) : Prop :=
  ∃ fields, d = .map fields ∧ ∀ s ∈ spec, ∃ x, OneField fields s.1 x ∧ s.2 x

/-- A map with exactly the given fields in the given order. -/
def HasFields (d : Data) (names : List String) : Prop := ∃ fields, d = .map fields ∧ fields.map (·.1) = names

/-- A sequence of at least `min` items. -/
def IsSeq {α : Type} (min : ℕ) (item : Data → α → Prop) (d : Data) (l : List α) : Prop :=
  min ≤ l.length ∧ ∃ items, d = .seq items ∧ List.Forall₂ item items l

/-- An optional value: null if it is absent. -/
def IsOption {α : Type} (item : Data → α → Prop) (d : Data) (x : Option α) : Prop :=
  match x with
  | none => d = .null
  | some x => d ≠ .null ∧ item d x

def IsScalar (B : Backend F E) (fmt : Format) (d : Data) (s : F) : Prop := Carries fmt d (B.serScalar s)

def IsElement (B : Backend F E) (fmt : Format) (d : Data) (e : E) : Prop :=
  ∃ b, Carries fmt d b ∧ b.length = B.elementSize ∧ B.deElem b = some e

def IsPublicKey (B : Backend F E) (fmt : Format) (d : Data) (key : PublicKey E) : Prop :=
  Carries fmt d key.bytes ∧ key.bytes.length = B.elementSize ∧ B.deElem key.bytes = some key.element ∧
    key.element ≠ 0

def IsKeypair (B : Backend F E) (fmt : Format) (d : Data) (kp : Keypair F E) : Prop :=
  Carries fmt d (B.serScalar kp.secret) ∧ KeyOf B kp.publicKey kp.secret

def IsOpening (fmt : Format) (d : Data) (b : Bytes) : Prop := Carries fmt d b ∧ b.length = 32

def IsHash (d : Data) (b : Bytes) : Prop := d = .seq (b.map fun x => .uint x.toNat) ∧ b.length = 32

def IsUsize (d : Data) (n : ℕ) : Prop := d = .uint n ∧ n < 2 ^ 64

def IsBool (d : Data) (b : Bool) : Prop := d = .bool b

def IsCiphertext (B : Backend F E) (fmt : Format) (d : Data) (c : Ciphertext E) : Prop :=
  IsStruct d [("random_element", (IsElement B fmt · c.random)), ("blinded_element", (IsElement B fmt · c.blinded))]

def IsCandidate (B : Backend F E) (fmt : Format) (d : Data) (c : CandidateDecryption E) : Prop :=
  IsStruct d [("dh_element", (IsElement B fmt · c.inner.dhElement))]

def IsLogEq (B : Backend F E) (fmt : Format) (d : Data) (p : LogEqualityProof F) : Prop :=
  IsStruct d [("challenge", (IsScalar B fmt · p.challenge)), ("response", (IsScalar B fmt · p.response))]

def IsPop (B : Backend F E) (fmt : Format) (d : Data) (p : ProofOfPossession F) : Prop :=
  IsStruct d [("challenge", (IsScalar B fmt · p.challenge)),
    ("responses", (IsSeq 1 (IsScalar B fmt) · p.responses))]

def IsCommitmentEq (B : Backend F E) (fmt : Format) (d : Data) (p : CommitmentEquivalenceProof F) : Prop :=
  IsStruct d [("challenge", (IsScalar B fmt · p.challenge)),
    ("randomness_response", (IsScalar B fmt · p.randomnessResponse)),
    ("value_response", (IsScalar B fmt · p.valueResponse)),
    ("commitment_response", (IsScalar B fmt · p.commitmentResponse))]

def IsSumOfSquares (B : Backend F E) (fmt : Format) (d : Data) (p : SumOfSquaresProof F) : Prop :=
  IsStruct d [("challenge", (IsScalar B fmt · p.challenge)),
    ("ciphertext_responses", (IsSeq 2 (IsScalar B fmt) · p.ciphertextResponses)),
    ("sum_response", (IsScalar B fmt · p.sumResponse))]

def IsRing (B : Backend F E) (fmt : Format) (d : Data) (p : RingProof F) : Prop :=
  IsStruct d [("common_challenge", (IsScalar B fmt · p.commonChallenge)),
    ("ring_responses", (IsSeq 2 (IsScalar B fmt) · p.ringResponses))]

/-- The fields of the ring proof are fields of the range proof. -/
def IsRange (B : Backend F E) (fmt : Format) (d : Data) (p : RangeProof F E) : Prop :=
  IsStruct d [("partial_ciphertexts", (IsSeq 0 (IsCiphertext B fmt) · p.partialCiphertexts)),
    ("common_challenge", (IsScalar B fmt.flattened · p.inner.commonChallenge)),
    ("ring_responses", (IsSeq 2 (IsScalar B fmt.flattened) · p.inner.ringResponses))]

/-- Ballots with several choices have no proof for the sum. -/
def IsChoice (B : Backend F E) (fmt : Format) : (kind : ChoiceKind) → Data → EncryptedChoice F E kind → Prop
  | .single, d, c => IsStruct d [("choices", (IsSeq 0 (IsCiphertext B fmt) · c.choices)),
      ("range_proof", (IsRing B fmt · c.rangeProof)), ("sum_proof", (IsLogEq B fmt · c.sumProof))]
  | .multi, d, c => IsStruct d [("choices", (IsSeq 0 (IsCiphertext B fmt) · c.choices)),
      ("range_proof", (IsRing B fmt · c.rangeProof)), ("sum_proof", (· = .null))]

def IsWithRange (B : Backend F E) (fmt : Format) (d : Data) (c : CiphertextWithRangeProof F E) : Prop :=
  IsStruct d [("ciphertext", (IsCiphertext B fmt · c.ciphertext)), ("range_proof", (IsRange B fmt · c.rangeProof))]

def IsBallot (B : Backend F E) (fmt : Format) (d : Data) (b : QuadraticVotingBallot F E) : Prop :=
  IsStruct d [("votes", (IsSeq 0 (IsWithRange B fmt) · b.votes)), ("credit", (IsWithRange B fmt · b.credit)),
    ("credit_equivalence_proof", (IsSumOfSquares B fmt · b.creditEquivalenceProof))]

def IsParams (d : Data) (p : Params) : Prop :=
  IsStruct d [("shares", (IsUsize · p.shares)), ("threshold", (IsUsize · p.threshold))]

def IsKeySet (B : Backend F E) (fmt : Format) (d : Data) (ks : PublicKeySet E) : Prop :=
  IsStruct d [("params", (IsParams · ks.params)), ("shared_key", (IsPublicKey B fmt · ks.sharedKey)),
    ("participant_keys", (IsSeq 0 (IsPublicKey B fmt) · ks.participantKeys))]

def IsParticipant (B : Backend F E) (fmt : Format) (d : Data) (p : ActiveParticipant F E) : Prop :=
  IsStruct d [("key_set", (IsKeySet B fmt · p.keySet)), ("index", (IsUsize · p.index)),
    ("secret_share", (IsScalar B fmt · p.secretShare))]

def IsPublicInfo (B : Backend F E) (fmt : Format) (d : Data) (i : PublicInfo F E) : Prop :=
  IsStruct d [("polynomial", (IsSeq 1 (IsElement B fmt) · i.polynomial)),
    ("proof_of_possession", (IsPop B fmt · i.proofOfPossession)), ("opening", (IsOpening fmt · i.opening))]

def IsDealer (B : Backend F E) (fmt : Format) (d : Data) (x : Dealer F E) : Prop :=
  IsStruct d [("params", (IsParams · x.params)), ("polynomial", (IsSeq 0 (IsKeypair B fmt) · x.polynomial)),
    ("proof_of_possession", (IsPop B fmt · x.proofOfPossession))]

def IsCollectingCommitments (B : Backend F E) (fmt : Format) (d : Data) (p : CollectingCommitments F E) : Prop :=
  IsStruct d [("params", (IsParams · p.params)), ("index", (IsUsize · p.index)),
    ("dealer", (IsDealer B fmt · p.dealer)), ("commitments", (IsSeq 0 (IsOption IsHash) · p.commitments)),
    ("opening", (IsOpening fmt · p.opening))]

def IsCollectingPolynomials (B : Backend F E) (fmt : Format) (d : Data) (p : CollectingPolynomials F E) : Prop :=
  IsStruct d [("params", (IsParams · p.params)), ("index", (IsUsize · p.index)),
    ("dealer", (IsDealer B fmt · p.dealer)), ("opening", (IsOpening fmt · p.opening)),
    ("commitments", (IsSeq 0 IsHash · p.commitments)),
    ("public_polynomials", (IsSeq 0 (IsOption (IsSeq 1 (IsElement B fmt))) · p.publicPolynomials))]

def IsExchangingSecrets (B : Backend F E) (fmt : Format) (d : Data) (p : ExchangingSecrets F E) : Prop :=
  IsStruct d [("params", (IsParams · p.params)), ("index", (IsUsize · p.index)),
    ("dealer", (IsDealer B fmt · p.dealer)),
    ("public_polynomials", (IsSeq 0 (IsSeq 1 (IsElement B fmt)) · p.publicPolynomials)),
    ("accumulated_share", (IsScalar B fmt · p.accumulatedShare)),
    ("shares_received", (IsSeq 0 IsBool · p.sharesReceived))]

end ElasticElgamal.Spec
