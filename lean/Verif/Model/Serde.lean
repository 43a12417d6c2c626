import Verif.Model.App.QuadraticVoting
import Verif.Model.Dkg
import Verif.Model.Proofs.Commitment
import Verif.Model.App.Choice

/-!
# Serialization helpers

Models `src/serde.rs` and the `serde` attributes of the proof and ciphertext types.

A serialized value is a tree `Data` (the serde data model restricted to what the crate emits).
Structs are maps keyed by field names (self-describing formats such as JSON, CBOR, YAML, TOML).
-/

set_option autoImplicit false

namespace ElasticElgamal

variable {F E : Type}

/-- The part of the serde data model used by the crate: strings, byte buffers, integers, booleans, null
(the unit and `None`; `Some(x)` is represented as `x`), sequences and maps with string keys. -/
inductive Data where
  | str (s : Bytes)
  | bytes (b : Bytes)
  | uint (n : Nat)
  | bool (b : Bool)
  | null
  | seq (items : List Data)
  | map (fields : List (String × Data))

/-- A data format (external): whether it is human readable, whether the deserializer which buffers fields
for `serde(flatten)` claims to be human readable (`serde` reports `true` for any format), base64url encoding
without padding (crate `base64ct`), and the size hint for a sequence with the given number of items. -/
structure Format where
  humanReadable : Bool
  flattenHumanReadable : Bool
  encode : Bytes → Bytes
  decode : Bytes → Option Bytes
  sizeHint : Nat → Option Nat

/-- The format as seen through `serde(flatten)` when deserializing. -/
def Format.flattened (fmt : Format) : Format := { fmt with humanReadable := fmt.flattenHumanReadable }

/-- Contract of `base64ct`, of `SeqAccess::size_hint` and of the buffering deserializer. -/
structure Format.Lawful (fmt : Format) : Prop where
  flatten : fmt.humanReadable = true → fmt.flattenHumanReadable = true
  decode_encode : ∀ b, fmt.decode (fmt.encode b) = some b
  sizeHint_eq : ∀ n k, fmt.sizeHint n = some k → k = n

/-- Deserialization errors; custom messages are not modelled. -/
inductive DeError where
  | invalidType
  | invalidValue
  | invalidLength (actual : Nat)
  | custom
  | missingField
  | duplicateField
  deriving DecidableEq

namespace Serde

/-- `src/serde.rs:19-28` `serialize_bytes`. -/
def serializeBytes (fmt : Format) (value : Bytes) : Data :=
  if fmt.humanReadable then .str (fmt.encode value) else .bytes value

/-- `src/serde.rs:30-80` `deserialize_bytes`. `Base64Visitor` accepts strings and byte buffers,
`BytesVisitor` byte buffers only. -/
def deserializeBytes (fmt : Format) (d : Data) : Except DeError Bytes :=
  if fmt.humanReadable then
    match d with
    | .str s => match fmt.decode s with
      | some b => .ok b
      | none => .error .invalidValue
    | .bytes b => .ok b
    | _ => .error .invalidType
  else
    match d with
    | .bytes b => .ok b
    | _ => .error .invalidType

/-- `src/serde.rs:82-89` `Serialize for Opening`. -/
def serializeOpening (fmt : Format) (opening : Bytes) : Data := serializeBytes fmt opening

/-- `src/serde.rs:91-105` `Deserialize for Opening`. -/
def deserializeOpening (fmt : Format) (d : Data) : Except DeError Bytes := do
  let bytes ← deserializeBytes fmt d
  if bytes.length = 32 then return bytes else throw (.invalidLength bytes.length)

/-- `src/serde.rs:107-114` `Serialize for PublicKey`. -/
def serializePublicKey (fmt : Format) (key : PublicKey E) : Data := serializeBytes fmt key.bytes

/-- `src/serde.rs:116-124` `Deserialize for PublicKey`. -/
def deserializePublicKey [Zero E] [DecidableEq E] (B : Backend F E) (fmt : Format) (d : Data) :
    Except DeError (PublicKey E) := do
  let bytes ← deserializeBytes fmt d
  (PublicKey.fromBytes B bytes).mapError fun _ => .custom

/-- `src/serde.rs:126-135` `Serialize for SecretKey`. -/
def serializeSecretKey (B : Backend F E) (fmt : Format) (key : SecretKey F) : Data :=
  serializeBytes fmt (B.serScalar key)

/-- `src/serde.rs:137-146` `Deserialize for SecretKey`. -/
def deserializeSecretKey (B : Backend F E) (fmt : Format) (d : Data) :
    Except DeError (SecretKey F) := do
  let bytes ← deserializeBytes fmt d
  match SecretKey.fromBytes B bytes with
  | some key => return key
  | none => throw .custom

/-- `src/serde.rs:148-155` `Serialize for Keypair`. -/
def serializeKeypair (B : Backend F E) (fmt : Format) (kp : Keypair F E) : Data :=
  serializeSecretKey B fmt kp.secret

/-- `src/serde.rs:157-164` `Deserialize for Keypair`; outer `none` = panic. -/
def deserializeKeypair [Field F] [AddCommGroup E] [Module F E] (B : Backend F E) (fmt : Format)
    (d : Data) : Option (Except DeError (Keypair F E)) :=
  match deserializeSecretKey B fmt d with
  | .error e => some (.error e)
  | .ok key => do return .ok (← Keypair.ofSecret B key)

/-- `src/serde.rs:182-189` `ScalarHelper::serialize`. -/
def serializeScalar (B : Backend F E) (fmt : Format) (scalar : F) : Data :=
  serializeBytes fmt (B.serScalar scalar)

/-- `src/serde.rs:191-206` `ScalarHelper::deserialize`. -/
def deserializeScalar (B : Backend F E) (fmt : Format) (d : Data) : Except DeError F := do
  let bytes ← deserializeBytes fmt d
  if bytes.length = B.scalarSize then
    match B.deScalar bytes with
    | some s => return s
    | none => throw .custom
  else throw (.invalidLength bytes.length)

/-- `src/serde.rs:245-252` `ElementHelper::serialize`; `none` = panic. -/
def serializeElement (B : Backend F E) (fmt : Format) (element : E) : Option Data := do
  return serializeBytes fmt (← B.serElem element)

/-- `src/serde.rs:254-269` `ElementHelper::deserialize`. -/
def deserializeElement (B : Backend F E) (fmt : Format) (d : Data) : Except DeError E := do
  let bytes ← deserializeBytes fmt d
  if bytes.length = B.elementSize then
    match B.deElem bytes with
    | some e => return e
    | none => throw .custom
  else throw (.invalidLength bytes.length)

/-- `src/serde.rs:310-316` `VecHelper::serialize`; `none` = panic (debug assertion, or the item's). -/
def serializeVec {α : Type} (B : Backend F E) (min : Nat) (item : α → Option Data) (values : List α) :
    Option Data := do
  B.debugAssert (min ≤ values.length)
  return .seq (← values.mapM item)

/-- `src/serde.rs:318-355` `VecHelper::deserialize` / `visit_seq`. -/
def deserializeVec {α : Type} (fmt : Format) (min : Nat) (item : Data → Except DeError α) (d : Data) :
    Except DeError (List α) :=
  match d with
  | .seq items => do
    if let some size := fmt.sizeHint items.length then
      if size < min then throw (.invalidLength size)
    let values ← items.mapM item
    if min ≤ values.length then return values else throw (.invalidLength values.length)
  | _ => .error .invalidType

/-- Derived `Deserialize` for structs: look up a field by name; a repeated or absent field is an
error, unknown fields are ignored. -/
def field (fields : List (String × Data)) (name : String) : Except DeError Data :=
  match fields.filter (fun f => f.1 = name) with
  | [] => .error .missingField
  | [f] => .ok f.2
  | _ => .error .duplicateField

/-- The fields of a map. -/
def asMap : Data → Except DeError (List (String × Data))
  | .map fields => .ok fields
  | _ => .error .invalidType

/-- `src/encryption.rs:95-101`: derived `Serialize for Ciphertext`. -/
def serializeCiphertext (B : Backend F E) (fmt : Format) (c : Ciphertext E) : Option Data := do
  return .map [("random_element", ← serializeElement B fmt c.random),
               ("blinded_element", ← serializeElement B fmt c.blinded)]

/-- `src/encryption.rs:95-101`: derived `Deserialize for Ciphertext`. -/
def deserializeCiphertext (B : Backend F E) (fmt : Format) (d : Data) :
    Except DeError (Ciphertext E) := do
  let fields ← asMap d
  let random ← deserializeElement B fmt (← field fields "random_element")
  let blinded ← deserializeElement B fmt (← field fields "blinded_element")
  return ⟨random, blinded⟩

/-- `src/decryption.rs:73-78, 160-164`: derived `Serialize for VerifiableDecryption`; the transparent
`CandidateDecryption` has the same representation. -/
def serializeDecryption (B : Backend F E) (fmt : Format) (d : VerifiableDecryption E) :
    Option Data := do
  return .map [("dh_element", ← serializeElement B fmt d.dhElement)]

/-- `src/decryption.rs:160-164`: derived `Deserialize for CandidateDecryption` (transparent). -/
def deserializeCandidate (B : Backend F E) (fmt : Format) (d : Data) :
    Except DeError (CandidateDecryption E) := do
  let fields ← asMap d
  let dhElement ← deserializeElement B fmt (← field fields "dh_element")
  return { inner := { dhElement } }

/-- `src/proofs/log_equality.rs:94-101`: derived `Serialize for LogEqualityProof`. -/
def serializeLogEq (B : Backend F E) (fmt : Format) (p : LogEqualityProof F) : Data :=
  .map [("challenge", serializeScalar B fmt p.challenge),
        ("response", serializeScalar B fmt p.response)]

/-- `src/proofs/log_equality.rs:94-101`: derived `Deserialize for LogEqualityProof`. -/
def deserializeLogEq (B : Backend F E) (fmt : Format) (d : Data) :
    Except DeError (LogEqualityProof F) := do
  let fields ← asMap d
  let challenge ← deserializeScalar B fmt (← field fields "challenge")
  let response ← deserializeScalar B fmt (← field fields "response")
  return { challenge, response }

/-- `src/proofs/possession.rs:69-76`: derived `Serialize for ProofOfPossession`. -/
def serializePop (B : Backend F E) (fmt : Format) (p : ProofOfPossession F) : Option Data := do
  let responses ← serializeVec B 1 (fun s => some (serializeScalar B fmt s)) p.responses
  return .map [("challenge", serializeScalar B fmt p.challenge), ("responses", responses)]

/-- `src/proofs/possession.rs:69-76`: derived `Deserialize for ProofOfPossession`. -/
def deserializePop (B : Backend F E) (fmt : Format) (d : Data) :
    Except DeError (ProofOfPossession F) := do
  let fields ← asMap d
  let challenge ← deserializeScalar B fmt (← field fields "challenge")
  let responses ← deserializeVec fmt 1 (deserializeScalar B fmt) (← field fields "responses")
  return { challenge, responses }

/-- `src/proofs/commitment.rs:113-124`: derived `Serialize for CommitmentEquivalenceProof`. -/
def serializeCommitmentEq (B : Backend F E) (fmt : Format) (p : CommitmentEquivalenceProof F) :
    Data :=
  .map [("challenge", serializeScalar B fmt p.challenge),
        ("randomness_response", serializeScalar B fmt p.randomnessResponse),
        ("value_response", serializeScalar B fmt p.valueResponse),
        ("commitment_response", serializeScalar B fmt p.commitmentResponse)]

/-- `src/proofs/commitment.rs:113-124`: derived `Deserialize for CommitmentEquivalenceProof`. -/
def deserializeCommitmentEq (B : Backend F E) (fmt : Format) (d : Data) :
    Except DeError (CommitmentEquivalenceProof F) := do
  let fields ← asMap d
  let challenge ← deserializeScalar B fmt (← field fields "challenge")
  let randomnessResponse ← deserializeScalar B fmt (← field fields "randomness_response")
  let valueResponse ← deserializeScalar B fmt (← field fields "value_response")
  let commitmentResponse ← deserializeScalar B fmt (← field fields "commitment_response")
  return { challenge, randomnessResponse, valueResponse, commitmentResponse }

/-- `src/proofs/mul.rs:84-93`: derived `Serialize for SumOfSquaresProof`. -/
def serializeSumOfSquares (B : Backend F E) (fmt : Format) (p : SumOfSquaresProof F) :
    Option Data := do
  let responses ← serializeVec B 2 (fun s => some (serializeScalar B fmt s)) p.ciphertextResponses
  return .map [("challenge", serializeScalar B fmt p.challenge),
               ("ciphertext_responses", responses),
               ("sum_response", serializeScalar B fmt p.sumResponse)]

/-- `src/proofs/mul.rs:84-93`: derived `Deserialize for SumOfSquaresProof`. -/
def deserializeSumOfSquares (B : Backend F E) (fmt : Format) (d : Data) :
    Except DeError (SumOfSquaresProof F) := do
  let fields ← asMap d
  let challenge ← deserializeScalar B fmt (← field fields "challenge")
  let ciphertextResponses ←
    deserializeVec fmt 2 (deserializeScalar B fmt) (← field fields "ciphertext_responses")
  let sumResponse ← deserializeScalar B fmt (← field fields "sum_response")
  return { challenge, ciphertextResponses, sumResponse }

/-- The fields of `RingProof` (`src/proofs/ring.rs:280-287`). -/
def ringFields (B : Backend F E) (fmt : Format) (p : RingProof F) :
    Option (List (String × Data)) := do
  let responses ← serializeVec B 2 (fun s => some (serializeScalar B fmt s)) p.ringResponses
  return [("common_challenge", serializeScalar B fmt p.commonChallenge),
          ("ring_responses", responses)]

/-- `src/proofs/ring.rs:280-287`: derived `Serialize for RingProof`. -/
def serializeRing (B : Backend F E) (fmt : Format) (p : RingProof F) : Option Data := do
  return .map (← ringFields B fmt p)

/-- The fields of `RingProof`, read back. -/
def ringOfFields (B : Backend F E) (fmt : Format) (fields : List (String × Data)) :
    Except DeError (RingProof F) := do
  let commonChallenge ← deserializeScalar B fmt (← field fields "common_challenge")
  let ringResponses ←
    deserializeVec fmt 2 (deserializeScalar B fmt) (← field fields "ring_responses")
  return { commonChallenge, ringResponses }

/-- `src/proofs/ring.rs:280-287`: derived `Deserialize for RingProof`. -/
def deserializeRing (B : Backend F E) (fmt : Format) (d : Data) : Except DeError (RingProof F) := do
  ringOfFields B fmt (← asMap d)

/-- Derived `Vec<Ciphertext>` serialization (plain `Vec`, no minimum length). -/
def serializeCiphertexts (B : Backend F E) (fmt : Format) (cs : List (Ciphertext E)) :
    Option Data := do
  return .seq (← cs.mapM (serializeCiphertext B fmt))

/-- Derived `Vec<Ciphertext>` deserialization. -/
def deserializeCiphertexts (B : Backend F E) (fmt : Format) (d : Data) :
    Except DeError (List (Ciphertext E)) :=
  match d with
  | .seq items => items.mapM (deserializeCiphertext B fmt)
  | _ => .error .invalidType

/-- `src/proofs/range.rs:444-450`: derived `Serialize for RangeProof`, with the inner ring proof
flattened. -/
def serializeRange (B : Backend F E) (fmt : Format) (p : RangeProof F E) : Option Data := do
  let partials ← serializeCiphertexts B fmt p.partialCiphertexts
  return .map (("partial_ciphertexts", partials) :: (← ringFields B fmt p.inner))

/-- `src/proofs/range.rs:444-450`: derived `Deserialize for RangeProof`; the flattened fields are buffered,
see `Format.flattened`. -/
def deserializeRange (B : Backend F E) (fmt : Format) (d : Data) :
    Except DeError (RangeProof F E) := do
  let fields ← asMap d
  let partialCiphertexts ← deserializeCiphertexts B fmt (← field fields "partial_ciphertexts")
  let inner ← ringOfFields B fmt.flattened fields
  return { partialCiphertexts, inner }

/-- `src/dkg.rs:295-305`: derived `Serialize for PublicInfo`. -/
def serializePublicInfo (B : Backend F E) (fmt : Format) (info : PublicInfo F E) : Option Data := do
  let polynomial ← serializeVec B 1 (serializeElement B fmt) info.polynomial
  let pop ← serializePop B fmt info.proofOfPossession
  return .map [("polynomial", polynomial), ("proof_of_possession", pop),
               ("opening", serializeOpening fmt info.opening)]

/-- `src/dkg.rs:295-305`: derived `Deserialize for PublicInfo`. -/
def deserializePublicInfo (B : Backend F E) (fmt : Format) (d : Data) :
    Except DeError (PublicInfo F E) := do
  let fields ← asMap d
  let polynomial ← deserializeVec fmt 1 (deserializeElement B fmt) (← field fields "polynomial")
  let proofOfPossession ← deserializePop B fmt (← field fields "proof_of_possession")
  let opening ← deserializeOpening fmt (← field fields "opening")
  return { polynomial, proofOfPossession, opening }

/-- Deserialization of an item that may panic (key pairs): `none` = panic. -/
def mapItems {α : Type} (item : Data → Option (Except DeError α)) :
    List Data → Option (Except DeError (List α))
  | [] => some (.ok [])
  | d :: ds => do
    match ← item d with
    | .error e => return .error e
    | .ok x => return (← mapItems item ds).map (x :: ·)

/-- The items of a sequence. -/
def asSeq : Data → Except DeError (List Data)
  | .seq items => .ok items
  | _ => .error .invalidType

/-- `Serialize for usize`. -/
def serializeUsize (n : Nat) : Data := .uint n

/-- `Deserialize for usize` (64-bit targets). -/
def deserializeUsize : Data → Except DeError Nat
  | .uint n => if n < 2 ^ 64 then .ok n else .error .invalidValue
  | _ => .error .invalidType

/-- `Serialize for bool`. -/
def serializeBool (b : Bool) : Data := .bool b

/-- `Deserialize for bool`. -/
def deserializeBool : Data → Except DeError Bool
  | .bool b => .ok b
  | _ => .error .invalidType

/-- `Serialize for Option<T>`. -/
def serializeOption {α : Type} (item : α → Option Data) : Option α → Option Data
  | none => some .null
  | some x => item x

/-- `Deserialize for Option<T>`. -/
def deserializeOption {α : Type} (item : Data → Except DeError α) : Data → Except DeError (Option α)
  | .null => .ok none
  | d => (item d).map some

/-- `Serialize for [u8; 32]`: a sequence (tuple) of integers. -/
def serializeHash (hash : Bytes) : Data := .seq (hash.map fun b => .uint b.toNat)

/-- `Deserialize for u8`. -/
def deserializeByte : Data → Except DeError UInt8
  | .uint n => if n < 256 then .ok (UInt8.ofNat n) else .error .invalidValue
  | _ => .error .invalidType

/-- `Deserialize for [u8; 32]`. -/
def deserializeHash (d : Data) : Except DeError Bytes := do
  let bytes ← (← asSeq d).mapM deserializeByte
  if bytes.length = 32 then return bytes else throw (.invalidLength bytes.length)

/-- The derived implementations for `Vec<T>`. -/
def serializeList {α : Type} (item : α → Option Data) (l : List α) : Option Data := do
  return .seq (← l.mapM item)

/-- The derived implementations for `Vec<T>`. -/
def deserializeList {α : Type} (item : Data → Except DeError α) (d : Data) : Except DeError (List α) := do
  (← asSeq d).mapM item

/-- `src/app/choice.rs:57, 109`: the proofs of `SingleChoice` and `MultiChoice` (the unit). -/
def serializeSumProof (B : Backend F E) (fmt : Format) : {kind : ChoiceKind} → SumProof F kind → Data
  | .single, p => serializeLogEq B fmt p
  | .multi, _ => .null

/-- Inverse of `serializeSumProof`. -/
def deserializeSumProof (B : Backend F E) (fmt : Format) : (kind : ChoiceKind) → Data →
    Except DeError (SumProof F kind)
  | .single, d => deserializeLogEq B fmt d
  | .multi, .null => .ok ()
  | .multi, _ => .error .invalidType

/-- `src/app/choice.rs:274-280`: derived `Serialize for EncryptedChoice`. -/
def serializeChoice (B : Backend F E) (fmt : Format) {kind : ChoiceKind} (c : EncryptedChoice F E kind) :
    Option Data := do
  let choices ← serializeCiphertexts B fmt c.choices
  let rangeProof ← serializeRing B fmt c.rangeProof
  return .map [("choices", choices), ("range_proof", rangeProof),
               ("sum_proof", serializeSumProof B fmt c.sumProof)]

/-- `src/app/choice.rs:274-280`: derived `Deserialize for EncryptedChoice`. -/
def deserializeChoice (B : Backend F E) (fmt : Format) (kind : ChoiceKind) (d : Data) :
    Except DeError (EncryptedChoice F E kind) := do
  let fields ← asMap d
  let choices ← deserializeCiphertexts B fmt (← field fields "choices")
  let rangeProof ← deserializeRing B fmt (← field fields "range_proof")
  let sumProof ← deserializeSumProof B fmt kind (← field fields "sum_proof")
  return { choices, rangeProof, sumProof }

/-- `src/app/quadratic_voting.rs:212-217`: derived `Serialize for CiphertextWithRangeProof`. -/
def serializeWithRange (B : Backend F E) (fmt : Format) (c : CiphertextWithRangeProof F E) :
    Option Data := do
  return .map [("ciphertext", ← serializeCiphertext B fmt c.ciphertext),
               ("range_proof", ← serializeRange B fmt c.rangeProof)]

/-- `src/app/quadratic_voting.rs:212-217`: derived `Deserialize for CiphertextWithRangeProof`. -/
def deserializeWithRange (B : Backend F E) (fmt : Format) (d : Data) :
    Except DeError (CiphertextWithRangeProof F E) := do
  let fields ← asMap d
  let ciphertext ← deserializeCiphertext B fmt (← field fields "ciphertext")
  let rangeProof ← deserializeRange B fmt (← field fields "range_proof")
  return { ciphertext, rangeProof }

/-- `src/app/quadratic_voting.rs:203-209`: derived `Serialize for QuadraticVotingBallot`. -/
def serializeBallot (B : Backend F E) (fmt : Format) (b : QuadraticVotingBallot F E) : Option Data := do
  return .map [("votes", ← serializeList (serializeWithRange B fmt) b.votes),
               ("credit", ← serializeWithRange B fmt b.credit),
               ("credit_equivalence_proof", ← serializeSumOfSquares B fmt b.creditEquivalenceProof)]

/-- `src/app/quadratic_voting.rs:203-209`: derived `Deserialize for QuadraticVotingBallot`. -/
def deserializeBallot (B : Backend F E) (fmt : Format) (d : Data) :
    Except DeError (QuadraticVotingBallot F E) := do
  let fields ← asMap d
  let votes ← deserializeList (deserializeWithRange B fmt) (← field fields "votes")
  let credit ← deserializeWithRange B fmt (← field fields "credit")
  let creditEquivalenceProof ← deserializeSumOfSquares B fmt (← field fields "credit_equivalence_proof")
  return { votes, credit, creditEquivalenceProof }

/-- `src/sharing/mod.rs:272-280`: derived `Serialize for Params`. -/
def serializeParams (p : Params) : Data :=
  .map [("shares", serializeUsize p.shares), ("threshold", serializeUsize p.threshold)]

/-- `src/sharing/mod.rs:272-280`: derived `Deserialize for Params`. `Params::new` is not called. -/
def deserializeParams (d : Data) : Except DeError Params := do
  let fields ← asMap d
  let shares ← deserializeUsize (← field fields "shares")
  let threshold ← deserializeUsize (← field fields "threshold")
  return { shares, threshold }

/-- `src/sharing/key_set.rs:19-26`: derived `Serialize for PublicKeySet`. -/
def serializeKeySet (fmt : Format) (ks : PublicKeySet E) : Data :=
  .map [("params", serializeParams ks.params), ("shared_key", serializePublicKey fmt ks.sharedKey),
        ("participant_keys", .seq (ks.participantKeys.map (serializePublicKey fmt)))]

/-- `src/sharing/key_set.rs:19-26`: derived `Deserialize for PublicKeySet`. -/
def deserializeKeySet [Zero E] [DecidableEq E] (B : Backend F E) (fmt : Format) (d : Data) :
    Except DeError (PublicKeySet E) := do
  let fields ← asMap d
  let params ← deserializeParams (← field fields "params")
  let sharedKey ← deserializePublicKey B fmt (← field fields "shared_key")
  let participantKeys ← deserializeList (deserializePublicKey B fmt) (← field fields "participant_keys")
  return { params, sharedKey, participantKeys }

/-- `src/sharing/participant.rs:88-95`: derived `Serialize for ActiveParticipant`. -/
def serializeParticipant (B : Backend F E) (fmt : Format) (p : ActiveParticipant F E) : Data :=
  .map [("key_set", serializeKeySet fmt p.keySet), ("index", serializeUsize p.index),
        ("secret_share", serializeSecretKey B fmt p.secretShare)]

/-- `src/sharing/participant.rs:88-95`: derived `Deserialize for ActiveParticipant`. -/
def deserializeParticipant [Zero E] [DecidableEq E] (B : Backend F E) (fmt : Format) (d : Data) :
    Except DeError (ActiveParticipant F E) := do
  let fields ← asMap d
  let keySet ← deserializeKeySet B fmt (← field fields "key_set")
  let index ← deserializeUsize (← field fields "index")
  let secretShare ← deserializeSecretKey B fmt (← field fields "secret_share")
  return { keySet, index, secretShare }

/-- `src/sharing/participant.rs:24-31`: derived `Serialize for Dealer`. -/
def serializeDealer (B : Backend F E) (fmt : Format) (d : Dealer F E) : Option Data := do
  return .map [("params", serializeParams d.params),
               ("polynomial", .seq (d.polynomial.map (serializeKeypair B fmt))),
               ("proof_of_possession", ← serializePop B fmt d.proofOfPossession)]

/-- `src/sharing/participant.rs:24-31`: derived `Deserialize for Dealer`; outer `none` = panic. -/
def deserializeDealer [Field F] [AddCommGroup E] [Module F E] (B : Backend F E) (fmt : Format) (d : Data) :
    Option (Except DeError (Dealer F E)) :=
  match (do
    let fields ← asMap d
    let params ← deserializeParams (← field fields "params")
    let items ← asSeq (← field fields "polynomial")
    return (fields, params, items) : Except DeError (List (String × Data) × Params × List Data)) with
  | .error e => some (.error e)
  | .ok (fields, params, items) => do
    match ← mapItems (deserializeKeypair B fmt) items with
    | .error e => return .error e
    | .ok polynomial =>
      return do
        let proofOfPossession ← deserializePop B fmt (← field fields "proof_of_possession")
        return { params, polynomial, proofOfPossession }

/-- `src/dkg.rs:187-196`: derived `Serialize for ParticipantCollectingCommitments`. -/
def serializeCollectingCommitments (B : Backend F E) (fmt : Format) (p : CollectingCommitments F E) :
    Option Data := do
  return .map [("params", serializeParams p.params), ("index", serializeUsize p.index),
               ("dealer", ← serializeDealer B fmt p.dealer),
               ("commitments", ← serializeList (serializeOption fun c => some (serializeHash c)) p.commitments),
               ("opening", serializeOpening fmt p.opening)]

/-- Run the derived deserializer of a struct with a `dealer` field, which may panic. -/
def withDealer [Field F] [AddCommGroup E] [Module F E] {α : Type} (B : Backend F E) (fmt : Format) (d : Data)
    (rest : List (String × Data) → Params → Nat → Dealer F E → Except DeError α) : Option (Except DeError α) :=
  match (do
    let fields ← asMap d
    let params ← deserializeParams (← field fields "params")
    let index ← deserializeUsize (← field fields "index")
    return (fields, params, index, ← field fields "dealer") :
      Except DeError (List (String × Data) × Params × Nat × Data)) with
  | .error e => some (.error e)
  | .ok (fields, params, index, dealerData) => do
    match ← deserializeDealer B fmt dealerData with
    | .error e => return .error e
    | .ok dealer => return rest fields params index dealer

/-- `src/dkg.rs:187-196`: derived `Deserialize for ParticipantCollectingCommitments`. -/
def deserializeCollectingCommitments [Field F] [AddCommGroup E] [Module F E] (B : Backend F E) (fmt : Format)
    (d : Data) : Option (Except DeError (CollectingCommitments F E)) :=
  withDealer B fmt d fun fields params index dealer => do
    let commitments ← deserializeList (deserializeOption deserializeHash) (← field fields "commitments")
    let opening ← deserializeOpening fmt (← field fields "opening")
    return { params, index, dealer, commitments, opening }

/-- `src/sharing/mod.rs:172-179`: derived (transparent) `Serialize for PublicPolynomial`. -/
def serializePolynomial (B : Backend F E) (fmt : Format) (p : List E) : Option Data :=
  serializeVec B 1 (serializeElement B fmt) p

/-- `src/sharing/mod.rs:172-179`: derived (transparent) `Deserialize for PublicPolynomial`. -/
def deserializePolynomial (B : Backend F E) (fmt : Format) (d : Data) : Except DeError (List E) :=
  deserializeVec fmt 1 (deserializeElement B fmt) d

/-- `src/dkg.rs:323-333`: derived `Serialize for ParticipantCollectingPolynomials`. -/
def serializeCollectingPolynomials (B : Backend F E) (fmt : Format) (p : CollectingPolynomials F E) :
    Option Data := do
  return .map [("params", serializeParams p.params), ("index", serializeUsize p.index),
               ("dealer", ← serializeDealer B fmt p.dealer),
               ("opening", serializeOpening fmt p.opening),
               ("commitments", .seq (p.commitments.map serializeHash)),
               ("public_polynomials", ← serializeList (serializeOption (serializePolynomial B fmt)) p.publicPolynomials)]

/-- `src/dkg.rs:323-333`: derived `Deserialize for ParticipantCollectingPolynomials`. -/
def deserializeCollectingPolynomials [Field F] [AddCommGroup E] [Module F E] (B : Backend F E) (fmt : Format)
    (d : Data) : Option (Except DeError (CollectingPolynomials F E)) :=
  withDealer B fmt d fun fields params index dealer => do
    let opening ← deserializeOpening fmt (← field fields "opening")
    let commitments ← deserializeList deserializeHash (← field fields "commitments")
    let publicPolynomials ← deserializeList (deserializeOption (deserializePolynomial B fmt))
      (← field fields "public_polynomials")
    return { params, index, dealer, opening, commitments, publicPolynomials }

/-- `src/dkg.rs:427-437`: derived `Serialize for ParticipantExchangingSecrets`. -/
def serializeExchangingSecrets (B : Backend F E) (fmt : Format) (p : ExchangingSecrets F E) : Option Data := do
  return .map [("params", serializeParams p.params), ("index", serializeUsize p.index),
               ("dealer", ← serializeDealer B fmt p.dealer),
               ("public_polynomials", ← serializeList (serializePolynomial B fmt) p.publicPolynomials),
               ("accumulated_share", serializeSecretKey B fmt p.accumulatedShare),
               ("shares_received", .seq (p.sharesReceived.map serializeBool))]

/-- `src/dkg.rs:427-437`: derived `Deserialize for ParticipantExchangingSecrets`. -/
def deserializeExchangingSecrets [Field F] [AddCommGroup E] [Module F E] (B : Backend F E) (fmt : Format)
    (d : Data) : Option (Except DeError (ExchangingSecrets F E)) :=
  withDealer B fmt d fun fields params index dealer => do
    let publicPolynomials ← deserializeList (deserializePolynomial B fmt) (← field fields "public_polynomials")
    let accumulatedShare ← deserializeSecretKey B fmt (← field fields "accumulated_share")
    let sharesReceived ← deserializeList deserializeBool (← field fields "shares_received")
    return { params, index, dealer, publicPolynomials, accumulatedShare, sharesReceived }

end Serde

end ElasticElgamal
