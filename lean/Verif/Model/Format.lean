import Verif.Model.Base64
import Verif.Model.Dkg
import Verif.Model.App.Choice
import Verif.Model.App.QuadraticVoting

/-!
# Text output

Models the implementations of `fmt::Debug` for types that hold secrets, and of `fmt::Display` and `Error::source` for
errors. Text is its UTF-8 bytes. Only `{:?}` is modelled; `{:#?}` lays out the same `DebugValue` with line breaks.
-/

set_option autoImplicit false

namespace ElasticElgamal

variable {F E : Type}

/-- `String::as_bytes`. -/
def utf8 (s : String) : Bytes := s.toByteArray.data.toList

/-! ## Builders of debug output -/

/-- What is passed to the builders of `core::fmt` (`debug_struct`, `debug_tuple`, `debug_list`), which derived
implementations of `Debug` use as well. -/
inductive DebugValue where
  /-- text written by another implementation -/
  | text (text : Bytes)
  /-- `debug_struct`, ended by `finish` or, if `open_`, by `finish_non_exhaustive` -/
  | struct (name : String) (fields : List (String × DebugValue)) (open_ : Bool)
  /-- `debug_tuple` -/
  | tuple (name : String) (fields : List DebugValue)
  /-- `debug_list` -/
  | list (items : List DebugValue)

/-- Items separated by commas. -/
def commas : List Bytes → Bytes
  | [] => []
  | [x] => x
  | x :: y :: rest => x ++ asciiBytes ", " ++ commas (y :: rest)

mutual

/-- `core::fmt::builders` without the `alternate` flag. A struct without fields is its name; a tuple without fields is its
name. (A tuple with one field and no name, which has a trailing comma, does not occur.) -/
def DebugValue.render : DebugValue → Bytes
  | .text t => t
  | .struct name fields open_ =>
    asciiBytes name ++
      match fields, open_ with
      | [], false => []
      | [], true => asciiBytes " { .. }"
      | f :: fs, open_ =>
        asciiBytes " { " ++ commas (DebugValue.renderFields (f :: fs)) ++ asciiBytes (if open_ then ", .. }" else " }")
  | .tuple name fields =>
    asciiBytes name ++
      match fields with
      | [] => []
      | f :: fs => asciiBytes "(" ++ commas (DebugValue.renderItems (f :: fs)) ++ asciiBytes ")"
  | .list items => asciiBytes "[" ++ commas (DebugValue.renderItems items) ++ asciiBytes "]"

/-- Fields of structs. -/
def DebugValue.renderFields : List (String × DebugValue) → List Bytes
  | [] => []
  | (name, value) :: rest => (asciiBytes name ++ asciiBytes ": " ++ value.render) :: DebugValue.renderFields rest

/-- Fields of tuples and items of lists. -/
def DebugValue.renderItems : List DebugValue → List Bytes
  | [] => []
  | value :: rest => value.render :: DebugValue.renderItems rest

end

namespace DebugValue

/-- `Debug` for unsigned integers. -/
def nat (n : Nat) : DebugValue := .text (decimal n)

/-- `Debug` for `bool`. -/
def bool (b : Bool) : DebugValue := .text (asciiBytes (if b then "true" else "false"))

/-- `Debug` for strings that need no escapes, such as base64. -/
def str (s : Bytes) : DebugValue := .text (asciiBytes "\"" ++ s ++ asciiBytes "\"")

/-- `Debug` for `[u8; N]` and `Vec<u8>`. -/
def bytes (b : Bytes) : DebugValue := .list (b.map fun x => nat x.toNat)

/-- Derived `Debug` for `Option`. -/
def option : Option DebugValue → DebugValue
  | none => .tuple "None" []
  | some v => .tuple "Some" [v]

/-- Derived `Debug` for `zeroize::Zeroizing`, a tuple struct. -/
def zeroizing (v : DebugValue) : DebugValue := .tuple "Zeroizing" [v]

end DebugValue

/-- `Debug` for scalars and elements, as implemented in the crates of the groups. -/
structure GroupDebug (F E : Type) where
  scalar : F → Bytes
  element : E → Bytes

namespace GroupDebug

variable (D : GroupDebug F E)

def scalars (l : List F) : DebugValue := .list (l.map fun x => .text (D.scalar x))

def elements (l : List E) : DebugValue := .list (l.map fun x => .text (D.element x))

end GroupDebug

/-! ## `Debug` for types with secrets -/

/-- `src/keys/mod.rs:136-143`. -/
def PublicKey.debug (key : PublicKey E) : DebugValue := .tuple "PublicKey" [.str (Base64.encode key.bytes)]

section
variable [Field F] [AddCommGroup E] [Module F E] (B : Backend F E)

/-- `src/keys/mod.rs:19-26`. Computes the public key, which panics if this has no encoding. -/
def SecretKey.debug (secret : SecretKey F) : Option DebugValue := do
  let key ← PublicKey.ofSecret B secret
  return .struct "SecretKey" [("public", key.debug)] false

end

/-- `src/keys/mod.rs:265-272`. -/
def Keypair.debug (keypair : Keypair F E) : DebugValue := .struct "Keypair" [("public", keypair.publicKey.debug)] true

/-- `src/encryption.rs:103-111`. -/
def Ciphertext.debug (D : GroupDebug F E) (ct : Ciphertext E) : DebugValue :=
  .struct "Ciphertext" [("random_element", .text (D.element ct.random)), ("blinded_element", .text (D.element ct.blinded))]
    false

/-- `src/encryption.rs:301` (derived). -/
def ExtendedCiphertext.debug [Field F] [AddCommGroup E] [Module F E] (B : Backend F E) (D : GroupDebug F E)
    (ct : ExtendedCiphertext F E) : Option DebugValue := do
  let randomScalar ← SecretKey.debug B ct.randomScalar
  return .struct "ExtendedCiphertext" [("inner", ct.inner.debug D), ("random_scalar", randomScalar)] false

/-- `src/encryption.rs:382` (derived); `value` is `Debug` for `V`. -/
def CiphertextWithValue.debug [Field F] [AddCommGroup E] [Module F E] (B : Backend F E) (D : GroupDebug F E) {V : Type}
    (value : V → DebugValue) (ct : CiphertextWithValue F E V) : Option DebugValue := do
  let inner ← ct.inner.debug B D
  return .struct "CiphertextWithValue" [("inner", inner), ("value", .zeroizing (value ct.value))] false

/-- `src/proofs/possession.rs:68` (derived). -/
def ProofOfPossession.debug (D : GroupDebug F E) (proof : ProofOfPossession F) : DebugValue :=
  .struct "ProofOfPossession" [("challenge", .text (D.scalar proof.challenge)), ("responses", D.scalars proof.responses)]
    false

/-- `src/sharing/mod.rs:273` (derived). -/
def Params.debug (params : Params) : DebugValue :=
  .struct "Params" [("shares", .nat params.shares), ("threshold", .nat params.threshold)] false

/-- `src/sharing/participant.rs:24` (derived). -/
def Dealer.debug (D : GroupDebug F E) (dealer : Dealer F E) : DebugValue :=
  .struct "Dealer" [("params", dealer.params.debug), ("polynomial", .list (dealer.polynomial.map Keypair.debug)),
    ("proof_of_possession", dealer.proofOfPossession.debug D)] false

/-- `src/sharing/key_set.rs:19` (derived). -/
def PublicKeySet.debug (ks : PublicKeySet E) : DebugValue :=
  .struct "PublicKeySet" [("params", ks.params.debug), ("shared_key", ks.sharedKey.debug),
    ("participant_keys", .list (ks.participantKeys.map PublicKey.debug))] false

/-- `src/sharing/participant.rs:88` (derived). -/
def ActiveParticipant.debug [Field F] [AddCommGroup E] [Module F E] (B : Backend F E)
    (participant : ActiveParticipant F E) : Option DebugValue := do
  let share ← SecretKey.debug B participant.secretShare
  return .struct "ActiveParticipant" [("key_set", participant.keySet.debug), ("index", .nat participant.index),
    ("secret_share", share)] false

/-- `src/dkg.rs:180` (derived for `Opening`). -/
def debugOpening (opening : Bytes) : DebugValue := .tuple "Opening" [.zeroizing (.bytes opening)]

/-- `src/sharing/mod.rs:173` (derived for `PublicPolynomial`). -/
def PublicPolynomial.debug (D : GroupDebug F E) (p : PublicPolynomial E) : DebugValue :=
  .tuple "PublicPolynomial" [D.elements p]

/-- `src/dkg.rs:187` (derived). -/
def CollectingCommitments.debug (D : GroupDebug F E) (p : CollectingCommitments F E) : DebugValue :=
  .struct "ParticipantCollectingCommitments" [("params", p.params.debug), ("index", .nat p.index),
    ("dealer", p.dealer.debug D), ("commitments", .list (p.commitments.map fun c => .option (c.map .bytes))),
    ("opening", debugOpening p.opening)] false

/-- `src/dkg.rs:323` (derived). -/
def CollectingPolynomials.debug (D : GroupDebug F E) (p : CollectingPolynomials F E) : DebugValue :=
  .struct "ParticipantCollectingPolynomials" [("params", p.params.debug), ("index", .nat p.index),
    ("dealer", p.dealer.debug D), ("opening", debugOpening p.opening), ("commitments", .list (p.commitments.map .bytes)),
    ("public_polynomials", .list (p.publicPolynomials.map fun poly => .option (poly.map (PublicPolynomial.debug D))))]
    false

/-- `src/dkg.rs:427` (derived). -/
def ExchangingSecrets.debug [Field F] [AddCommGroup E] [Module F E] (B : Backend F E) (D : GroupDebug F E)
    (p : ExchangingSecrets F E) : Option DebugValue := do
  let share ← SecretKey.debug B p.accumulatedShare
  return .struct "ParticipantExchangingSecrets" [("params", p.params.debug), ("index", .nat p.index),
    ("dealer", p.dealer.debug D), ("public_polynomials", .list (p.publicPolynomials.map (PublicPolynomial.debug D))),
    ("accumulated_share", share), ("shares_received", .list (p.sharesReceived.map .bool))] false

/-- `src/proofs/ring.rs:39-50`. -/
def Ring.debug (D : GroupDebug F E) (ring : Ring F E) : DebugValue :=
  .struct "Ring" [("index", .nat ring.index), ("admissible_values", D.elements ring.admissibleValues),
    ("ciphertext", ring.ciphertext.debug D), ("responses", D.scalars ring.responses),
    ("terminal_commitments", .tuple "" [.text (D.element ring.terminalCommitments.1),
      .text (D.element ring.terminalCommitments.2)])] false

/-- `src/proofs/ring.rs:429-437`; `rng` is `Debug` for the generator of random numbers. -/
def RingProofBuilder.debug {B : Backend F E} (D : GroupDebug F E) (rng : B.Rng → DebugValue) (b : RingProofBuilder B) :
    DebugValue :=
  .struct "RingProofBuilder" [("receiver", b.receiver.debug), ("rings", .list (b.rings.map (Ring.debug D))),
    ("rng", rng b.rng)] false

/-! ## `Display` and `source` for errors -/

/-- `src/keys/mod.rs:217-227`. -/
def PublicKeyConversionError.display : PublicKeyConversionError → Bytes
  | .InvalidByteSize => asciiBytes "invalid size of the byte buffer"
  | .InvalidGroupElement => asciiBytes "byte buffer has correct size, but does not represent a group element"
  | .IdentityKey => asciiBytes "underlying group element is the group identity"

/-- `src/proofs/mod.rs:101-118`. -/
def VerificationError.display : VerificationError → Bytes
  | .ChallengeMismatch => asciiBytes "restored challenge scalar does not match the one provided in the proof"
  | .LenMismatch collection expected actual =>
    asciiBytes "number of " ++ utf8 collection ++ asciiBytes " (" ++ decimal actual ++
      asciiBytes ") differs from expected (" ++ decimal expected ++ asciiBytes ")"

/-- `src/sharing/mod.rs:237-260`. -/
def SharingError.display : SharingError → Bytes
  | .MalformedDealerPolynomial => asciiBytes "public polynomial received from the dealer is malformed"
  | .InvalidDealerProof err =>
    asciiBytes "proof of possession supplied with the dealer's public polynomial is invalid: " ++ err.display
  | .InvalidSecret =>
    asciiBytes "secret received from the dealer does not correspond to their commitment via public polynomial"
  | .ParticipantCountMismatch =>
    asciiBytes "number of participants specified in `Params` does not match the number of provided public keys"
  | .MalformedParticipantKeys => asciiBytes "participants' public keys do not correspond to a single shared key"

/-- `src/sharing/mod.rs:263-270`. -/
def SharingError.source : SharingError → Option VerificationError
  | .InvalidDealerProof err => some err
  | _ => none

/-- `src/dkg.rs:133-158`. -/
def DkgError.display : DkgError → Bytes
  | .InvalidSecret =>
    asciiBytes "secret received from the party does not correspond to their commitment via public polynomial"
  | .InvalidCommitment =>
    asciiBytes "public polynomial received from one of the parties does not correspond to their commitment"
  | .DuplicateShare => asciiBytes "secret share for this participant was already provided"
  | .MalformedParticipantProof err =>
    asciiBytes "provided proof of possession or public polynomial is malformed: " ++ err.display
  | .InconsistentPublicShares err =>
    asciiBytes "public shares obtained from accumulated public polynomial are inconsistent: " ++ err.display

/-- `src/dkg.rs:161-168`. -/
def DkgError.source : DkgError → Option SharingError
  | .InconsistentPublicShares err | .MalformedParticipantProof err => some err
  | _ => none

/-- `src/app/choice.rs:421-432`. -/
def ChoiceVerificationError.display : ChoiceVerificationError → Bytes
  | .OptionsLenMismatch expected actual =>
    asciiBytes "number of options in the ballot (" ++ decimal actual ++ asciiBytes ") differs from expected (" ++
      decimal expected ++ asciiBytes ")"
  | .Sum err => asciiBytes "cannot verify sum proof: " ++ err.display
  | .Range err => asciiBytes "cannot verify range proofs: " ++ err.display

/-- `src/app/choice.rs:435-442`. -/
def ChoiceVerificationError.source : ChoiceVerificationError → Option VerificationError
  | .Sum err | .Range err => some err
  | _ => none

/-- `src/app/quadratic_voting.rs:356-376`. -/
def QuadraticVotingError.display : QuadraticVotingError → Bytes
  | .Variant index error =>
    asciiBytes "error verifying range proof for option #" ++ decimal (index + 1) ++ asciiBytes ": " ++ error.display
  | .CreditRange err => asciiBytes "error verifying range proof for credits: " ++ err.display
  | .CreditEquivalence err => asciiBytes "error verifying credit equivalence proof: " ++ err.display
  | .OptionsLenMismatch expected actual =>
    asciiBytes "number of options in the ballot (" ++ decimal actual ++ asciiBytes ") differs from expected (" ++
      decimal expected ++ asciiBytes ")"

/-- `src/app/quadratic_voting.rs:379-388`. -/
def QuadraticVotingError.source : QuadraticVotingError → Option VerificationError
  | .Variant _ error | .CreditRange error | .CreditEquivalence error => some error
  | _ => none

end ElasticElgamal
