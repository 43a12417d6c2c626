import Verif.Model.Decryption
import Verif.Model.Proofs.Possession

/-!
# Secret sharing: parameters, interpolation, key sets, participants

Models `src/sharing/mod.rs`, `src/sharing/key_set.rs`, `src/sharing/participant.rs`.
-/

set_option autoImplicit false

namespace ElasticElgamal

variable {F E : Type}

/-- `src/sharing/mod.rs:275-280` `Params`; both fields are public in Rust. -/
structure Params where
  shares : Nat
  threshold : Nat
  deriving DecidableEq

/-- `src/sharing/mod.rs:222-235` `sharing::Error`. -/
inductive SharingError where
  | MalformedDealerPolynomial
  | InvalidDealerProof (e : VerificationError)
  | InvalidSecret
  | ParticipantCountMismatch
  | MalformedParticipantKeys
  deriving DecidableEq

section
variable [Field F]

/-- `src/sharing/mod.rs:148-152`: sign and magnitude of one factor. -/
def lagrangeFactor (index otherIndex : Nat) : Bool × F :=
  match compare index otherIndex with
  | .gt => (true, ((index - otherIndex : Nat) : F))
  | .lt => (false, ((otherIndex - index : Nat) : F))
  | .eq => (false, ((index + 1 : Nat) : F))

/-- `src/sharing/mod.rs:145-161`: denominator for one index. -/
def lagrangeDenominator (indexes : List Nat) (index : Nat) : F :=
  let (sign, denominator) := (indexes.map (lagrangeFactor (F := F) index)).foldl
    (fun (acc : Bool × F) (elem : Bool × F) => (acc.1 ^^ elem.1, acc.2 * elem.2)) (false, (1 : F))
  if sign then -denominator else denominator

/-- `src/sharing/mod.rs:139-170` `lagrange_coefficients`. `index as u64 + 1` cannot overflow for indexes
of items in memory. -/
def lagrangeCoefficients (F : Type) [Field F] [DecidableEq F] (indexes : List Nat) :
    Option (List F × F) := do
  let denominators ← Backend.invertScalars (indexes.map (lagrangeDenominator (F := F) indexes))
  let scale := (indexes.map fun index => ((index + 1 : Nat) : F)).foldl (fun acc value => acc * value) 1
  return (denominators, scale)

end

/-- `src/sharing/mod.rs:176-179` `PublicPolynomial`. -/
abbrev PublicPolynomial (E : Type) := List E

namespace PublicPolynomial

/-- `src/sharing/mod.rs:186-188` `value_at_zero`; indexing panics for the empty polynomial. -/
def valueAtZero (p : PublicPolynomial E) : Option E := p[0]?

/-- `src/sharing/mod.rs:192-199`: powers `1, x, x², …`; `val` is the running value. -/
def powers [Field F] (x : F) : Nat → F → List F
  | 0, _ => []
  | len + 1, val => val :: powers x len (val * x)

/-- `src/sharing/mod.rs:191-202` `value_at`. -/
def valueAt [Field F] [AddCommGroup E] [Module F E] (p : PublicPolynomial E) (x : F) : E :=
  Backend.multiMul (powers x p.length 1) p

/-- `src/sharing/mod.rs:213-215`: the loop of `AddAssign`, over the zipped coefficients. -/
def addLoop [Add E] : List E → List E → List E
  | val :: vals, rhsVal :: rhs => (val + rhsVal) :: addLoop vals rhs
  | vals, _ => vals

/-- `src/sharing/mod.rs:205-217` `AddAssign`. -/
def addAssign [Add E] (B : Backend F E) (p rhs : PublicPolynomial E) : Option (PublicPolynomial E) := do
  B.debugAssert (p.length = rhs.length)
  return addLoop p rhs

end PublicPolynomial

namespace Params

/-- `src/sharing/mod.rs:288-292` `Params::new`. -/
def new (shares threshold : Nat) : Option Params := do
  guard (shares > 0)
  guard (threshold > 0 ∧ threshold ≤ shares)
  return { shares, threshold }

variable [Field F] [AddCommGroup E] [Module F E]

/-- `src/sharing/mod.rs:302-325` `combine_shares`; outer `none` = panic. -/
def combineShares (F : Type) [Field F] [DecidableEq F] [Module F E] (params : Params)
    (shares : List (Nat × VerifiableDecryption E)) : Option (Option (VerifiableDecryption E)) :=
  let taken := shares.take params.threshold
  let indexes := taken.map Prod.fst
  let shares := taken.map fun (_, share) => share.dhElement
  if shares.length < params.threshold then some none
  else do
    guard (indexes.all fun index => index < params.shares)
    let (denominators, scale) ← lagrangeCoefficients F indexes
    let restoredValue := Backend.multiMul denominators shares
    let dhElement := scale • restoredValue
    return some (VerifiableDecryption.fromElement dhElement)

end Params

/-- `src/sharing/key_set.rs:22-26` `PublicKeySet`. -/
structure PublicKeySet (E : Type) where
  params : Params
  sharedKey : PublicKey E
  participantKeys : List (PublicKey E)
  deriving DecidableEq

/-- `src/sharing/key_set.rs:38-40` and `src/sharing/participant.rs:40-42`: the transcript for the
dealer's proof of possession. -/
def sharePolyTranscript (params : Params) : Transcript :=
  let t := Transcript.new "elgamal_share_poly"
  let t := t.appendU64 "n" params.shares
  t.appendU64 "t" params.threshold

namespace PublicKeySet

variable [Field F] [AddCommGroup E] [Module F E] (B : Backend F E)

/-- `src/sharing/key_set.rs:29-51` `validate`. -/
def validate [DecidableEq F] (params : Params) (publicPolynomial : List E)
    (proofOfPossession : ProofOfPossession F) : Option (Except SharingError Unit) :=
  if publicPolynomial.length ≠ params.threshold then some (.error .MalformedDealerPolynomial)
  else do
    let t := sharePolyTranscript params
    let publicPolyKeys ← publicPolynomial.mapM (PublicKey.fromElement B)
    let (result, _) ← proofOfPossession.verify B publicPolyKeys t
    return result.mapError .InvalidDealerProof

/-- `src/sharing/key_set.rs:60-78` `PublicKeySet::new`. -/
def new [DecidableEq F] (params : Params) (publicPolynomial : List E)
    (proofOfPossession : ProofOfPossession F) : Option (Except SharingError (PublicKeySet E)) := do
  match ← validate B params publicPolynomial proofOfPossession with
  | .error e => return .error e
  | .ok () =>
    let sharedKey ← PublicKey.fromElement B (← PublicPolynomial.valueAtZero publicPolynomial)
    let participantKeys ← (List.range params.shares).mapM fun idx =>
      PublicKey.fromElement B (PublicPolynomial.valueAt publicPolynomial ((idx + 1 : Nat) : F))
    return .ok { params, sharedKey, participantKeys }

/-- `src/sharing/key_set.rs:113-137`: check the keys past the first `threshold` ones; `x` is the index
of the head. Since `x ≥ threshold > idx`, the `usize` subtractions do not underflow. -/
def checkKeys [DecidableEq F] [DecidableEq E] (params : Params) (denominators inverses : List F)
    (startingKeys : List E) : Nat → List (PublicKey E) → Option (Except SharingError Unit)
  | _, [] => some (.ok ())
  | x, key :: rest => do
    let indexes := List.range params.threshold
    let keyScale := (indexes.map fun idx => ((x - idx : Nat) : F)).foldl (fun acc value => acc * value) 1
    let keyDenominators ← denominators.zipIdx.mapM fun (d, idx) => do
      let inverse ← inverses[x - idx - 1]?
      return d * ((idx + 1 : Nat) : F) * inverse
    let keyScale := if params.threshold % 2 = 0 then -keyScale else keyScale
    let interpolatedKey := Backend.multiMul keyDenominators startingKeys
    let interpolatedKey := keyScale • interpolatedKey
    if interpolatedKey ≠ key.element then return .error .MalformedParticipantKeys
    else checkKeys params denominators inverses startingKeys (x + 1) rest

/-- `src/sharing/key_set.rs:87-144` `PublicKeySet::from_participants`. -/
def fromParticipants [DecidableEq F] [DecidableEq E] (params : Params)
    (participantKeys : List (PublicKey E)) : Option (Except SharingError (PublicKeySet E)) :=
  if params.shares ≠ participantKeys.length then some (.error .ParticipantCountMismatch)
  else do
    let indexes := List.range params.threshold
    let (denominators, scale) ← lagrangeCoefficients F indexes
    let startingKeys := (participantKeys.map (·.element)).take params.threshold
    let sharedKey := Backend.multiMul denominators startingKeys
    let sharedKey ← PublicKey.fromElement B (scale • sharedKey)
    let inverses ← Backend.invertScalars ((List.range' 1 params.shares).map fun (i : Nat) => (i : F))
    match ← checkKeys params denominators inverses startingKeys params.threshold
      (participantKeys.drop params.threshold) with
    | .error e => return .error e
    | .ok () => return .ok { params, sharedKey, participantKeys }

/-- `src/sharing/key_set.rs:158-160` `participant_key`. -/
def participantKey (ks : PublicKeySet E) (index : Nat) : Option (PublicKey E) :=
  ks.participantKeys[index]?

/-- `src/sharing/key_set.rs:167-171` `commit`. -/
def commit (ks : PublicKeySet E) (t : Transcript) : Transcript :=
  let t := t.appendU64 "n" ks.params.shares
  let t := t.appendU64 "t" ks.params.threshold
  t.appendElementBytes "K" ks.sharedKey.bytes

/-- `src/sharing/key_set.rs:197-199`, `src/sharing/participant.rs:150-152`. -/
def popTranscript (ks : PublicKeySet E) (index : Nat) : Transcript :=
  (ks.commit (Transcript.new "elgamal_participant_pop")).appendU64 "i" index

/-- `src/sharing/key_set.rs:218-220`, `src/sharing/participant.rs:173-175`. -/
def shareTranscript (ks : PublicKeySet E) (index : Nat) : Transcript :=
  (ks.commit (Transcript.new "elgamal_decryption_share")).appendU64 "i" index

/-- `src/sharing/key_set.rs:186-201` `verify_participant`. -/
def verifyParticipant [DecidableEq F] (ks : PublicKeySet E) (index : Nat)
    (proof : ProofOfPossession F) : Option (Except VerificationError Unit) := do
  let participantKey ← ks.participantKey index
  let (result, _) ← proof.verify B [participantKey] (ks.popTranscript index)
  return result

/-- `src/sharing/key_set.rs:209-228` `verify_share`. -/
def verifyShare [DecidableEq F] (ks : PublicKeySet E) (candidateShare : CandidateDecryption E)
    (ciphertext : Ciphertext E) (index : Nat) (proof : LogEqualityProof F) :
    Option (Except VerificationError (VerifiableDecryption E)) := do
  let keyShare ← ks.participantKeys[index]?
  let dhElement := candidateShare.inner.dhElement
  let t := ks.shareTranscript index
  let logBase ← PublicKey.fromElement B ciphertext.random
  let (result, _) ← proof.verify B logBase (keyShare.element, dhElement) t
  return result.map fun _ => VerifiableDecryption.fromElement dhElement

end PublicKeySet

/-- `src/sharing/participant.rs:27-31` `Dealer`. -/
structure Dealer (F E : Type) where
  params : Params
  polynomial : List (Keypair F E)
  proofOfPossession : ProofOfPossession F

namespace Dealer

variable [Field F] [AddCommGroup E] [Module F E] (B : Backend F E)

/-- `src/sharing/participant.rs:36-38`: generate `n` keypairs. -/
def generateKeypairs : Nat → B.Rng → Option (List (Keypair F E) × B.Rng)
  | 0, rng => some ([], rng)
  | n + 1, rng => do
    let (keypair, rng) ← Keypair.generate B rng
    let (rest, rng) ← generateKeypairs n rng
    return (keypair :: rest, rng)

/-- `src/sharing/participant.rs:35-51` `Dealer::new`. -/
def new (params : Params) (rng : B.Rng) : Option (Dealer F E × B.Rng) := do
  let (polynomial, rng) ← generateKeypairs B params.threshold rng
  let t := sharePolyTranscript params
  let (proofOfPossession, _, rng) ← ProofOfPossession.new B polynomial t rng
  return ({ params, polynomial, proofOfPossession }, rng)

/-- `src/sharing/participant.rs:55-62` `public_info`. -/
def publicInfo (dealer : Dealer F E) : List E × ProofOfPossession F :=
  (dealer.polynomial.map (·.publicKey.element), dealer.proofOfPossession)

/-- `src/sharing/participant.rs:69-82` `secret_share_for_participant`. -/
def secretShareForParticipant (dealer : Dealer F E) (index : Nat) : Option (SecretKey F) := do
  guard (index < dealer.params.shares)
  let power := ((index + 1 : Nat) : F)
  return dealer.polynomial.reverse.foldl
    (fun polyValue keypair => SecretKey.add (SecretKey.mul polyValue power) keypair.secret)
    ((0 : Nat) : F)

end Dealer

/-- `src/sharing/participant.rs:91-95` `ActiveParticipant`. -/
structure ActiveParticipant (F E : Type) where
  keySet : PublicKeySet E
  index : Nat
  secretShare : SecretKey F

namespace ActiveParticipant

variable [Field F] [AddCommGroup E] [Module F E] (B : Backend F E)

/-- `src/sharing/participant.rs:108-123` `ActiveParticipant::new`. -/
def new [DecidableEq E] (keySet : PublicKeySet E) (index : Nat) (secretShare : SecretKey F) :
    Option (Except SharingError (ActiveParticipant F E)) := do
  let expected ← keySet.participantKeys[index]?
  if B.mulGen secretShare = expected.element then
    return .ok { keySet, index, secretShare }
  else return .error .InvalidSecret

/-- `src/sharing/participant.rs:143-145` `public_key_share`. -/
def publicKeyShare (p : ActiveParticipant F E) : Option (PublicKey E) :=
  p.keySet.participantKeys[p.index]?

/-- `src/sharing/participant.rs:149-159` `proof_of_possession`. -/
def proofOfPossession (p : ActiveParticipant F E) (rng : B.Rng) :
    Option (ProofOfPossession F × B.Rng) := do
  let t := p.keySet.popTranscript p.index
  let publicKeyShare ← p.publicKeyShare
  let (proof, _, rng) ← ProofOfPossession.fromKeys B [p.secretShare] [publicKeyShare] t rng
  return (proof, rng)

/-- `src/sharing/participant.rs:163-185` `decrypt_share`. -/
def decryptShare (p : ActiveParticipant F E) (ciphertext : Ciphertext E) (rng : B.Rng) :
    Option ((VerifiableDecryption E × LogEqualityProof F) × B.Rng) := do
  let dhElement := p.secretShare • ciphertext.random
  let ourPublicKey ← p.publicKeyShare
  let t := p.keySet.shareTranscript p.index
  let logBase ← PublicKey.fromElement B ciphertext.random
  let (proof, _, rng) ← LogEqualityProof.new B logBase p.secretShare
    (ourPublicKey.element, dhElement) t rng
  return ((VerifiableDecryption.fromElement dhElement, proof), rng)

end ActiveParticipant

end ElasticElgamal
