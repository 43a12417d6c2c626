import Verif.Model.Sharing.Basic
import Verif.Model.Proofs.Ring

/-!
# Distributed key generation

Models `src/dkg.rs`.
-/

set_option autoImplicit false

namespace ElasticElgamal

variable {F E : Type}

/-- `src/dkg.rs:119-131` `dkg::Error`. -/
inductive DkgError where
  | InvalidSecret
  | InvalidCommitment
  | DuplicateShare
  | MalformedParticipantProof (e : SharingError)
  | InconsistentPublicShares (e : SharingError)
  deriving DecidableEq

/-- `src/dkg.rs:170-177` `create_commitment`. -/
def createCommitment (B : Backend F E) (element : E) (opening : Bytes) : Option Bytes := do
  let bytes ← B.serElem element
  return B.sha256 (bytes ++ opening)

/-- Indices of `None` / `false` entries (`src/dkg.rs:258-263, 359-364, 456-461`). -/
def missingIndexes {α : Type} (isMissing : α → Bool) (l : List α) : List Nat :=
  l.zipIdx.filterMap fun (x, i) => if isMissing x then some i else none

/-- `src/dkg.rs:190-196` `ParticipantCollectingCommitments`. -/
structure CollectingCommitments (F E : Type) where
  params : Params
  index : Nat
  dealer : Dealer F E
  commitments : List (Option Bytes)
  opening : Bytes

/-- `src/dkg.rs:297-305` `PublicInfo`. -/
structure PublicInfo (F E : Type) where
  polynomial : List E
  proofOfPossession : ProofOfPossession F
  opening : Bytes
  deriving DecidableEq

/-- `src/dkg.rs:326-333` `ParticipantCollectingPolynomials`. -/
structure CollectingPolynomials (F E : Type) where
  params : Params
  index : Nat
  dealer : Dealer F E
  opening : Bytes
  commitments : List Bytes
  publicPolynomials : List (Option (PublicPolynomial E))

/-- `src/dkg.rs:430-437` `ParticipantExchangingSecrets`. -/
structure ExchangingSecrets (F E : Type) where
  params : Params
  index : Nat
  dealer : Dealer F E
  publicPolynomials : List (PublicPolynomial E)
  accumulatedShare : SecretKey F
  sharesReceived : List Bool

namespace CollectingCommitments

/-- `src/dkg.rs:204-221` `ParticipantCollectingCommitments::new`. -/
def new [Field F] [AddCommGroup E] [Module F E] (B : Backend F E) (params : Params) (index : Nat)
    (rng : B.Rng) : Option (CollectingCommitments F E × B.Rng) := do
  guard (index < params.shares)
  let (dealer, rng) ← Dealer.new B params rng
  let (opening, rng) := B.fill32 rng
  let commitments := List.replicate params.shares none
  let (publicPoly, _) := dealer.publicInfo
  let commitment ← createCommitment B (← publicPoly[0]?) opening
  let commitments ← setAt commitments index (some commitment)
  return ({ params, index, dealer, commitments, opening }, rng)

/-- `src/dkg.rs:239-241` `commitment`. -/
def commitment (p : CollectingCommitments F E) : Option Bytes := do
  let c ← p.commitments[p.index]?
  c

/-- `src/dkg.rs:249-255` `insert_commitment`. -/
def insertCommitment (p : CollectingCommitments F E) (participantIndex : Nat) (commitment : Bytes) :
    Option (CollectingCommitments F E) := do
  let current ← p.commitments[participantIndex]?
  guard current.isNone
  let commitments ← setAt p.commitments participantIndex (some commitment)
  return { p with commitments }

/-- `src/dkg.rs:258-263` `missing_commitments`. -/
def missingCommitments (p : CollectingCommitments F E) : List Nat :=
  missingIndexes Option.isNone p.commitments

/-- `src/dkg.rs:272-289` `finish_commitment_phase`. -/
def finishCommitmentPhase (p : CollectingCommitments F E) : Option (CollectingPolynomials F E) := do
  guard (p.missingCommitments = [])
  let (publicPolynomial, _) := p.dealer.publicInfo
  let publicPolynomials ←
    setAt (List.replicate p.params.shares none) p.index (some publicPolynomial)
  let commitments ← p.commitments.mapM id
  return { params := p.params, index := p.index, dealer := p.dealer, opening := p.opening,
           commitments, publicPolynomials }

end CollectingCommitments

namespace CollectingPolynomials

/-- `src/dkg.rs:349-356` `public_info`. -/
def publicInfo (p : CollectingPolynomials F E) : PublicInfo F E :=
  let (polynomial, proof) := p.dealer.publicInfo
  { polynomial, proofOfPossession := proof, opening := p.opening }

/-- `src/dkg.rs:359-364` `missing_public_polynomials`. -/
def missingPublicPolynomials (p : CollectingPolynomials F E) : List Nat :=
  missingIndexes Option.isNone p.publicPolynomials

/-- `src/dkg.rs:378-394` `insert_public_polynomial`; on error the state is unchanged. -/
def insertPublicPolynomial [Field F] [AddCommGroup E] [Module F E] [DecidableEq F] (B : Backend F E)
    (p : CollectingPolynomials F E) (participantIndex : Nat) (info : PublicInfo F E) :
    Option (Except DkgError Unit × CollectingPolynomials F E) := do
  let commitment ← createCommitment B (← info.polynomial[0]?) info.opening
  let expected ← p.commitments[participantIndex]?
  if expected ≠ commitment then
    return (.error .InvalidCommitment, p)
  else
    match ← PublicKeySet.validate B p.params info.polynomial info.proofOfPossession with
    | .error e => return (.error (.MalformedParticipantProof e), p)
    | .ok () =>
      let publicPolynomials ← setAt p.publicPolynomials participantIndex (some info.polynomial)
      return (.ok (), { p with publicPolynomials })

/-- `src/dkg.rs:403-418` `finish_polynomials_phase`. -/
def finishPolynomialsPhase [Field F] (p : CollectingPolynomials F E) :
    Option (ExchangingSecrets F E) := do
  guard (p.missingPublicPolynomials = [])
  let sharesReceived ← setAt (List.replicate p.params.shares false) p.index true
  let accumulatedShare ← p.dealer.secretShareForParticipant p.index
  return { params := p.params, index := p.index, dealer := p.dealer,
           publicPolynomials := p.publicPolynomials.filterMap id,
           accumulatedShare, sharesReceived }

end CollectingPolynomials

namespace ExchangingSecrets

/-- `src/dkg.rs:451-453` `secret_share_for_participant`. -/
def secretShareForParticipant [Field F] (p : ExchangingSecrets F E) (participantIndex : Nat) :
    Option (SecretKey F) :=
  p.dealer.secretShareForParticipant participantIndex

/-- `src/dkg.rs:456-461` `missing_shares`. -/
def missingShares (p : ExchangingSecrets F E) : List Nat :=
  missingIndexes (fun isReceived => !isReceived) p.sharesReceived

variable [Field F] [AddCommGroup E] [Module F E] [DecidableEq E] (B : Backend F E)

/-- `src/dkg.rs:474-496` `insert_secret_share`; on error the state is unchanged. -/
def insertSecretShare (p : ExchangingSecrets F E) (participantIndex : Nat)
    (secretShare : SecretKey F) : Option (Except DkgError Unit × ExchangingSecrets F E) := do
  let received ← p.sharesReceived[participantIndex]?
  if received then
    return (.error .DuplicateShare, p)
  else
    let polynomial ← p.publicPolynomials[participantIndex]?
    let publicShare ← PublicKey.fromElement B (PublicPolynomial.valueAt polynomial ((p.index + 1 : Nat) : F))
    if publicShare.element ≠ B.mulGen secretShare then
      return (.error .InvalidSecret, p)
    else
      let sharesReceived ← setAt p.sharesReceived participantIndex true
      return (.ok (), { p with accumulatedShare := SecretKey.add p.accumulatedShare secretShare,
                               sharesReceived })

/-- `src/dkg.rs:514-521`: the `reduce` over public polynomials. -/
def accumulate : PublicPolynomial E → List (PublicPolynomial E) → Option (PublicPolynomial E)
  | acc, [] => some acc
  | acc, poly :: rest => do
    let acc ← PublicPolynomial.addAssign B acc poly
    accumulate acc rest

/-- `src/dkg.rs:509-536` `complete`. -/
def complete [DecidableEq F] (p : ExchangingSecrets F E) :
    Option (Except DkgError (ActiveParticipant F E)) := do
  guard (p.missingShares = [])
  let accumulatedPolynomial ← match p.publicPolynomials with
    | [] => none
    | first :: rest => accumulate B first rest
  let participantKeys ← (List.range p.params.shares).mapM fun idx =>
    PublicKey.fromElement B (PublicPolynomial.valueAt accumulatedPolynomial ((idx + 1 : Nat) : F))
  match ← PublicKeySet.fromParticipants B p.params participantKeys with
  | .error e => return .error (.InconsistentPublicShares e)
  | .ok keySet =>
    match ← ActiveParticipant.new B keySet p.index p.accumulatedShare with
    | .error e => return .error (.InconsistentPublicShares e)
    | .ok participant => return .ok participant

end ExchangingSecrets

end ElasticElgamal
