import Verif.Spec.Partial
import Verif.Spec.Privacy
import Verif.Spec.RingPrivacy
import Verif.Spec.VotingPrivacy

/-!
# Specifications: privacy games in groups that cannot encode all elements

Creation of a ballot panics if it serializes the identity. Then the attacker gets `none` instead of the ballot.
-/

set_option autoImplicit false

namespace ElasticElgamal.Spec

variable {F E : Type} [Field F] [Fintype F] [AddCommGroup E] [Module F E] [DecidableEq F]

/-- The keys that exist in both groups. -/
def keyExists (B : Backend F E) (K : PublicKey E) : Bool := (B.serElem K.element).isSome

/-- Whether verification of a ballot does not panic. -/
def canVerify (B : Backend F E) {kind : ChoiceKind} (o : ℕ) (H : List Entry → F) (K : PublicKey E)
    (ballot : EncryptedChoice F E kind) : Bool := (ballot.verify (B.withHash H) ⟨o, K⟩).isSome

/-- Whether verification of a ring proof does not panic. -/
def canVerifyRings (B : Backend F E) {n : ℕ} (values : Fin n → List E) (t : Transcript) (H : List Entry → F)
    (K : PublicKey E) (out : List (Ciphertext E) × RingProof F) : Bool :=
  (out.2.verify (B.withHash H) K (List.ofFn values) out.1 t).isSome

/-- Whether verification of a range proof does not panic. -/
def canVerifyRange (B : Backend F E) (range : PreparedRange E) (t : Transcript) (H : List Entry → F)
    (K : PublicKey E) (out : Ciphertext E × RangeProof F E) : Bool :=
  (out.2.verify (B.withHash H) K range out.1 t).isSome

/-- Whether verification of a quadratic-voting ballot does not panic. -/
def canVerifyBallot (B : Backend F E) (params : QuadraticVotingParams E) (H : List Entry → F) (K : PublicKey E)
    (ballot : QuadraticVotingBallot F E) : Bool :=
  (ballot.verify (B.withHash H) { params with receiver := K }).isSome

/-- Whether verification of a decryption does not panic. -/
def canVerifyDecryption (B : Backend F E) (t : Transcript) (H : List Entry → F) (K : PublicKey E) (ct : Ciphertext E)
    (d : VerifiableDecryption E × LogEqualityProof F) : Bool :=
  ((CandidateDecryption.ofVerifiable d.1).verify (B.withHash H) ct K d.2 t).isSome

/-- An attacker that is shown only those objects for which `ok` holds, and only keys that exist. -/
def shownIf {β : Type} (B : Backend F E) (ok : (List Entry → F) → PublicKey E → β → Bool)
    (guess : (List Entry → F) → PublicKey E → Option β → ℚ) (H : List Entry → F) (K : PublicKey E) (x : Option β) : ℚ :=
  if keyExists B K then guess H K (x.filter (ok H K)) else 0

/-- The same for several objects. -/
def allShownIf {β : Type} {n : ℕ} (B : Backend F E) (ok : (List Entry → F) → PublicKey E → β → Bool)
    (guess : (List Entry → F) → PublicKey E → (Fin n → Option β) → ℚ) (H : List Entry → F) (K : PublicKey E)
    (xs : Fin n → Option β) : ℚ :=
  if keyExists B K then guess H K fun v => (xs v).filter (ok H K) else 0

/-- The election game; results are published only if all voters succeeded to create ballots. (If a ballot is missing, the
numbers of votes depend on whose ballot it is.) -/
noncomputable def fullElectionGame [DecidableEq E] (B : Backend F E) (D : Finset (List Entry))
    (H₀ : List Entry → F) {β : Type} {n o d : ℕ} (t : Fin o → Transcript) (poll : Poll F E β n o d)
    (guess : (List Entry → F) → PublicKey E → (Fin n → Option β) →
      (Fin o → Option (VerifiableDecryption E × LogEqualityProof F)) → ℚ) : ℚ :=
  mean fun k : F =>
    match Keypair.generate B.withTape [k] with
    | none => 0
    | some (keypair, _) => meanHash D H₀ fun H => mean fun tapes : Fin n → Fin d → F =>
      let ballots := poll.ballots (B.withHash H) keypair.publicKey tapes
      if ∀ v, (ballots v).isSome then
        mean fun xs : Fin o → F => guess H keypair.publicKey ballots fun j =>
          (VerifiableDecryption.new (B.withHash H).withTape (poll.totals ballots j) keypair (t j) [xs j]).map Prod.fst
      else guess H keypair.publicKey ballots fun _ => none

/-- An attacker in the election game that is shown only ballots for which `ok` holds, and results only if it holds for all
of them. -/
def resultsShownIf {β : Type} {n o : ℕ} (B : Backend F E) (t : Fin o → Transcript)
    (totals : (Fin n → Option β) → Fin o → Ciphertext E) (ok : (List Entry → F) → PublicKey E → β → Bool)
    (guess : (List Entry → F) → PublicKey E → (Fin n → Option β) →
      (Fin o → Option (VerifiableDecryption E × LogEqualityProof F)) → ℚ)
    (H : List Entry → F) (K : PublicKey E) (ballots : Fin n → Option β)
    (results : Fin o → Option (VerifiableDecryption E × LogEqualityProof F)) : ℚ :=
  if keyExists B K then
    if ∀ v, ((ballots v).filter (ok H K)).isSome then
      guess H K ballots fun j => (results j).filter (canVerifyDecryption B (t j) H K (totals ballots j))
    else guess H K (fun v => (ballots v).filter (ok H K)) fun _ => none
  else 0

end ElasticElgamal.Spec
