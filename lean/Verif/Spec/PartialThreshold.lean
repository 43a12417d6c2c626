import Verif.Spec.PartialPrivacy
import Verif.Spec.Threshold

/-!
# Specifications: elections with a shared key in groups that cannot encode all elements
-/

set_option autoImplicit false

namespace ElasticElgamal.Spec

variable {F E : Type} [Field F] [Fintype F] [AddCommGroup E] [Module F E] [DecidableEq F] [DecidableEq E]

/-- Like `thresholdRun`, but shares of decryptions are published only if all ballots could be created. -/
noncomputable def fullThresholdRun (B : Backend F E) {β : Type} {n o d c : ℕ} (params : Params) (bad : Fin c → ℕ)
    (poll : Poll F E β n o d)
    (guess : (List Entry → F) → ThresholdView F E β n o c params.shares → ℚ) (H : List Entry → F) (tape : List F) :
    ℚ :=
  match Dealer.new (B.withHash H).withTape params tape with
  | none => 0
  | some (dealer, _) =>
    match PublicKeySet.new (B.withHash H) params dealer.publicInfo.1 dealer.publicInfo.2 with
    | some (.ok ks) =>
      mean fun tapes : Fin n → Fin d → F => mean fun ys : Fin params.shares → F =>
      mean fun xs : Fin params.shares → Fin o → F =>
        let ballots := poll.ballots (B.withHash H) ks.sharedKey tapes
        guess H
          { publicInfo := dealer.publicInfo
            keySet := ks
            corrupted := fun a => (dealer.secretShareForParticipant (bad a)).getD 0
            ballots
            possession := fun i => do
              let participant ← dealtParticipant (B.withHash H) dealer ks i
              let (proof, _) ← participant.proofOfPossession (B.withHash H).withTape [ys i]
              return proof
            decryptions := fun i j => do
              guard (∀ v, (ballots v).isSome)
              let participant ← dealtParticipant (B.withHash H) dealer ks i
              let (share, _) ← participant.decryptShare (B.withHash H).withTape (poll.totals ballots j) [xs i j]
              return share }
    | _ => 0

/-- The election game with a shared key: the dealer's tape and the hash function are random. -/
noncomputable def fullThresholdGame (B : Backend F E) (D : Finset (List Entry)) (H₀ : List Entry → F) {β : Type}
    {n o d c : ℕ} (params : Params) (bad : Fin c → ℕ) (poll : Poll F E β n o d)
    (guess : (List Entry → F) → ThresholdView F E β n o c params.shares → ℚ) : ℚ :=
  meanHash D H₀ fun H => mean fun coefficients : Fin params.threshold → F => mean fun nonces : Fin params.threshold → F =>
    fullThresholdRun B params bad poll guess H (List.ofFn coefficients ++ List.ofFn nonces)

/-- An attacker in the election game that is shown only proofs and shares of decryptions whose verification does not
panic, ballots for which `ok` holds, and shares of decryptions only if this holds for all ballots. It outputs 0 if the key
set cannot be created. -/
def thresholdShownIf {β : Type} {n o c : ℕ} (B : Backend F E) (params : Params)
    (totals : (Fin n → Option β) → Fin o → Ciphertext E) (ok : (List Entry → F) → PublicKey E → β → Bool)
    (guess : (List Entry → F) → ThresholdView F E β n o c params.shares → ℚ)
    (H : List Entry → F) (view : ThresholdView F E β n o c params.shares) : ℚ :=
  match PublicKeySet.new (B.withHash H) params view.publicInfo.1 view.publicInfo.2 with
  | some (.ok ks) =>
    let ballots := fun v => (view.ballots v).filter (ok H ks.sharedKey)
    guess H
      { view with
        ballots
        possession := fun i => (view.possession i).filter fun proof =>
          (ks.verifyParticipant (B.withHash H) i proof).isSome
        decryptions := fun i j => do
          guard (∀ v, (ballots v).isSome)
          (view.decryptions i j).filter fun share => (ks.verifyShare (B.withHash H)
            (CandidateDecryption.ofVerifiable share.1) (totals view.ballots j) i share.2).isSome }
  | _ => 0

end ElasticElgamal.Spec
