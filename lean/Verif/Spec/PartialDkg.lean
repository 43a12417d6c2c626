import Verif.Spec.PartialPrivacy
import Verif.Spec.DkgElection

/-!
# Specifications: elections with distributed key generation in groups that cannot encode all elements
-/

set_option autoImplicit false

namespace ElasticElgamal.Spec

variable {F E : Type} [Field F] [Fintype F] [AddCommGroup E] [Module F E] [DecidableEq F] [DecidableEq E]

/-- Like `dkgRun`, but shares of decryptions are published only if all ballots could be created. -/
noncomputable def fullDkgRun (B : Backend F E) {β : Type} {n o d c : ℕ} (params : Params) (honest : Fin params.shares)
    (bad : Fin c → ℕ) (others : DkgStrategy F E params c) (poll : Poll F E β n o d)
    (guess : (List Entry → F) → ThresholdView F E β n o c params.shares → ℚ) (H : List Entry → F) (tape : List F) :
    ℚ :=
  match Dealer.new (B.withHash H).withTape params tape with
  | none => 0
  | some (dealer, _) =>
    let corrupted := fun a => (dealer.secretShareForParticipant (bad a)).getD 0
    let secrets := others H dealer.publicInfo corrupted
    let polynomials := List.ofFn fun j : Fin params.shares =>
      if j = honest then dealer.publicInfo.1 else List.ofFn fun m => secrets j m • B.gen
    let share := fun i : ℕ => ∑ j : Fin params.shares,
      if j = honest then (dealer.secretShareForParticipant i).getD 0 else polyAt ((i : F) + 1) (List.ofFn (secrets j))
    let participant := fun i : ℕ => dkgParticipant (B.withHash H) params dealer polynomials i (share i)
    match participant honest with
    | none => 0
    | some target =>
      mean fun tapes : Fin n → Fin d → F => mean fun ys : Fin params.shares → F =>
      mean fun xs : Fin params.shares → Fin o → F =>
        let ballots := poll.ballots (B.withHash H) target.keySet.sharedKey tapes
        guess H
          { publicInfo := dealer.publicInfo
            keySet := target.keySet
            corrupted
            ballots
            possession := fun i => do
              let (proof, _) ← (← participant i).proofOfPossession (B.withHash H).withTape [ys i]
              return proof
            decryptions := fun i j => do
              guard (∀ v, (ballots v).isSome)
              let (share, _) ← (← participant i).decryptShare (B.withHash H).withTape (poll.totals ballots j) [xs i j]
              return share }

/-- The election game with distributed key generation: the tape of the honest participant and the hash function are
random. -/
noncomputable def fullDkgGame (B : Backend F E) (D : Finset (List Entry)) (H₀ : List Entry → F) {β : Type}
    {n o d c : ℕ} (params : Params) (honest : Fin params.shares) (bad : Fin c → ℕ) (others : DkgStrategy F E params c)
    (poll : Poll F E β n o d) (guess : (List Entry → F) → ThresholdView F E β n o c params.shares → ℚ) : ℚ :=
  meanHash D H₀ fun H => mean fun coefficients : Fin params.threshold → F => mean fun nonces : Fin params.threshold → F =>
    fullDkgRun B params honest bad others poll guess H (List.ofFn coefficients ++ List.ofFn nonces)

/-- All keys of a key set have encodings. -/
def keysEncoded (B : Backend F E) (ks : PublicKeySet E) : Bool :=
  (ks.sharedKey :: ks.participantKeys).all fun K => (B.serElem K.element).isSome

/-- An attacker in the election game that is shown only proofs and shares of decryptions whose verification does not
panic, ballots for which `ok` holds, and shares of decryptions only if this holds for all ballots. It outputs 0 if
verification of the polynomial of the honest participant panics, or if keys have no encodings. -/
def dkgShownIf {β : Type} {n o c : ℕ} (B : Backend F E) (params : Params)
    (totals : (Fin n → Option β) → Fin o → Ciphertext E) (ok : (List Entry → F) → PublicKey E → β → Bool)
    (guess : (List Entry → F) → ThresholdView F E β n o c params.shares → ℚ)
    (H : List Entry → F) (view : ThresholdView F E β n o c params.shares) : ℚ :=
  if (PublicKeySet.validate (B.withHash H) params view.publicInfo.1 view.publicInfo.2).isSome ∧
      keysEncoded B view.keySet then
    let ballots := fun v => (view.ballots v).filter (ok H view.keySet.sharedKey)
    guess H
      { view with
        ballots
        possession := fun i => (view.possession i).filter fun proof =>
          (view.keySet.verifyParticipant (B.withHash H) i proof).isSome
        decryptions := fun i j => do
          guard (∀ v, (ballots v).isSome)
          (view.decryptions i j).filter fun share => (view.keySet.verifyShare (B.withHash H)
            (CandidateDecryption.ofVerifiable share.1) (totals view.ballots j) i share.2).isSome }
  else 0

end ElasticElgamal.Spec
