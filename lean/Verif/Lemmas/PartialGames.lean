import Verif.Lemmas.PartialVoting
import Verif.Lemmas.PartialPrivacy

/-!
# Games of ring proofs, range proofs and quadratic voting in groups with partial encodings
-/

set_option autoImplicit false
set_option linter.unusedSectionVars false

namespace ElasticElgamal

open Spec

variable {F E : Type} [Field F] [Fintype F] [AddCommGroup E] [Module F E] [DecidableEq F] [DecidableEq E]

theorem ringGame_partial (B : Backend F E) (hB : B.Lawful) {spare : Bytes} (hs : SpareEncoding B spare)
    (D : Finset (List Entry)) (H₀ : List Entry → F) {n : ℕ} (values : Fin n → List E) (t : Transcript)
    (index : PublicKey E → Fin n → ℕ) (hi : ∀ K j, index K j < (values j).length)
    (guess : (List Entry → F) → PublicKey E → Option (List (Ciphertext E) × RingProof F) → ℚ) :
    ringGame B D H₀ values t index guess =
      ringGame (totalize B spare) D H₀ values t index (shownIf B (canVerifyRings B values t) guess) := by
  rw [ringGame, ringGame]
  refine key_partial B spare _ _ _ _ (fun k h => by simp only [h]) (fun k kp r h => by simp only [h]; rfl)
    (fun k kp r h => by simp only [h]; rfl) (fun k K hk hK => ?_) fun k K hK => ?_
  · refine congrArg (meanHash D H₀) (funext fun H => ?_)
    simp only [shownIf, hK, if_true]
    exact mean_partial (ring_partial (B.withHash H) (hB.withHash H) (spare := spare) hs t K (hi K)) _
  · simp only [shownIf, hK]
    simp [mean_const, meanHash_const]

theorem rangeGame_partial (B : Backend F E) (hB : B.Lawful) {spare : Bytes} (hs : SpareEncoding B spare)
    (D : Finset (List Entry)) (H₀ : List Entry → F) {n : ℕ} {range : PreparedRange E} (hr : PreparedFor B n range)
    (t : Transcript) (value : PublicKey E → ℕ) (hv : ∀ K, value K < n)
    (guess : (List Entry → F) → PublicKey E → Option (Ciphertext E × RangeProof F E) → ℚ) :
    rangeGame B D H₀ range t value guess =
      rangeGame (totalize B spare) D H₀ range t value (shownIf B (canVerifyRange B range t) guess) := by
  rw [rangeGame, rangeGame]
  refine key_partial B spare _ _ _ _ (fun k h => by simp only [h]) (fun k kp r h => by simp only [h]; rfl)
    (fun k kp r h => by simp only [h]; rfl) (fun k K hk hK => ?_) fun k K hK => ?_
  · refine congrArg (meanHash D H₀) (funext fun H => ?_)
    simp only [shownIf, hK, if_true]
    exact mean_partial (range_partial (B.withHash H) (hB.withHash H) (spare := spare) hs (hr.withHash H) t K (hv K)) _
  · simp only [shownIf, hK]
    simp [mean_const, meanHash_const]

theorem Spec.VotingParamsFor.change {B : Backend F E} {params : QuadraticVotingParams E} {o c m : ℕ}
    (h : VotingParamsFor B params o c m) (H : List Entry → F) (K : PublicKey E) :
    VotingParamsFor (B.withHash H) { params with receiver := K } o c m :=
  ⟨h.options, h.votes.withHash H, h.credits.withHash H⟩

theorem votersGame_partial (B : Backend F E) (hB : B.Lawful) {spare : Bytes} (hs : SpareEncoding B spare)
    (D : Finset (List Entry)) (H₀ : List Entry → F) {n o c m : ℕ} {params : QuadraticVotingParams E}
    (hp : VotingParamsFor B params o c m) (votes : PublicKey E → Fin n → Fin o → ℕ) (hv : ∀ K v i, votes K v i ≤ m)
    (hc : ∀ K v, cost (List.ofFn (votes K v)) ≤ c)
    (guess : (List Entry → F) → PublicKey E → (Fin n → Option (QuadraticVotingBallot F E)) → ℚ) :
    votersGame B D H₀ params votes guess =
      votersGame (totalize B spare) D H₀ params votes (allShownIf B (canVerifyBallot B params) guess) := by
  rw [votersGame, votersGame]
  refine key_partial B spare _ _ _ _ (fun k h => by simp only [h]) (fun k kp r h => by simp only [h]; rfl)
    (fun k kp r h => by simp only [h]; rfl) (fun k K hk hK => ?_) fun k K hK => ?_
  · refine congrArg (meanHash D H₀) (funext fun H => ?_)
    simp only [allShownIf, hK, if_true]
    exact means_partial (g := fun v (tape : Fin (ballotDraws params o) → F) => votingOutput (B.withHash H)
        { params with receiver := K } (List.ofFn (votes K v)) (List.ofFn tape))
      (g' := fun v (tape : Fin (ballotDraws params o) → F) => votingOutput ((totalize B spare).withHash H)
        { params with receiver := K } (List.ofFn (votes K v)) (List.ofFn tape))
      (fun v => voting_partial (B.withHash H) (hB.withHash H) (spare := spare) hs (hp.change H K) (votes K v) (hv K v)
        (hc K v)) _
  · simp only [allShownIf, hK]
    simp [mean_const, meanHash_const]

end ElasticElgamal
