import Verif.Props.AnyContext
import Verif.Props.PartialVoting

/-!
# C94: elections with published results in groups that cannot encode the identity, any contexts of decryption proofs
-/

set_option autoImplicit false
set_option linter.unusedSectionVars false

namespace ElasticElgamal

open Spec

section

variable {F E : Type} [Field F] [Fintype F] [AddCommGroup E] [Module F E] [DecidableEq F] [DecidableEq E]

theorem resultsShownIf_range {β : Type} {n o : ℕ} (B : Backend F E) (t : Fin o → Transcript)
    (totals : (Fin n → Option β) → Fin o → Ciphertext E) (ok : (List Entry → F) → PublicKey E → β → Bool)
    (guess : (List Entry → F) → PublicKey E → (Fin n → Option β) →
      (Fin o → Option (VerifiableDecryption E × LogEqualityProof F)) → ℚ)
    (hg : ∀ H K b d, 0 ≤ guess H K b d ∧ guess H K b d ≤ 1) (H : List Entry → F) (K : PublicKey E)
    (b : Fin n → Option β) (d : Fin o → Option (VerifiableDecryption E × LogEqualityProof F)) :
    0 ≤ resultsShownIf B t totals ok guess H K b d ∧ resultsShownIf B t totals ok guess H K b d ≤ 1 := by
  unfold resultsShownIf
  split
  · split
    · exact hg _ _ _ _
    · exact hg _ _ _ _
  · simp

/-- C94 for elections with published results and any contexts of the decryption proofs. -/
theorem C94_any_context_private (B : Backend F E) (hB : B.Lawful) (spare : Bytes) (hs : SpareEncoding B spare) (o : ℕ)
    (ho : 0 < o) (t : Fin o → Transcript) :
    ∃ D₀ : Finset (List Entry), ∀ D, D₀ ⊆ D → ∀ (H₀ : List Entry → F) (kind : ChoiceKind) (n : ℕ)
      (votes votes' : PublicKey E → Fin n → Fin o → Bool),
      (∀ K v, kind = .single → (List.ofFn (votes K v)).count true = 1) →
      (∀ K v, kind = .single → (List.ofFn (votes' K v)).count true = 1) →
      (∀ K, voteCounts (votes K) = voteCounts (votes' K)) →
      ∀ guess : (List Entry → F) → PublicKey E → (Fin n → Option (EncryptedChoice F E kind)) →
        (Fin o → Option (VerifiableDecryption E × LogEqualityProof F)) → ℚ,
      (∀ H K b d, 0 ≤ guess H K b d ∧ guess H K b d ≤ 1) →
      |fullElectionGame B D H₀ t (choicePoll kind votes) guess -
          fullElectionGame B D H₀ t (choicePoll kind votes') guess| ≤
        |∑ v, ∑ i, (ddhGap B (hybridReduction B
            (onKey (totalize B spare) (fun _ => 0) fun K j => if votes K v j then B.gen else 0)
            (onKey (totalize B spare) (fun _ => 0) (simulatedGuess (totalize B spare) D H₀
              (embedBallot (totalize B spare) votes votes' (withCounts (totalize B spare) t optionTotal
                (fun K => voteCounts (votes K)) (resultsShownIf B t optionTotal (canVerify B o) guess)) v))) i) -
          ddhGap B (hybridReduction B
            (onKey (totalize B spare) (fun _ => 0) fun K j => if votes' K v j then B.gen else 0)
            (onKey (totalize B spare) (fun _ => 0) (simulatedGuess (totalize B spare) D H₀
              (embedBallot (totalize B spare) votes votes' (withCounts (totalize B spare) t optionTotal
                (fun K => voteCounts (votes K)) (resultsShownIf B t optionTotal (canVerify B o) guess)) v))) i))| +
        2 * ((o.choose 2 : ℚ) / Fintype.card F) := by
  obtain ⟨D₀, h⟩ := C68_any_context_private (totalize B spare) (hB.totalize hs) (totalize_total B spare) o ho t
  refine ⟨D₀, fun D hD H₀ kind n votes votes' hone hone' hc guess hg => ?_⟩
  have hpoll : ∀ votes : PublicKey E → Fin n → Fin o → Bool,
      (∀ K v, kind = .single → (List.ofFn (votes K v)).count true = 1) →
      fullElectionGame B D H₀ t (choicePoll kind votes) guess = electionGame (totalize B spare) D H₀ t
        (choicePoll kind votes) (resultsShownIf B t optionTotal (canVerify B o) guess) := by
    intro votes hone
    refine fullElectionGame_partial B D H₀ t (choicePoll kind votes) (canVerify B o) (fun H K => ?_) guess
    exact ⟨fun v tape => (EncryptedChoice.new (B.withHash H).withTape ⟨o, K⟩ (List.ofFn (votes K v))
        (List.ofFn tape)).map Prod.fst,
      fun v tape => (EncryptedChoice.new ((totalize B spare).withHash H).withTape ⟨o, K⟩ (List.ofFn (votes K v))
        (List.ofFn tape)).map Prod.fst, fun tapes => rfl, fun tapes => rfl, fun v =>
      choice_partial (B.withHash H) (hB.withHash H) (spare := spare) hs ho.ne' K (votes K v) (hone K v)⟩
  rw [hpoll votes hone, hpoll votes' hone']
  exact h D hD H₀ kind n votes votes' hone hone' hc _ (resultsShownIf_range B t optionTotal (canVerify B o) guess hg)

/-- C94 for elections with quadratic voting, published totals and any contexts of the decryption proofs. -/
theorem C94_voting_any_context_private (B : Backend F E) (hB : B.Lawful) (spare : Bytes) (hs : SpareEncoding B spare)
    (o c m : ℕ) (params : QuadraticVotingParams E) (hp : VotingParamsFor B params o c m)
    (t : Fin o → Transcript) :
    ∃ D₀ : Finset (List Entry), ∀ D, D₀ ⊆ D → ∀ (H₀ : List Entry → F) (n : ℕ)
      (votes votes' : PublicKey E → Fin n → Fin o → ℕ), (∀ K v i, votes K v i ≤ m) → (∀ K v i, votes' K v i ≤ m) →
      (∀ K v, cost (List.ofFn (votes K v)) ≤ c) → (∀ K v, cost (List.ofFn (votes' K v)) ≤ c) →
      (∀ K, voteSums (votes K) = voteSums (votes' K)) →
      ∀ (guess : (List Entry → F) → PublicKey E → (Fin n → Option (QuadraticVotingBallot F E)) →
        (Fin o → Option (VerifiableDecryption E × LogEqualityProof F)) → ℚ),
      (∀ H K b d, 0 ≤ guess H K b d ∧ guess H K b d ≤ 1) →
      |fullElectionGame B D H₀ t (votingPoll params votes) guess -
          fullElectionGame B D H₀ t (votingPoll params votes') guess| ≤
        |∑ v, votingGaps (totalize B spare) D H₀ params (fun K => votes K v) (fun K => votes' K v)
          (embedVoter (totalize B spare) params votes votes' (withCounts (totalize B spare) t votesTotal
            (fun K => voteSums (votes K)) (resultsShownIf B t votesTotal (canVerifyBallot B params) guess)) v)| +
        2 * ((o.choose 2 : ℚ) / Fintype.card F) := by
  obtain ⟨D₀, h⟩ := C75_any_context_private (totalize B spare) (hB.totalize hs) (totalize_total B spare) o c m params
    (hp.totalize spare) t
  refine ⟨D₀, fun D hD H₀ n votes votes' hv hv' hc hc' hsum guess hg => ?_⟩
  have hpoll : ∀ votes : PublicKey E → Fin n → Fin o → ℕ, (∀ K v i, votes K v i ≤ m) →
      (∀ K v, cost (List.ofFn (votes K v)) ≤ c) →
      fullElectionGame B D H₀ t (votingPoll params votes) guess = electionGame (totalize B spare) D H₀ t
        (votingPoll params votes) (resultsShownIf B t votesTotal (canVerifyBallot B params) guess) := by
    intro votes hv hc
    refine fullElectionGame_partial B D H₀ t (votingPoll params votes) (canVerifyBallot B params) (fun H K => ?_) guess
    exact ⟨fun v tape => votingOutput (B.withHash H) { params with receiver := K } (List.ofFn (votes K v))
        (List.ofFn tape),
      fun v tape => votingOutput ((totalize B spare).withHash H) { params with receiver := K } (List.ofFn (votes K v))
        (List.ofFn tape), fun tapes => rfl, fun tapes => rfl, fun v =>
      voting_partial (B.withHash H) (hB.withHash H) (spare := spare) hs (hp.change H K) (votes K v) (hv K v) (hc K v)⟩
  rw [hpoll votes hv hc, hpoll votes' hv' hc']
  exact h D hD H₀ n votes votes' hv hv' hc hc' hsum _
    (resultsShownIf_range B t votesTotal (canVerifyBallot B params) guess hg)

end

namespace Toy

/-- An attacker that looks for panics and for results. -/
def panicElectionGuess {β : Type} {n : ℕ} (_ : List Entry → ZMod 101) (_ : PublicKey (ZMod 101))
    (ballots : Fin (n + 1) → Option β)
    (results : Fin 2 → Option (VerifiableDecryption (ZMod 101) × LogEqualityProof (ZMod 101))) : ℚ :=
  if (ballots 0).isSome && (results 1).isNone then 0 else 1

theorem panicElectionGuess_range {β : Type} {n : ℕ} (H : List Entry → ZMod 101) (K : PublicKey (ZMod 101))
    (b : Fin (n + 1) → Option β)
    (d : Fin 2 → Option (VerifiableDecryption (ZMod 101) × LogEqualityProof (ZMod 101))) :
    0 ≤ panicElectionGuess H K b d ∧ panicElectionGuess H K b d ≤ 1 := by
  unfold panicElectionGuess
  split <;> simp

example : ∃ D₀ : Finset (List Entry), ∀ D, D₀ ⊆ D → ∀ H₀ : List Entry → ZMod 101,
    ∃ A A' : Fin 3 → Fin 2 → ZMod 101 → ZMod 101 → ZMod 101 → ℚ,
    |fullElectionGame S101 D H₀ sameContext (choicePoll .single fun _ => exampleVotes 0) panicElectionGuess -
      fullElectionGame S101 D H₀ sameContext (choicePoll .single fun _ => exampleVotes 2) panicElectionGuess| ≤
      |∑ v, ∑ i, (ddhGap S101 (A v i) - ddhGap S101 (A' v i))| + 2 / 101 := by
  obtain ⟨D₀, h⟩ := C94_any_context_private S101 S101_lawful [0, 0] S101_spare 2 (by norm_num) sameContext
  refine ⟨D₀, fun D hD H₀ => ?_⟩
  have := h D hD H₀ .single 3 (fun _ => exampleVotes 0) (fun _ => exampleVotes 2)
    (fun _ v _ => by revert v; decide) (fun _ v _ => by revert v; decide) (fun _ => by decide) panicElectionGuess
    panicElectionGuess_range
  rw [collision_term, show (2 : ℚ) * (1 / 101) = 2 / 101 by norm_num] at this
  exact ⟨_, _, this⟩

example : ∃ D₀ : Finset (List Entry), ∀ D, D₀ ⊆ D → ∀ H₀ : List Entry → ZMod 101,
    ∃ guess : Fin 2 → (List Entry → ZMod 101) → PublicKey (ZMod 101) → Option (QuadraticVotingBallot (ZMod 101) (ZMod 101)) → ℚ,
    |fullElectionGame S101 D H₀ sameContext (votingPoll exampleVoting fun _ => ![![0, 4], ![3, 2]]) panicElectionGuess -
      fullElectionGame S101 D H₀ sameContext (votingPoll exampleVoting fun _ => ![![3, 2], ![0, 4]])
        panicElectionGuess| ≤
      |∑ v, votingGaps (totalize S101 [0, 0]) D H₀ exampleVoting (fun _ => ![![0, 4], ![3, 2]] v)
        (fun _ => ![![3, 2], ![0, 4]] v) (guess v)| + 2 / 101 := by
  obtain ⟨D₀, h⟩ := C94_voting_any_context_private S101 S101_lawful [0, 0] S101_spare 2 16 4 exampleVoting
    exampleVoting_sec1 sameContext
  refine ⟨D₀, fun D hD H₀ => ?_⟩
  have := h D hD H₀ 2 (fun _ => ![![0, 4], ![3, 2]]) (fun _ => ![![3, 2], ![0, 4]]) (fun _ => by decide)
    (fun _ => by decide) (fun _ => by decide) (fun _ => by decide) (fun _ => by decide) panicElectionGuess
    panicElectionGuess_range
  rw [collision_term, show (2 : ℚ) * (1 / 101) = 2 / 101 by norm_num] at this
  exact ⟨_, this⟩

end Toy

end ElasticElgamal
