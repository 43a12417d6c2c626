import Verif.Lemmas.AnyContext
import Verif.Props.VotingElectionPrivacy

/-!
# C68, C75: elections with published results, any contexts of decryption proofs

Contexts of decryptions of different options may be equal, as they are if all totals are decrypted with
`Transcript::new(b"...")` with the same label.
-/

set_option autoImplicit false
set_option linter.unusedSectionVars false

namespace ElasticElgamal

open Spec

variable {F E : Type} [Field F] [Fintype F] [AddCommGroup E] [Module F E] [DecidableEq F] [DecidableEq E]

theorem abs_sub_le_of_close {a b a' b' e : ℚ} (h : |a - a'| ≤ e) (h' : |b - b'| ≤ e) : |a - b| ≤ |a' - b'| + 2 * e := by
  have : a - b = (a - a') + (a' - b') - (b - b') := by ring
  rw [this]
  refine (abs_sub _ _).trans ((add_le_add_left (abs_add_le _ _) _).trans ?_)
  linarith

/-- C68 for any contexts of the decryption proofs: ballots, decryptions and the random hash function are distributed as if
decryptions and proofs were made from the numbers of votes without the secret key, up to the probability that two of the
proofs hash the same data. -/
theorem C68_any_context_simulation (B : Backend F E) (hB : B.Lawful) (hT : B.TotalSer) (o : ℕ) (ho : 0 < o)
    (t : Fin o → Transcript) :
    ∃ D₀ : Finset (List Entry), ∀ D, D₀ ⊆ D → ∀ (H₀ : List Entry → F) (kind : ChoiceKind) (n : ℕ)
      (votes : PublicKey E → Fin n → Fin o → Bool),
      (∀ K v, kind = .single → (List.ofFn (votes K v)).count true = 1) →
      ∀ guess : (List Entry → F) → PublicKey E → (Fin n → Option (EncryptedChoice F E kind)) →
        (Fin o → Option (VerifiableDecryption E × LogEqualityProof F)) → ℚ,
      (∀ H K b d, 0 ≤ guess H K b d ∧ guess H K b d ≤ 1) →
      |electionGame B D H₀ t (choicePoll kind votes) guess -
        choicesGame B D H₀ kind votes (withCounts B t optionTotal (fun K => voteCounts (votes K)) guess)| ≤
      (o.choose 2 : ℚ) / Fintype.card F := by
  have := hB.finite
  refine ⟨(decData_finite B t).toFinset, fun D hD H₀ kind n votes hone guess hg => ?_⟩
  rw [electionGame, choicesGame, ← mean_sub]
  refine (abs_mean_le _).trans ?_
  rw [← mean_const (α := F) ((o.choose 2 : ℚ) / Fintype.card F)]
  refine mean_le_mean fun k => ?_
  simp only [(generate_tape B hT k).1]
  exact tally_simulation_any B hB hT _ k rfl ho.ne' t D hD H₀ _ (hone _) guess hg

/-- C68 for any contexts of the decryption proofs: if voters select options according to `votes` or `votes'`, and both
give the same numbers of votes, the difference of the probabilities that the attacker outputs 1 is at most a sum of
advantages of explicit algorithms in the Diffie–Hellman game, and a collision term. -/
theorem C68_any_context_private (B : Backend F E) (hB : B.Lawful) (hT : B.TotalSer) (o : ℕ) (ho : 0 < o)
    (t : Fin o → Transcript) :
    ∃ D₀ : Finset (List Entry), ∀ D, D₀ ⊆ D → ∀ (H₀ : List Entry → F) (kind : ChoiceKind) (n : ℕ)
      (votes votes' : PublicKey E → Fin n → Fin o → Bool),
      (∀ K v, kind = .single → (List.ofFn (votes K v)).count true = 1) →
      (∀ K v, kind = .single → (List.ofFn (votes' K v)).count true = 1) →
      (∀ K, voteCounts (votes K) = voteCounts (votes' K)) →
      ∀ guess : (List Entry → F) → PublicKey E → (Fin n → Option (EncryptedChoice F E kind)) →
        (Fin o → Option (VerifiableDecryption E × LogEqualityProof F)) → ℚ,
      (∀ H K b d, 0 ≤ guess H K b d ∧ guess H K b d ≤ 1) →
      |electionGame B D H₀ t (choicePoll kind votes) guess - electionGame B D H₀ t (choicePoll kind votes') guess| ≤
        |∑ v, ∑ i, (ddhGap B (hybridReduction B (onKey B (fun _ => 0) fun K j => if votes K v j then B.gen else 0)
            (onKey B (fun _ => 0) (simulatedGuess B D H₀ (embedBallot B votes votes'
              (withCounts B t optionTotal (fun K => voteCounts (votes K)) guess) v))) i) -
          ddhGap B (hybridReduction B (onKey B (fun _ => 0) fun K j => if votes' K v j then B.gen else 0)
            (onKey B (fun _ => 0) (simulatedGuess B D H₀ (embedBallot B votes votes'
              (withCounts B t optionTotal (fun K => voteCounts (votes K)) guess) v))) i))| +
        2 * ((o.choose 2 : ℚ) / Fintype.card F) := by
  obtain ⟨D₁, h1⟩ := C68_any_context_simulation B hB hT o ho t
  obtain ⟨D₂, h2⟩ := C67_choices_private B hB hT o ho
  classical
  refine ⟨D₁ ∪ D₂, fun D hD H₀ kind n votes votes' hone hone' hc guess hg => ?_⟩
  have a1 := h1 D (Finset.union_subset_left hD) H₀ kind n votes hone guess hg
  have a2 := h1 D (Finset.union_subset_left hD) H₀ kind n votes' hone' guess hg
  rw [← h2 D (Finset.union_subset_right hD) H₀ kind n votes votes' hone hone']
  rw [← funext hc] at a2
  exact abs_sub_le_of_close a1 a2

/-- C75 for any contexts of the decryption proofs. -/
theorem C75_any_context_simulation (B : Backend F E) (hB : B.Lawful) (hT : B.TotalSer) (o c m : ℕ)
    (params : QuadraticVotingParams E) (hp : VotingParamsFor B params o c m) (t : Fin o → Transcript) :
    ∃ D₀ : Finset (List Entry), ∀ D, D₀ ⊆ D → ∀ (H₀ : List Entry → F) (n : ℕ)
      (votes : PublicKey E → Fin n → Fin o → ℕ), (∀ K v i, votes K v i ≤ m) →
      (∀ K v, cost (List.ofFn (votes K v)) ≤ c) →
      ∀ guess : (List Entry → F) → PublicKey E → (Fin n → Option (QuadraticVotingBallot F E)) →
        (Fin o → Option (VerifiableDecryption E × LogEqualityProof F)) → ℚ,
      (∀ H K b d, 0 ≤ guess H K b d ∧ guess H K b d ≤ 1) →
      |electionGame B D H₀ t (votingPoll params votes) guess -
        votersGame B D H₀ params votes (withCounts B t votesTotal (fun K => voteSums (votes K)) guess)| ≤
      (o.choose 2 : ℚ) / Fintype.card F := by
  have := hB.finite
  refine ⟨(decData_finite B t).toFinset, fun D hD H₀ n votes hv hc guess hg => ?_⟩
  rw [electionGame, votersGame, ← mean_sub]
  refine (abs_mean_le _).trans ?_
  rw [← mean_const (α := F) ((o.choose 2 : ℚ) / Fintype.card F)]
  refine mean_le_mean fun k => ?_
  simp only [(generate_tape B hT k).1]
  choose cts hcts hdh using voting_totals B hB hT hp ⟨encOf B (k • B.gen), k • B.gen⟩ k rfl votes (hv _) (hc _)
  exact poll_decryptions_any B hB hT ⟨encOf B (k • B.gen), k • B.gen⟩ k rfl (votingPoll params votes)
    (fun K => voteSums (votes K)) (fun H H' h => votingPoll_congr B params votes _ H H' h) cts
    (fun H tapes => hcts tapes H) hdh t D hD H₀ guess hg

/-- C75 for any contexts of the decryption proofs: for votes with the same totals, the difference of the probabilities that
the attacker outputs 1 is at most a sum of advantages of explicit algorithms in the Diffie–Hellman game, and a collision
term. -/
theorem C75_any_context_private (B : Backend F E) (hB : B.Lawful) (hT : B.TotalSer) (o c m : ℕ)
    (params : QuadraticVotingParams E) (hp : VotingParamsFor B params o c m) (t : Fin o → Transcript) :
    ∃ D₀ : Finset (List Entry), ∀ D, D₀ ⊆ D → ∀ (H₀ : List Entry → F) (n : ℕ)
      (votes votes' : PublicKey E → Fin n → Fin o → ℕ), (∀ K v i, votes K v i ≤ m) → (∀ K v i, votes' K v i ≤ m) →
      (∀ K v, cost (List.ofFn (votes K v)) ≤ c) → (∀ K v, cost (List.ofFn (votes' K v)) ≤ c) →
      (∀ K, voteSums (votes K) = voteSums (votes' K)) →
      ∀ guess : (List Entry → F) → PublicKey E → (Fin n → Option (QuadraticVotingBallot F E)) →
        (Fin o → Option (VerifiableDecryption E × LogEqualityProof F)) → ℚ,
      (∀ H K b d, 0 ≤ guess H K b d ∧ guess H K b d ≤ 1) →
      |electionGame B D H₀ t (votingPoll params votes) guess - electionGame B D H₀ t (votingPoll params votes') guess| ≤
        |∑ v, votingGaps B D H₀ params (fun K => votes K v) (fun K => votes' K v) (embedVoter B params votes votes'
          (withCounts B t votesTotal (fun K => voteSums (votes K)) guess) v)| +
        2 * ((o.choose 2 : ℚ) / Fintype.card F) := by
  obtain ⟨D₁, h1⟩ := C75_any_context_simulation B hB hT o c m params hp t
  obtain ⟨D₂, h2⟩ := C74_voters_private B hB hT o c m params hp
  classical
  refine ⟨D₁ ∪ D₂, fun D hD H₀ n votes votes' hv hv' hc hc' hs guess hg => ?_⟩
  have a1 := h1 D (Finset.union_subset_left hD) H₀ n votes hv hc guess hg
  have a2 := h1 D (Finset.union_subset_left hD) H₀ n votes' hv' hc' guess hg
  rw [← h2 D (Finset.union_subset_right hD) H₀ n votes votes' hv hv' hc hc']
  rw [← funext hs] at a2
  exact abs_sub_le_of_close a1 a2

namespace Toy

/-- One context for both options. -/
def sameContext (_ : Fin 2) : Transcript := Transcript.new "election_results"

theorem sameContext_wins (D : Finset (List Entry)) (H₀ : List Entry → ZMod 101) (a : Fin 3) :
    electionGame B101 D H₀ sameContext (choicePoll .single (fun _ => exampleVotes a)) exampleElectionGuess =
      if a = 0 then 1 else 0 := by
  rw [electionGame]
  have h : (List.ofFn (exampleVotes a 0)).count true = 1 := by revert a; decide
  simp only [(generate_tape B101 B101_total _).1, exampleElectionGuess, choicePoll, exampleChoice_key _ h, mean_const,
    meanHash_const]
  revert a
  decide

theorem exampleElectionGuess_range (H : List Entry → ZMod 101) (K : PublicKey (ZMod 101))
    (b : Fin 3 → Option (EncryptedChoice (ZMod 101) (ZMod 101) .single))
    (d : Fin 2 → Option (VerifiableDecryption (ZMod 101) × LogEqualityProof (ZMod 101))) :
    0 ≤ exampleElectionGuess H K b d ∧ exampleElectionGuess H K b d ≤ 1 := by
  unfold exampleElectionGuess exampleChoiceGuess
  split
  · simp
  · split <;> simp

theorem sameContext_voting_wins (D : Finset (List Entry)) (H₀ : List Entry → ZMod 101) (votes : Fin 2 → Fin 2 → ℕ)
    (hv : ∀ i, votes 0 i ≤ 4) (hc : cost (List.ofFn (votes 0)) ≤ 16) :
    electionGame B101 D H₀ sameContext (votingPoll exampleVoting fun _ => votes) exampleVotingElectionGuess =
      if votes 0 = ![0, 4] then 1 else 0 := by
  rw [electionGame]
  simp only [(generate_tape B101 B101_total _).1, exampleVotingElectionGuess, votingPoll,
    exampleVoting_key (votes 0) hv hc, mean_const, meanHash_const]

theorem exampleVotingElectionGuess_range (H : List Entry → ZMod 101) (K : PublicKey (ZMod 101))
    (b : Fin 2 → Option (QuadraticVotingBallot (ZMod 101) (ZMod 101)))
    (d : Fin 2 → Option (VerifiableDecryption (ZMod 101) × LogEqualityProof (ZMod 101))) :
    0 ≤ exampleVotingElectionGuess H K b d ∧ exampleVotingElectionGuess H K b d ≤ 1 := by
  unfold exampleVotingElectionGuess exampleVotingGuess
  split
  · simp
  · split <;> simp

theorem collision_term : (((2 : ℕ).choose 2 : ℕ) : ℚ) / Fintype.card (ZMod 101) = 1 / 101 := by
  rw [ZMod.card]; norm_num

-- an attacker that decrypts the first ballot wins, so that reductions have a large advantage
example : ∃ D₀ : Finset (List Entry), ∀ D, D₀ ⊆ D → ∀ H₀ : List Entry → ZMod 101,
    ∃ gaps : Fin 3 → Fin 2 → ℚ, (99 / 101 : ℚ) ≤ |∑ v, ∑ i, gaps v i| ∧
      |electionGame B101 D H₀ sameContext (choicePoll .single (fun _ => exampleVotes 0)) exampleElectionGuess -
        electionGame B101 D H₀ sameContext (choicePoll .single (fun _ => exampleVotes 2)) exampleElectionGuess| ≤
      |∑ v, ∑ i, gaps v i| + 2 / 101 := by
  obtain ⟨D₀, h⟩ := C68_any_context_private B101 B101_lawful B101_total 2 (by norm_num) sameContext
  refine ⟨D₀, fun D hD H₀ => ?_⟩
  have := h D hD H₀ .single 3 (fun _ => exampleVotes 0) (fun _ => exampleVotes 2) (fun _ v _ => by revert v; decide)
    (fun _ v _ => by revert v; decide) (fun _ => by decide) exampleElectionGuess exampleElectionGuess_range
  rw [collision_term, show (2 : ℚ) * (1 / 101) = 2 / 101 by norm_num] at this
  refine ⟨_, ?_, this⟩
  rw [sameContext_wins, sameContext_wins, if_pos rfl, if_neg (by decide), sub_zero, abs_one] at this
  linarith

example : ∃ D₀ : Finset (List Entry), ∀ D, D₀ ⊆ D → ∀ H₀ : List Entry → ZMod 101,
    (100 / 101 : ℚ) ≤ choicesGame B101 D H₀ .single (fun _ => exampleVotes 0)
      (withCounts B101 sameContext optionTotal (fun _ => ![1, 2]) exampleElectionGuess) := by
  obtain ⟨D₀, h⟩ := C68_any_context_simulation B101 B101_lawful B101_total 2 (by norm_num) sameContext
  refine ⟨D₀, fun D hD H₀ => ?_⟩
  have := h D hD H₀ .single 3 (fun _ => exampleVotes 0) (fun _ v _ => by revert v; decide) exampleElectionGuess
    exampleElectionGuess_range
  rw [show voteCounts (exampleVotes 0) = ![1, 2] by decide, sameContext_wins, if_pos rfl, collision_term] at this
  linarith [(abs_le.mp this).2]

example : ∃ D₀ : Finset (List Entry), ∀ D, D₀ ⊆ D → ∀ H₀ : List Entry → ZMod 101, ∃ gaps : Fin 2 → ℚ,
    (99 / 101 : ℚ) ≤ |∑ v, gaps v| ∧
      |electionGame B101 D H₀ sameContext (votingPoll exampleVoting fun _ => ![![0, 4], ![3, 2]])
          exampleVotingElectionGuess -
        electionGame B101 D H₀ sameContext (votingPoll exampleVoting fun _ => ![![3, 2], ![0, 4]])
          exampleVotingElectionGuess| ≤ |∑ v, gaps v| + 2 / 101 := by
  obtain ⟨D₀, h⟩ := C75_any_context_private B101 B101_lawful B101_total 2 16 4 exampleVoting exampleVoting_for.1 sameContext
  refine ⟨D₀, fun D hD H₀ => ?_⟩
  have := h D hD H₀ 2 (fun _ => ![![0, 4], ![3, 2]]) (fun _ => ![![3, 2], ![0, 4]]) (fun _ => by decide)
    (fun _ => by decide) (fun _ => by decide) (fun _ => by decide) (fun _ => by decide) exampleVotingElectionGuess
    exampleVotingElectionGuess_range
  rw [collision_term, show (2 : ℚ) * (1 / 101) = 2 / 101 by norm_num] at this
  refine ⟨_, ?_, this⟩
  rw [sameContext_voting_wins _ _ _ (by decide) (by decide), sameContext_voting_wins _ _ _ (by decide) (by decide),
    if_pos (by decide), if_neg (by decide), sub_zero, abs_one] at this
  linarith

example : ∃ D₀ : Finset (List Entry), ∀ D, D₀ ⊆ D → ∀ H₀ : List Entry → ZMod 101,
    (100 / 101 : ℚ) ≤ votersGame B101 D H₀ exampleVoting (fun _ => ![![0, 4], ![3, 2]])
      (withCounts B101 sameContext votesTotal (fun _ => ![3, 6]) exampleVotingElectionGuess) := by
  obtain ⟨D₀, h⟩ := C75_any_context_simulation B101 B101_lawful B101_total 2 16 4 exampleVoting exampleVoting_for.1
    sameContext
  refine ⟨D₀, fun D hD H₀ => ?_⟩
  have := h D hD H₀ 2 (fun _ => ![![0, 4], ![3, 2]]) (fun _ => by decide) (fun _ => by decide) exampleVotingElectionGuess
    exampleVotingElectionGuess_range
  simp only [show voteSums ![![0, 4], ![3, 2]] = ![3, 6] by decide] at this
  rw [sameContext_voting_wins _ _ _ (by decide) (by decide), if_pos (by decide), collision_term] at this
  linarith [(abs_le.mp this).2]

end Toy

end ElasticElgamal
