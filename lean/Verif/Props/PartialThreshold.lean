import Verif.Lemmas.PartialThreshold
import Verif.Props.PartialVoting

/-!
# C94 for elections with a shared key
-/

set_option autoImplicit false
set_option linter.unusedSectionVars false

namespace ElasticElgamal

open Spec

section
variable {F E : Type} [Field F] [Fintype F] [AddCommGroup E] [Module F E] [DecidableEq F] [DecidableEq E]

theorem thresholdShownIf_range {β : Type} {n o c : ℕ} {B : Backend F E} {params : Params}
    {totals : (Fin n → Option β) → Fin o → Ciphertext E} {ok : (List Entry → F) → PublicKey E → β → Bool}
    {guess : (List Entry → F) → ThresholdView F E β n o c params.shares → ℚ}
    (hg : ∀ H view, 0 ≤ guess H view ∧ guess H view ≤ 1) (H : List Entry → F)
    (view : ThresholdView F E β n o c params.shares) :
    0 ≤ thresholdShownIf B params totals ok guess H view ∧ thresholdShownIf B params totals ok guess H view ≤ 1 := by
  rw [thresholdShownIf]
  split
  · exact hg _ _
  · norm_num

/-- C94 for elections with a key shared by a dealer, of which an attacker knows `threshold - 1` shares: the advantage is
that of C69, for an attacker that is shown less. Shares of decryptions are published only if all ballots could be
created; the attacker sees which proofs and shares are missing. -/
theorem C94_threshold_private (B : Backend F E) (hB : B.Lawful) (spare : Bytes) (hs : SpareEncoding B spare)
    (p : ℕ) [CharP F p] (params : Params) (hv : ValidParams params) (hp : params.shares < p) (o : ℕ) (ho : 0 < o) :
    ∃ D₀ : Finset (List Entry), ∀ D, D₀ ⊆ D → ∀ (H₀ : List Entry → F) (kind : ChoiceKind) (n c : ℕ) (bad : Fin c → ℕ),
      params.threshold = c + 1 → Function.Injective bad → (∀ a, bad a < params.shares) →
      ∀ votes votes' : PublicKey E → Fin n → Fin o → Bool,
      (∀ K v, kind = .single → (List.ofFn (votes K v)).count true = 1) →
      (∀ K v, kind = .single → (List.ofFn (votes' K v)).count true = 1) →
      (∀ K, voteCounts (votes K) = voteCounts (votes' K)) →
      ∀ guess : (List Entry → F) → ThresholdView F E (EncryptedChoice F E kind) n o c params.shares → ℚ,
      (∀ H view, 0 ≤ guess H view ∧ guess H view ≤ 1) →
      |fullThresholdGame B D H₀ params bad (choicePoll kind votes) guess -
          fullThresholdGame B D H₀ params bad (choicePoll kind votes') guess| ≤
        |∑ v, ∑ i, (ddhGap B (hybridReduction B
            (onKey (totalize B spare) (fun _ => 0) fun K j => if votes K v j then B.gen else 0)
            (onKey (totalize B spare) (fun _ => 0) (simulatedGuess (totalize B spare) D H₀
              (embedBallot (totalize B spare) votes votes' (withShares (totalize B spare) params bad optionTotal
                (fun K => voteCounts (votes K)) (thresholdShownIf B params optionTotal (canVerify B o) guess)) v))) i) -
          ddhGap B (hybridReduction B
            (onKey (totalize B spare) (fun _ => 0) fun K j => if votes' K v j then B.gen else 0)
            (onKey (totalize B spare) (fun _ => 0) (simulatedGuess (totalize B spare) D H₀
              (embedBallot (totalize B spare) votes votes' (withShares (totalize B spare) params bad optionTotal
                (fun K => voteCounts (votes K)) (thresholdShownIf B params optionTotal (canVerify B o) guess)) v))) i))| +
        2 * (((1 + params.shares + params.shares * o).choose 2 : ℚ) / Fintype.card F) := by
  obtain ⟨D₀, h⟩ := C69_threshold_private (totalize B spare) (hB.totalize hs) (totalize_total B spare) p params hv hp o ho
  refine ⟨D₀, fun D hD H₀ kind n c bad hc hi hb votes votes' hone hone' heq guess hg => ?_⟩
  have hpoll : ∀ votes : PublicKey E → Fin n → Fin o → Bool,
      (∀ K v, kind = .single → (List.ofFn (votes K v)).count true = 1) →
      fullThresholdGame B D H₀ params bad (choicePoll kind votes) guess = thresholdGame (totalize B spare) D H₀ params bad
        (choicePoll kind votes) (thresholdShownIf B params optionTotal (canVerify B o) guess) := by
    intro votes hone
    refine fullThresholdGame_partial B D H₀ bad (choicePoll kind votes) (canVerify B o) (fun H K => ?_) guess
    exact ⟨fun v tape => (EncryptedChoice.new (B.withHash H).withTape ⟨o, K⟩ (List.ofFn (votes K v))
        (List.ofFn tape)).map Prod.fst,
      fun v tape => (EncryptedChoice.new ((totalize B spare).withHash H).withTape ⟨o, K⟩ (List.ofFn (votes K v))
        (List.ofFn tape)).map Prod.fst, fun tapes => rfl, fun tapes => rfl, fun v =>
      choice_partial (B.withHash H) (hB.withHash H) (spare := spare) hs ho.ne' K (votes K v) (hone K v)⟩
  rw [hpoll votes hone, hpoll votes' hone']
  exact h D hD H₀ kind n c bad hc hi hb votes votes' hone hone' heq _ (thresholdShownIf_range hg)

/-- C94 for elections with quadratic voting and a shared key. -/
theorem C94_voting_threshold_private (B : Backend F E) (hB : B.Lawful) (spare : Bytes) (hs : SpareEncoding B spare)
    (p : ℕ) [CharP F p] (key : Params) (hk : ValidParams key) (hsh : key.shares < p) (o c m : ℕ)
    (params : QuadraticVotingParams E) (hp : VotingParamsFor B params o c m) :
    ∃ D₀ : Finset (List Entry), ∀ D, D₀ ⊆ D → ∀ (H₀ : List Entry → F) (n b : ℕ) (bad : Fin b → ℕ),
      key.threshold = b + 1 → Function.Injective bad → (∀ a, bad a < key.shares) →
      ∀ votes votes' : PublicKey E → Fin n → Fin o → ℕ, (∀ K v i, votes K v i ≤ m) → (∀ K v i, votes' K v i ≤ m) →
      (∀ K v, cost (List.ofFn (votes K v)) ≤ c) → (∀ K v, cost (List.ofFn (votes' K v)) ≤ c) →
      (∀ K, voteSums (votes K) = voteSums (votes' K)) →
      ∀ guess : (List Entry → F) → ThresholdView F E (QuadraticVotingBallot F E) n o b key.shares → ℚ,
      (∀ H view, 0 ≤ guess H view ∧ guess H view ≤ 1) →
      |fullThresholdGame B D H₀ key bad (votingPoll params votes) guess -
        fullThresholdGame B D H₀ key bad (votingPoll params votes') guess| ≤
      |∑ v, votingGaps (totalize B spare) D H₀ params (fun K => votes K v) (fun K => votes' K v)
          (embedVoter (totalize B spare) params votes votes' (withShares (totalize B spare) key bad votesTotal
            (fun K => voteSums (votes K)) (thresholdShownIf B key votesTotal (canVerifyBallot B params) guess)) v)| +
        2 * (((1 + key.shares + key.shares * o).choose 2 : ℚ) / Fintype.card F) := by
  obtain ⟨D₀, h⟩ := C75_threshold_private (totalize B spare) (hB.totalize hs) (totalize_total B spare) p key hk hsh o c m
    params (hp.totalize spare)
  refine ⟨D₀, fun D hD H₀ n b bad hb hi hbad votes votes' hv hv' hc hc' heq guess hg => ?_⟩
  have hpoll : ∀ votes : PublicKey E → Fin n → Fin o → ℕ, (∀ K v i, votes K v i ≤ m) →
      (∀ K v, cost (List.ofFn (votes K v)) ≤ c) →
      fullThresholdGame B D H₀ key bad (votingPoll params votes) guess = thresholdGame (totalize B spare) D H₀ key bad
        (votingPoll params votes) (thresholdShownIf B key votesTotal (canVerifyBallot B params) guess) := by
    intro votes hv hc
    refine fullThresholdGame_partial B D H₀ bad (votingPoll params votes) (canVerifyBallot B params) (fun H K => ?_) guess
    exact ⟨fun v tape => votingOutput (B.withHash H) { params with receiver := K } (List.ofFn (votes K v))
        (List.ofFn tape),
      fun v tape => votingOutput ((totalize B spare).withHash H) { params with receiver := K } (List.ofFn (votes K v))
        (List.ofFn tape), fun tapes => rfl, fun tapes => rfl, fun v =>
      voting_partial (B.withHash H) (hB.withHash H) (spare := spare) hs (hp.change H K) (votes K v) (hv K v) (hc K v)⟩
  rw [hpoll votes hv hc, hpoll votes' hv' hc']
  exact h D hD H₀ n b bad hb hi hbad votes votes' hv hv' hc hc' heq _ (thresholdShownIf_range hg)

end

namespace Toy

-- an attacker that knows the share of participant 1 and looks for panics of participant 0 (2 of 3 shares)
example : ∃ D₀ : Finset (List Entry), ∀ D, D₀ ⊆ D → ∀ H₀ : List Entry → ZMod 101, ∃ gaps : Fin 3 → Fin 2 → ℚ,
    |fullThresholdGame S101 D H₀ ⟨3, 2⟩ ![1] (choicePoll .single (fun _ => exampleVotes 0))
        (fun _ view => if (view.possession 0).isSome then 0 else 1) -
      fullThresholdGame S101 D H₀ ⟨3, 2⟩ ![1] (choicePoll .single (fun _ => exampleVotes 2))
        (fun _ view => if (view.possession 0).isSome then 0 else 1)| ≤ |∑ v, ∑ i, gaps v i| + 90 / 101 := by
  obtain ⟨D₀, h⟩ := C94_threshold_private S101 S101_lawful [0, 0] S101_spare 101 ⟨3, 2⟩ (by constructor <;> decide)
    (by decide) 2 (by norm_num)
  refine ⟨D₀, fun D hD H₀ => ?_⟩
  have := h D hD H₀ .single 3 1 ![1] rfl (by decide) (by decide) (fun _ => exampleVotes 0) (fun _ => exampleVotes 2)
    (fun _ v _ => by revert v; decide) (fun _ v _ => by revert v; decide) (fun _ => by decide)
    (fun _ view => if (view.possession 0).isSome then 0 else 1) (fun _ view => by split <;> norm_num)
  rw [show (((1 + (⟨3, 2⟩ : Params).shares + (⟨3, 2⟩ : Params).shares * 2).choose 2 : ℕ) : ℚ) /
    Fintype.card (ZMod 101) = 45 / 101 by rw [ZMod.card]; norm_num [Nat.choose]] at this
  exact ⟨_, this.trans (le_of_eq (by ring))⟩

example : ∃ D₀ : Finset (List Entry), ∀ D, D₀ ⊆ D → ∀ H₀ : List Entry → ZMod 101, ∃ gaps : Fin 2 → ℚ,
    |fullThresholdGame S101 D H₀ ⟨3, 2⟩ ![1] (votingPoll exampleVoting fun _ => ![![0, 4], ![3, 2]])
        exampleVotingThresholdGuess -
      fullThresholdGame S101 D H₀ ⟨3, 2⟩ ![1] (votingPoll exampleVoting fun _ => ![![3, 2], ![0, 4]])
        exampleVotingThresholdGuess| ≤ |∑ v, gaps v| + 90 / 101 := by
  obtain ⟨D₀, h⟩ := C94_voting_threshold_private S101 S101_lawful [0, 0] S101_spare 101 ⟨3, 2⟩ (by constructor <;> decide)
    (by decide) 2 16 4 exampleVoting exampleVoting_sec1
  refine ⟨D₀, fun D hD H₀ => ?_⟩
  have := h D hD H₀ 2 1 ![1] rfl (by decide) (by decide) (fun _ => ![![0, 4], ![3, 2]]) (fun _ => ![![3, 2], ![0, 4]])
    (fun _ => by decide) (fun _ => by decide) (fun _ => by decide) (fun _ => by decide) (fun _ => by decide)
    exampleVotingThresholdGuess exampleVotingThreshold_range
  rw [show (((1 + (⟨3, 2⟩ : Params).shares + (⟨3, 2⟩ : Params).shares * 2).choose 2 : ℕ) : ℚ) /
    Fintype.card (ZMod 101) = 45 / 101 by rw [ZMod.card]; norm_num [Nat.choose]] at this
  exact ⟨_, this.trans (le_of_eq (by ring))⟩

end Toy

end ElasticElgamal
