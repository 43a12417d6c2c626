import Verif.Lemmas.PartialDkg
import Verif.Props.PartialVoting
import Verif.Props.DkgVoting

/-!
# C94 for elections with distributed key generation
-/

set_option autoImplicit false
set_option linter.unusedSectionVars false

namespace ElasticElgamal

open Spec

section
variable {F E : Type} [Field F] [Fintype F] [AddCommGroup E] [Module F E] [DecidableEq F] [DecidableEq E]

theorem dkgShownIf_range {β : Type} {n o c : ℕ} {B : Backend F E} {params : Params}
    {totals : (Fin n → Option β) → Fin o → Ciphertext E} {ok : (List Entry → F) → PublicKey E → β → Bool}
    {guess : (List Entry → F) → ThresholdView F E β n o c params.shares → ℚ}
    (hg : ∀ H view, 0 ≤ guess H view ∧ guess H view ≤ 1) (H : List Entry → F)
    (view : ThresholdView F E β n o c params.shares) :
    0 ≤ dkgShownIf B params totals ok guess H view ∧ dkgShownIf B params totals ok guess H view ≤ 1 := by
  rw [dkgShownIf]
  split
  · exact hg _ _
  · norm_num

/-- C94 for elections with a key made by distributed key generation, where the attacker chooses the polynomials of all
participants but one and knows `threshold - 1` shares of the polynomial of that one: the advantage is that of C81, for an
attacker that is shown less. Shares of decryptions are published only if all ballots could be created; the attacker
sees which proofs and shares are missing. -/
theorem C94_dkg_private (B : Backend F E) (hB : B.Lawful) (spare : Bytes) (hs : SpareEncoding B spare)
    (p : ℕ) [CharP F p] (params : Params) (hv : ValidParams params) (hp : params.shares < p) (o : ℕ) (ho : 0 < o) :
    ∃ D₀ : Finset (List Entry), ∀ D, D₀ ⊆ D → ∀ (H₀ : List Entry → F) (kind : ChoiceKind) (n c : ℕ) (bad : Fin c → ℕ),
      params.threshold = c + 1 → Function.Injective bad → (∀ a, bad a < params.shares) →
      ∀ (honest : Fin params.shares) (others : DkgStrategy F E params c),
      (∀ H H', (∀ q, ¬ ElectionData q → H q = H' q) → others H = others H') →
      ∀ votes votes' : PublicKey E → Fin n → Fin o → Bool,
      (∀ K v, kind = .single → (List.ofFn (votes K v)).count true = 1) →
      (∀ K v, kind = .single → (List.ofFn (votes' K v)).count true = 1) →
      (∀ K, voteCounts (votes K) = voteCounts (votes' K)) →
      ∀ guess : (List Entry → F) → ThresholdView F E (EncryptedChoice F E kind) n o c params.shares → ℚ,
      (∀ H view, 0 ≤ guess H view ∧ guess H view ≤ 1) →
      |fullDkgGame B D H₀ params honest bad others (choicePoll kind votes) guess -
        fullDkgGame B D H₀ params honest bad others (choicePoll kind votes') guess| ≤
      |∑ v, ∑ i, (ddhGap B (dkgReduction (totalize B spare) D H₀ params honest bad others votes votes' votes
          (dkgShownIf B params optionTotal (canVerify B o) guess) v i) -
        ddhGap B (dkgReduction (totalize B spare) D H₀ params honest bad others votes votes' votes'
          (dkgShownIf B params optionTotal (canVerify B o) guess) v i))| +
      2 * (((params.shares + params.shares * o).choose 2 : ℚ) / Fintype.card F) := by
  obtain ⟨D₀, h⟩ := C81_dkg_private (totalize B spare) (hB.totalize hs) (totalize_total B spare) p params hv hp o ho
  refine ⟨D₀, fun D hD H₀ kind n c bad hc hi hb honest others hothers votes votes' hone hone' heq guess hg => ?_⟩
  have hpoll : ∀ votes : PublicKey E → Fin n → Fin o → Bool,
      (∀ K v, kind = .single → (List.ofFn (votes K v)).count true = 1) →
      fullDkgGame B D H₀ params honest bad others (choicePoll kind votes) guess =
        dkgGame (totalize B spare) D H₀ params honest bad others
          (choicePoll kind votes) (dkgShownIf B params optionTotal (canVerify B o) guess) := by
    intro votes hone
    refine fullDkgGame_partial B D H₀ honest bad others (choicePoll kind votes) (canVerify B o) (fun H K => ?_) guess
    exact ⟨fun v tape => (EncryptedChoice.new (B.withHash H).withTape ⟨o, K⟩ (List.ofFn (votes K v))
        (List.ofFn tape)).map Prod.fst,
      fun v tape => (EncryptedChoice.new ((totalize B spare).withHash H).withTape ⟨o, K⟩ (List.ofFn (votes K v))
        (List.ofFn tape)).map Prod.fst, fun tapes => rfl, fun tapes => rfl, fun v =>
      choice_partial (B.withHash H) (hB.withHash H) (spare := spare) hs ho.ne' K (votes K v) (hone K v)⟩
  rw [hpoll votes hone, hpoll votes' hone']
  exact h D hD H₀ kind n c bad hc hi hb honest others hothers votes votes' hone hone' heq _ (dkgShownIf_range hg)

/-- C94 for elections with quadratic voting and distributed key generation. -/
theorem C94_voting_dkg_private (B : Backend F E) (hB : B.Lawful) (spare : Bytes) (hs : SpareEncoding B spare)
    (p : ℕ) [CharP F p] (key : Params) (hk : ValidParams key) (hsh : key.shares < p) (o c m : ℕ)
    (params : QuadraticVotingParams E) (hp : VotingParamsFor B params o c m) :
    ∃ D₀ : Finset (List Entry), ∀ D, D₀ ⊆ D → ∀ (H₀ : List Entry → F) (n b : ℕ) (bad : Fin b → ℕ),
      key.threshold = b + 1 → Function.Injective bad → (∀ a, bad a < key.shares) →
      ∀ (honest : Fin key.shares) (others : DkgStrategy F E key b),
      (∀ H H', (∀ q, ¬ ElectionData q → H q = H' q) → others H = others H') →
      ∀ votes votes' : PublicKey E → Fin n → Fin o → ℕ, (∀ K v i, votes K v i ≤ m) → (∀ K v i, votes' K v i ≤ m) →
      (∀ K v, cost (List.ofFn (votes K v)) ≤ c) → (∀ K v, cost (List.ofFn (votes' K v)) ≤ c) →
      (∀ K, voteSums (votes K) = voteSums (votes' K)) →
      ∀ guess : (List Entry → F) → ThresholdView F E (QuadraticVotingBallot F E) n o b key.shares → ℚ,
      (∀ H view, 0 ≤ guess H view ∧ guess H view ≤ 1) →
      |fullDkgGame B D H₀ key honest bad others (votingPoll params votes) guess -
        fullDkgGame B D H₀ key honest bad others (votingPoll params votes') guess| ≤
      |∑ v, dkgVotingGaps (totalize B spare) D H₀ key honest bad others params votes votes'
          (dkgShownIf B key votesTotal (canVerifyBallot B params) guess) v| +
        2 * (((key.shares + key.shares * o).choose 2 : ℚ) / Fintype.card F) := by
  obtain ⟨D₀, h⟩ := C85_voting_private (totalize B spare) (hB.totalize hs) (totalize_total B spare) p key hk hsh o c m
    params (hp.totalize spare)
  refine ⟨D₀, fun D hD H₀ n b bad hb hi hbad honest others hothers votes votes' hv hv' hc hc' heq guess hg => ?_⟩
  have hpoll : ∀ votes : PublicKey E → Fin n → Fin o → ℕ, (∀ K v i, votes K v i ≤ m) →
      (∀ K v, cost (List.ofFn (votes K v)) ≤ c) →
      fullDkgGame B D H₀ key honest bad others (votingPoll params votes) guess =
        dkgGame (totalize B spare) D H₀ key honest bad others
        (votingPoll params votes) (dkgShownIf B key votesTotal (canVerifyBallot B params) guess) := by
    intro votes hv hc
    refine fullDkgGame_partial B D H₀ honest bad others (votingPoll params votes) (canVerifyBallot B params) (fun H K => ?_)
      guess
    exact ⟨fun v tape => votingOutput (B.withHash H) { params with receiver := K } (List.ofFn (votes K v))
        (List.ofFn tape),
      fun v tape => votingOutput ((totalize B spare).withHash H) { params with receiver := K } (List.ofFn (votes K v))
        (List.ofFn tape), fun tapes => rfl, fun tapes => rfl, fun v =>
      voting_partial (B.withHash H) (hB.withHash H) (spare := spare) hs (hp.change H K) (votes K v) (hv K v) (hc K v)⟩
  rw [hpoll votes hv hc, hpoll votes' hv' hc']
  exact h D hD H₀ n b bad hb hi hbad honest others hothers votes votes' hv hv' hc hc' heq _ (dkgShownIf_range hg)

end

namespace Toy

-- an attacker that makes participants 0 and 1 and looks for panics of participant 2 (2 of 3 shares)
example : ∃ D₀ : Finset (List Entry), ∀ D, D₀ ⊆ D → ∀ H₀ : List Entry → ZMod 101, ∃ gaps : Fin 3 → Fin 2 → ℚ,
    |fullDkgGame S101 D H₀ ⟨3, 2⟩ 2 ![1] (exampleStrategy 0) (choicePoll .single (fun _ => exampleVotes 0))
        (fun _ view => if (view.possession 2).isSome then 0 else 1) -
      fullDkgGame S101 D H₀ ⟨3, 2⟩ 2 ![1] (exampleStrategy 0) (choicePoll .single (fun _ => exampleVotes 2))
        (fun _ view => if (view.possession 2).isSome then 0 else 1)| ≤ |∑ v, ∑ i, gaps v i| + 72 / 101 := by
  obtain ⟨D₀, h⟩ := C94_dkg_private S101 S101_lawful [0, 0] S101_spare 101 ⟨3, 2⟩ (by constructor <;> decide)
    (by decide) 2 (by norm_num)
  refine ⟨D₀, fun D hD H₀ => ?_⟩
  have := h D hD H₀ .single 3 1 ![1] rfl (by decide) (by decide) 2 (exampleStrategy 0) (exampleStrategy_hash 0)
    (fun _ => exampleVotes 0) (fun _ => exampleVotes 2)
    (fun _ v _ => by revert v; decide) (fun _ v _ => by revert v; decide) (fun _ => by decide)
    (fun _ view => if (view.possession 2).isSome then 0 else 1) (fun _ view => by split <;> norm_num)
  rw [show ((((⟨3, 2⟩ : Params).shares + (⟨3, 2⟩ : Params).shares * 2).choose 2 : ℕ) : ℚ) /
    Fintype.card (ZMod 101) = 36 / 101 by rw [ZMod.card]; norm_num [Nat.choose]] at this
  exact ⟨_, this.trans (le_of_eq (by ring))⟩

example : ∃ D₀ : Finset (List Entry), ∀ D, D₀ ⊆ D → ∀ H₀ : List Entry → ZMod 101, ∃ gaps : Fin 2 → ℚ,
    |fullDkgGame S101 D H₀ ⟨3, 2⟩ 2 ![1] (exampleStrategy 0) (votingPoll exampleVoting fun _ => ![![0, 4], ![3, 2]])
        exampleVotingThresholdGuess -
      fullDkgGame S101 D H₀ ⟨3, 2⟩ 2 ![1] (exampleStrategy 0) (votingPoll exampleVoting fun _ => ![![3, 2], ![0, 4]])
        exampleVotingThresholdGuess| ≤ |∑ v, gaps v| + 72 / 101 := by
  obtain ⟨D₀, h⟩ := C94_voting_dkg_private S101 S101_lawful [0, 0] S101_spare 101 ⟨3, 2⟩ (by constructor <;> decide)
    (by decide) 2 16 4 exampleVoting exampleVoting_sec1
  refine ⟨D₀, fun D hD H₀ => ?_⟩
  have := h D hD H₀ 2 1 ![1] rfl (by decide) (by decide) 2 (exampleStrategy 0) (exampleStrategy_hash 0)
    (fun _ => ![![0, 4], ![3, 2]]) (fun _ => ![![3, 2], ![0, 4]])
    (fun _ => by decide) (fun _ => by decide) (fun _ => by decide) (fun _ => by decide) (fun _ => by decide)
    exampleVotingThresholdGuess exampleVotingThreshold_range
  rw [show ((((⟨3, 2⟩ : Params).shares + (⟨3, 2⟩ : Params).shares * 2).choose 2 : ℕ) : ℚ) /
    Fintype.card (ZMod 101) = 36 / 101 by rw [ZMod.card]; norm_num [Nat.choose]] at this
  exact ⟨_, this.trans (le_of_eq (by ring))⟩

end Toy

end ElasticElgamal
