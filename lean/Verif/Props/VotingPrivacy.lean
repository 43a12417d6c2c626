import Verif.Lemmas.VotingPrivacy
import Verif.Props.RangePrivacy

/-!
# C74: quadratic-voting ballots hide the votes
-/

set_option autoImplicit false
set_option linter.unusedSectionVars false

namespace ElasticElgamal

open Spec

variable {F E : Type} [Field F] [Fintype F] [AddCommGroup E] [Module F E] [DecidableEq F] [DecidableEq E]

/-- The game about a ballot, with its last proof simulated, is a game about the encrypted votes. -/
theorem votingGame_votes (B : Backend F E) (hB : B.Lawful) (hT : B.TotalSer) [Finite E]
    {params : QuadraticVotingParams E} {o c m : ℕ} (hp : VotingParamsFor B params o c m) (D : Finset (List Entry))
    (hD : (sumSqData_finite B o (Transcript.new "quadratic_voting_credit_equiv")).toFinset ⊆ D) (H₀ : List Entry → F)
    (votes : PublicKey E → Fin o → ℕ) (hv : ∀ K i, votes K i ≤ m) (hc : ∀ K, cost (List.ofFn (votes K)) ≤ c)
    (guess : (List Entry → F) → PublicKey E → Option (QuadraticVotingBallot F E) → ℚ) :
    votingGame B D H₀ params votes guess =
      rangesGame B D H₀ params.voteCountRange (Transcript.new "quadratic_voting_variant") votes
        (votesAttack B params (costOf votes) guess) := by
  rw [votingGame, rangesGame]
  congr 1
  funext k
  simp only [(generate_tape B hT k).1]
  exact voting_simulation B hB hT hp _ k rfl rfl _ (hv _) (hc _) D hD H₀ guess

/-- It is also a game about the encrypted credit; here the credit need not belong to the votes. -/
theorem votes_credit_game (B : Backend F E) (D : Finset (List Entry)) (H₀ : List Entry → F)
    (params : QuadraticVotingParams E) {o : ℕ} (votes : PublicKey E → Fin o → ℕ) (credit : PublicKey E → ℕ)
    (guess : (List Entry → F) → PublicKey E → Option (QuadraticVotingBallot F E) → ℚ) :
    rangesGame B D H₀ params.voteCountRange (Transcript.new "quadratic_voting_variant") votes
        (votesAttack B params credit guess) =
      rangeGame B D H₀ params.creditRange (Transcript.new "quadratic_voting_credit_range") credit
        (creditAttack B params votes guess) := by
  rw [rangesGame, rangeGame]
  congr 1
  funext k
  split
  · rfl
  · congr 1
    funext H
    simp only [votesAttack, creditAttack]
    exact mean_comm _

/-- C74: a quadratic-voting ballot hides the votes if the decisional Diffie–Hellman problem is hard, for a random hash
function: for admissible votes chosen by the attacker from the public key, the difference of the probabilities to
output 1 is the sum of the advantages of explicit algorithms in the Diffie–Hellman game, two for each ring of each vote
and of the credit. -/
theorem C74_ballot_private (B : Backend F E) (hB : B.Lawful) (hT : B.TotalSer) (o c m : ℕ)
    (params : QuadraticVotingParams E) (hp : VotingParamsFor B params o c m) :
    ∃ D₀ : Finset (List Entry), ∀ D, D₀ ⊆ D → ∀ (H₀ : List Entry → F)
      (votes votes' : PublicKey E → Fin o → ℕ), (∀ K i, votes K i ≤ m) → (∀ K i, votes' K i ≤ m) →
      (∀ K, cost (List.ofFn (votes K)) ≤ c) → (∀ K, cost (List.ofFn (votes' K)) ≤ c) →
      ∀ guess : (List Entry → F) → PublicKey E → Option (QuadraticVotingBallot F E) → ℚ,
      votingGame B D H₀ params votes guess - votingGame B D H₀ params votes' guess =
        votingGaps B D H₀ params votes votes' guess := by
  have := hB.finite
  obtain ⟨D₁, h₁⟩ := C73_ranges_private B hB hT (m + 1) params.voteCountRange hp.votes
    (Transcript.new "quadratic_voting_variant")
  obtain ⟨D₂, h₂⟩ := C73_range_private B hB hT (c + 1) params.creditRange hp.credits
    (Transcript.new "quadratic_voting_credit_range")
  classical
  refine ⟨D₁ ∪ D₂ ∪ (sumSqData_finite B o (Transcript.new "quadratic_voting_credit_equiv")).toFinset,
    fun D hD H₀ votes votes' hv hv' hc hc' guess => ?_⟩
  have hD₁ : D₁ ⊆ D := fun x hx => hD (by simp [hx])
  have hD₂ : D₂ ⊆ D := fun x hx => hD (by simp [hx])
  have hD₃ : (sumSqData_finite B o (Transcript.new "quadratic_voting_credit_equiv")).toFinset ⊆ D :=
    Finset.subset_union_right.trans hD
  rw [votingGame_votes B hB hT hp D hD₃ H₀ votes hv hc, votingGame_votes B hB hT hp D hD₃ H₀ votes' hv' hc',
    ← sub_add_sub_cancel _ (rangesGame B D H₀ params.voteCountRange (Transcript.new "quadratic_voting_variant") votes'
      (votesAttack B params (costOf votes) guess)), votingGaps]
  refine congrArg₂ (· + ·) ?_ ?_
  · exact h₁ D hD₁ H₀ o votes votes' (fun K i => Nat.lt_succ_of_le (hv K i)) (fun K i => Nat.lt_succ_of_le (hv' K i)) _
  · rw [votes_credit_game, votes_credit_game]
    exact h₂ D hD₂ H₀ (costOf votes) (costOf votes') (fun K => Nat.lt_succ_of_le (hc K))
      (fun K => Nat.lt_succ_of_le (hc' K)) _

/-- One ballot replaced. -/
theorem embedVoter_game (B : Backend F E) (D : Finset (List Entry)) (H₀ : List Entry → F)
    (params : QuadraticVotingParams E) {n o : ℕ} (votes votes' : PublicKey E → Fin n → Fin o → ℕ)
    (guess : (List Entry → F) → PublicKey E → (Fin n → Option (QuadraticVotingBallot F E)) → ℚ) (v : Fin n)
    (w : PublicKey E → Fin o → ℕ) :
    votingGame B D H₀ params w (embedVoter B params votes votes' guess v) =
      votersGame B D H₀ params (fun K i => if i = v then w K else if i < v then votes' K i else votes K i) guess := by
  rw [votingGame, votersGame]
  congr 1
  funext k
  split
  · rfl
  · rename_i keypair _ _
    congr 1
    funext H
    simp only [embedVoter]
    rw [mean_comm]
    refine Eq.trans ?_ (mean_update v _)
    congr 1
    funext tapes
    congr 1
    funext tape
    congr 1
    funext i
    by_cases hi : i = v
    · subst hi; simp
    · simp [hi]

/-- C74 for several voters: the attacker sees all ballots and the hash function. -/
theorem C74_voters_private (B : Backend F E) (hB : B.Lawful) (hT : B.TotalSer) (o c m : ℕ)
    (params : QuadraticVotingParams E) (hp : VotingParamsFor B params o c m) :
    ∃ D₀ : Finset (List Entry), ∀ D, D₀ ⊆ D → ∀ (H₀ : List Entry → F) (n : ℕ)
      (votes votes' : PublicKey E → Fin n → Fin o → ℕ), (∀ K v i, votes K v i ≤ m) → (∀ K v i, votes' K v i ≤ m) →
      (∀ K v, cost (List.ofFn (votes K v)) ≤ c) → (∀ K v, cost (List.ofFn (votes' K v)) ≤ c) →
      ∀ guess : (List Entry → F) → PublicKey E → (Fin n → Option (QuadraticVotingBallot F E)) → ℚ,
      votersGame B D H₀ params votes guess - votersGame B D H₀ params votes' guess =
        ∑ v, votingGaps B D H₀ params (fun K => votes K v) (fun K => votes' K v)
          (embedVoter B params votes votes' guess v) := by
  obtain ⟨D₀, h⟩ := C74_ballot_private B hB hT o c m params hp
  refine ⟨D₀, fun D hD H₀ n votes votes' hv hv' hc hc' guess => ?_⟩
  let mix : ℕ → ℚ := fun s => votersGame B D H₀ params (fun K i => if i.1 < s then votes' K i else votes K i) guess
  have h0 : votersGame B D H₀ params votes guess = mix 0 := by simp [mix]
  have hn : votersGame B D H₀ params votes' guess = mix n := by simp [mix]
  rw [h0, hn, ← Finset.sum_range_sub' mix, ← Fin.sum_univ_eq_sum_range fun i => mix i - mix (i + 1)]
  refine Finset.sum_congr rfl fun v _ => ?_
  refine Eq.trans ?_ (h D hD H₀ (fun K => votes K v) (fun K => votes' K v) (fun K => hv K v) (fun K => hv' K v)
    (fun K => hc K v) (fun K => hc' K v) (embedVoter B params votes votes' guess v))
  rw [embedVoter_game, embedVoter_game]
  refine congrArg₂ (· - ·) ?_ ?_
  · refine congrArg (fun w => votersGame B D H₀ params w guess) ?_
    funext K i
    by_cases hi : i = v
    · subst hi; simp
    · simp [hi]
  · refine congrArg (fun w => votersGame B D H₀ params w guess) ?_
    funext K i
    by_cases hi : i = v
    · subst hi; simp
    · have : i.1 < v.1 + 1 ↔ i < v := by
        rw [Fin.lt_def]
        have : i.1 ≠ v.1 := fun h => hi (Fin.ext h)
        omega
      simp [hi, this]

/-- C74 with a bound: if no algorithm of the class has an advantage above `ε` in the Diffie–Hellman game, then no
attacker distinguishes the ballots of `n` voters with an advantage above `2·n·(o·r + r')·ε`, where `r` and `r'` are the
numbers of rings of the ranges for votes and for the credit. -/
theorem C74_voters_bound (B : Backend F E) (hB : B.Lawful) (hT : B.TotalSer) (o c m : ℕ)
    (params : QuadraticVotingParams E) (hp : VotingParamsFor B params o c m) :
    ∃ D₀ : Finset (List Entry), ∀ D, D₀ ⊆ D → ∀ (H₀ : List Entry → F) (n : ℕ)
      (votes votes' : PublicKey E → Fin n → Fin o → ℕ), (∀ K v i, votes K v i ≤ m) → (∀ K v i, votes' K v i ≤ m) →
      (∀ K v, cost (List.ofFn (votes K v)) ≤ c) → (∀ K v, cost (List.ofFn (votes' K v)) ≤ c) →
      ∀ (guess : (List Entry → F) → PublicKey E → (Fin n → Option (QuadraticVotingBallot F E)) → ℚ) (ε : ℚ),
      (∀ A ∈ votersReductions B D H₀ params votes votes' guess, |ddhGap B A| ≤ ε) →
      |votersGame B D H₀ params votes guess - votersGame B D H₀ params votes' guess| ≤
        2 * n * (o * rangeRings params.voteCountRange + rangeRings params.creditRange) * ε := by
  obtain ⟨D₀, h⟩ := C74_voters_private B hB hT o c m params hp
  refine ⟨D₀, fun D hD H₀ n votes votes' hv hv' hc hc' guess ε hε => ?_⟩
  rw [h D hD H₀ n votes votes' hv hv' hc hc' guess]
  have hr : ∀ (range : PreparedRange E) (t : Transcript) (w w' : PublicKey E → ℕ)
      (g : (List Entry → F) → PublicKey E → Option (Ciphertext E × RangeProof F E) → ℚ),
      (∀ A ∈ rangeReductions B D H₀ range t w w' g, |ddhGap B A| ≤ ε) →
      |rangeGaps B D H₀ range t w w' g| ≤ rangeRings range * (2 * ε) := by
    intro range t w w' g hA
    rw [rangeGaps]
    refine (Finset.abs_sum_le_sum_abs _ _).trans ?_
    refine (Finset.sum_le_sum (g := fun _ => 2 * ε) fun i _ => ?_).trans (by simp)
    have h1 := hA _ (Or.inl ⟨i, rfl⟩)
    have h2 := hA _ (Or.inr ⟨i, rfl⟩)
    refine (abs_sub _ _).trans ?_
    linarith
  refine (Finset.abs_sum_le_sum_abs _ _).trans ?_
  refine (Finset.sum_le_sum (g := fun _ => (o * rangeRings params.voteCountRange + rangeRings params.creditRange) * (2 * ε))
    fun v _ => ?_).trans (by simp; ring_nf; rfl)
  rw [votingGaps]
  refine (abs_add_le _ _).trans ?_
  have h1 := hr _ _ _ _ _ fun A hA => hε A ⟨v, Or.inr hA⟩
  have h2 : |∑ i, rangeGaps B D H₀ params.voteCountRange (Transcript.new "quadratic_voting_variant")
      (fun K => votes K v i) (fun K => votes' K v i)
      (embedRange B params.voteCountRange (Transcript.new "quadratic_voting_variant") (fun K => votes K v)
        (fun K => votes' K v)
        (votesAttack B params (costOf fun K => votes K v) (embedVoter B params votes votes' guess v)) i)| ≤
      o * (rangeRings params.voteCountRange * (2 * ε)) := by
    refine (Finset.abs_sum_le_sum_abs _ _).trans ?_
    refine (Finset.sum_le_sum (g := fun _ => rangeRings params.voteCountRange * (2 * ε)) fun i _ => ?_).trans (by simp)
    exact hr _ _ _ _ _ fun A hA => hε A ⟨v, Or.inl ⟨i, hA⟩⟩
  linarith

namespace Toy

/-- An attacker that decrypts in the toy group, and outputs 1 for the votes 0 and 4. -/
def exampleVotingGuess (_ : List Entry → ZMod 101) (K : PublicKey (ZMod 101))
    (out : Option (QuadraticVotingBallot (ZMod 101) (ZMod 101))) : ℚ :=
  match out with
  | none => 0
  | some ballot =>
    if (ballot.votes.map fun v => SecretKey.decryptToElement K.element v.ciphertext) = [0, 4] then 1 else 0

theorem exampleVoting_key (votes : Fin 2 → ℕ) (hv : ∀ i, votes i ≤ 4) (hc : cost (List.ofFn votes) ≤ 16) (k : ZMod 101)
    (H : List Entry → ZMod 101) (tape : List (ZMod 101)) :
    exampleVotingGuess H ⟨encOf B101 (k • B101.gen), k • B101.gen⟩
      (votingOutput (B101.withHash H) { exampleVoting with receiver := ⟨encOf B101 (k • B101.gen), k • B101.gen⟩ }
        (List.ofFn votes) tape) = if votes = ![0, 4] then 1 else 0 := by
  have hp : VotingParamsFor (B101.withHash H).withTape
      { exampleVoting with receiver := ⟨encOf B101 (k • B101.gen), k • B101.gen⟩ } 2 16 4 :=
    ⟨exampleVoting_for.1.options, (exampleVoting_for.1.votes.withHash H).withTape,
      (exampleVoting_for.1.credits.withHash H).withTape⟩
  obtain ⟨⟨ballot, rest⟩, h⟩ := (C36_ballot_total (B101.withHash H).withTape B101_total _ 2 16 4 hp (List.ofFn votes)
    (.inl rfl) tape).mpr ⟨by simp, fun v h => by obtain ⟨i, rfl⟩ := List.mem_ofFn.mp h; exact hv i, hc⟩
  obtain ⟨-, h2, -⟩ := C36_ballot_complete (B101.withHash H).withTape _ 2 16 4 hp k rfl _ (.inl rfl) _ _ ballot h
  have hk : k • B101.gen = k := by simp [show B101.gen = 1 from rfl]
  rw [votingOutput, h, Option.map_some, exampleVotingGuess]
  simp only
  rw [hk, h2]
  congr 1
  have : ∀ a b : Fin 5, (([a.1, b.1].map fun v : ℕ => (v : ZMod 101) • (B101.withHash fun _ => 0).withTape.gen) = [0, 4]) =
      (![a.1, b.1] = ![0, 4]) := by decide
  have h3 := this ⟨votes 0, Nat.lt_succ_of_le (hv 0)⟩ ⟨votes 1, Nat.lt_succ_of_le (hv 1)⟩
  have h4 : votes = ![votes 0, votes 1] := by funext i; fin_cases i <;> rfl
  rw [h4]
  exact h3

theorem exampleVoting_wins (D : Finset (List Entry)) (H₀ : List Entry → ZMod 101) (votes : Fin 2 → ℕ)
    (hv : ∀ i, votes i ≤ 4) (hc : cost (List.ofFn votes) ≤ 16) :
    votingGame B101 D H₀ exampleVoting (fun _ => votes) exampleVotingGuess = if votes = ![0, 4] then 1 else 0 := by
  rw [votingGame]
  simp only [(generate_tape B101 B101_total _).1, exampleVoting_key votes hv hc, mean_const, meanHash_const]

-- the advantage of the attacker is 1, so the reductions have advantages with sum 1
example : ∃ D₀ : Finset (List Entry), ∀ D, D₀ ⊆ D → ∀ H₀ : List Entry → ZMod 101,
    votingGaps B101 D H₀ exampleVoting (fun _ => ![0, 4]) (fun _ => ![3, 2]) exampleVotingGuess = 1 := by
  obtain ⟨D₀, h⟩ := C74_ballot_private B101 B101_lawful B101_total 2 16 4 exampleVoting exampleVoting_for.1
  refine ⟨D₀, fun D hD H₀ => ?_⟩
  rw [← h D hD H₀ (fun _ => ![0, 4]) (fun _ => ![3, 2]) (fun _ => by decide) (fun _ => by decide) (fun _ => by decide)
    (fun _ => by decide) exampleVotingGuess, exampleVoting_wins D H₀ _ (by decide) (by decide),
    exampleVoting_wins D H₀ _ (by decide) (by decide), if_pos rfl, if_neg (by decide), sub_zero]

-- two voters exchange their votes
example : ∃ D₀ : Finset (List Entry), ∀ D, D₀ ⊆ D → ∀ (H₀ : List Entry → ZMod 101)
    (guess : (List Entry → ZMod 101) → PublicKey (ZMod 101) →
      (Fin 2 → Option (QuadraticVotingBallot (ZMod 101) (ZMod 101))) → ℚ), ∃ gaps : Fin 2 → ℚ,
    votersGame B101 D H₀ exampleVoting (fun _ => ![![0, 4], ![3, 2]]) guess -
      votersGame B101 D H₀ exampleVoting (fun _ => ![![3, 2], ![0, 4]]) guess = ∑ v, gaps v := by
  obtain ⟨D₀, h⟩ := C74_voters_private B101 B101_lawful B101_total 2 16 4 exampleVoting exampleVoting_for.1
  exact ⟨D₀, fun D hD H₀ guess => ⟨_, h D hD H₀ 2 _ _ (fun _ => by decide) (fun _ => by decide) (fun _ => by decide)
    (fun _ => by decide) guess⟩⟩

-- some reduction has a positive advantage: for one voter the sum is 1
example : ∃ D₀ : Finset (List Entry), ∀ D, D₀ ⊆ D → ∀ H₀ : List Entry → ZMod 101,
    ∃ A ∈ votersReductions B101 D H₀ exampleVoting (n := 1) (fun _ _ => ![0, 4]) (fun _ _ => ![3, 2])
      (fun H K outs => exampleVotingGuess H K (outs 0)), 0 < |ddhGap B101 A| := by
  obtain ⟨D₀, h⟩ := C74_voters_bound B101 B101_lawful B101_total 2 16 4 exampleVoting exampleVoting_for.1
  refine ⟨D₀, fun D hD H₀ => ?_⟩
  by_contra hA
  push Not at hA
  have := h D hD H₀ 1 (fun _ _ => ![0, 4]) (fun _ _ => ![3, 2]) (fun _ => by decide) (fun _ => by decide)
    (fun _ => by decide) (fun _ => by decide) (fun H K outs => exampleVotingGuess H K (outs 0)) 0 hA
  have h0 : ∀ votes : Fin 2 → ℕ, (∀ i, votes i ≤ 4) → cost (List.ofFn votes) ≤ 16 →
      votersGame B101 D H₀ exampleVoting (n := 1) (fun _ _ => votes) (fun H K outs => exampleVotingGuess H K (outs 0)) =
        if votes = ![0, 4] then 1 else 0 := by
    intro votes hv hc
    rw [votersGame]
    simp only [(generate_tape B101 B101_total _).1, exampleVoting_key votes hv hc, mean_const, meanHash_const]
  rw [h0 _ (by decide) (by decide), h0 _ (by decide) (by decide)] at this
  norm_num at this

end Toy

end ElasticElgamal
