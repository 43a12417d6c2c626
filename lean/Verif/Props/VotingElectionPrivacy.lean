import Verif.Lemmas.VotingTally
import Verif.Props.VotingPrivacy
import Verif.Props.ThresholdPrivacy

/-!
# C75: elections with quadratic voting hide votes
-/

set_option autoImplicit false
set_option linter.unusedSectionVars false

namespace ElasticElgamal

open Spec

variable {F E : Type} [Field F] [Fintype F] [AddCommGroup E] [Module F E] [DecidableEq F] [DecidableEq E]

/-- C75: publishing decryptions of the totals of quadratic voting with their proofs reveals nothing but the totals: the
ballots, the decryptions and the random hash function are distributed as if decryptions and proofs were made from the
totals without the secret key. -/
theorem C75_decryption_simulation (B : Backend F E) (hB : B.Lawful) (hT : B.TotalSer) (o c m : ℕ)
    (params : QuadraticVotingParams E) (hp : VotingParamsFor B params o c m)
    (t : Fin o → Transcript) (ht : Function.Injective t) :
    ∃ D₀ : Finset (List Entry), ∀ D, D₀ ⊆ D → ∀ (H₀ : List Entry → F) (n : ℕ)
      (votes : PublicKey E → Fin n → Fin o → ℕ), (∀ K v i, votes K v i ≤ m) →
      (∀ K v, cost (List.ofFn (votes K v)) ≤ c) →
      ∀ guess : (List Entry → F) → PublicKey E → (Fin n → Option (QuadraticVotingBallot F E)) →
        (Fin o → Option (VerifiableDecryption E × LogEqualityProof F)) → ℚ,
      electionGame B D H₀ t (votingPoll params votes) guess =
        votersGame B D H₀ params votes (withCounts B t votesTotal (fun K => voteSums (votes K)) guess) := by
  have := hB.finite
  refine ⟨(decData_finite B t).toFinset, fun D hD H₀ n votes hv hc guess => ?_⟩
  rw [electionGame, votersGame]
  congr 1
  funext k
  simp only [(generate_tape B hT k).1]
  choose cts hcts hdh using voting_totals B hB hT hp ⟨encOf B (k • B.gen), k • B.gen⟩ k rfl votes (hv _) (hc _)
  exact poll_decryptions B hT (votingPoll params votes) ⟨encOf B (k • B.gen), k • B.gen⟩ k rfl
    (fun K => voteSums (votes K)) (fun H H' h => votingPoll_congr B params votes _ H H' h) cts
    (fun H tapes => hcts tapes H) hdh t ht D hD H₀ guess

/-- C75: elections with quadratic voting and published results hide everything but the totals of votes if the decisional
Diffie–Hellman problem is hard, for a random hash function: for votes with the same totals, the difference of
the probabilities that the attacker outputs 1 is a sum of advantages of explicit algorithms in the Diffie–Hellman game.
The attacker sees all ballots, and the decryptions of all totals with their proofs. -/
theorem C75_election_private (B : Backend F E) (hB : B.Lawful) (hT : B.TotalSer) (o c m : ℕ)
    (params : QuadraticVotingParams E) (hp : VotingParamsFor B params o c m)
    (t : Fin o → Transcript) (ht : Function.Injective t) :
    ∃ D₀ : Finset (List Entry), ∀ D, D₀ ⊆ D → ∀ (H₀ : List Entry → F) (n : ℕ)
      (votes votes' : PublicKey E → Fin n → Fin o → ℕ), (∀ K v i, votes K v i ≤ m) → (∀ K v i, votes' K v i ≤ m) →
      (∀ K v, cost (List.ofFn (votes K v)) ≤ c) → (∀ K v, cost (List.ofFn (votes' K v)) ≤ c) →
      (∀ K, voteSums (votes K) = voteSums (votes' K)) →
      ∀ guess : (List Entry → F) → PublicKey E → (Fin n → Option (QuadraticVotingBallot F E)) →
        (Fin o → Option (VerifiableDecryption E × LogEqualityProof F)) → ℚ,
      electionGame B D H₀ t (votingPoll params votes) guess - electionGame B D H₀ t (votingPoll params votes') guess =
        ∑ v, votingGaps B D H₀ params (fun K => votes K v) (fun K => votes' K v) (embedVoter B params votes votes'
          (withCounts B t votesTotal (fun K => voteSums (votes K)) guess) v) := by
  obtain ⟨D₁, h1⟩ := C75_decryption_simulation B hB hT o c m params hp t ht
  obtain ⟨D₂, h2⟩ := C74_voters_private B hB hT o c m params hp
  classical
  refine ⟨D₁ ∪ D₂, fun D hD H₀ n votes votes' hv hv' hc hc' hs guess => ?_⟩
  rw [h1 D (Finset.union_subset_left hD) H₀ n votes hv hc guess,
    h1 D (Finset.union_subset_left hD) H₀ n votes' hv' hc' guess, ← funext hs,
    h2 D (Finset.union_subset_right hD) H₀ n votes votes' hv hv' hc hc']

/-- C75 with a bound: if no algorithm of the class has an advantage above `ε` in the Diffie–Hellman game, then no
attacker distinguishes votes with the same totals with an advantage above `2·n·(o·r + r')·ε`. -/
theorem C75_election_bound (B : Backend F E) (hB : B.Lawful) (hT : B.TotalSer) (o c m : ℕ)
    (params : QuadraticVotingParams E) (hp : VotingParamsFor B params o c m)
    (t : Fin o → Transcript) (ht : Function.Injective t) :
    ∃ D₀ : Finset (List Entry), ∀ D, D₀ ⊆ D → ∀ (H₀ : List Entry → F) (n : ℕ)
      (votes votes' : PublicKey E → Fin n → Fin o → ℕ), (∀ K v i, votes K v i ≤ m) → (∀ K v i, votes' K v i ≤ m) →
      (∀ K v, cost (List.ofFn (votes K v)) ≤ c) → (∀ K v, cost (List.ofFn (votes' K v)) ≤ c) →
      (∀ K, voteSums (votes K) = voteSums (votes' K)) →
      ∀ (guess : (List Entry → F) → PublicKey E → (Fin n → Option (QuadraticVotingBallot F E)) →
        (Fin o → Option (VerifiableDecryption E × LogEqualityProof F)) → ℚ) (ε : ℚ),
      (∀ A ∈ votersReductions B D H₀ params votes votes'
        (withCounts B t votesTotal (fun K => voteSums (votes K)) guess), |ddhGap B A| ≤ ε) →
      |electionGame B D H₀ t (votingPoll params votes) guess - electionGame B D H₀ t (votingPoll params votes') guess| ≤
        2 * n * (o * rangeRings params.voteCountRange + rangeRings params.creditRange) * ε := by
  obtain ⟨D₁, h1⟩ := C75_decryption_simulation B hB hT o c m params hp t ht
  obtain ⟨D₂, h2⟩ := C74_voters_bound B hB hT o c m params hp
  classical
  refine ⟨D₁ ∪ D₂, fun D hD H₀ n votes votes' hv hv' hc hc' hs guess ε hε => ?_⟩
  rw [h1 D (Finset.union_subset_left hD) H₀ n votes hv hc guess,
    h1 D (Finset.union_subset_left hD) H₀ n votes' hv' hc' guess, ← funext hs]
  exact h2 D (Finset.union_subset_right hD) H₀ n votes votes' hv hv' hc hc' _ ε hε

/-! ### Shared keys -/

/-- C75: everything published in an election with quadratic voting and a shared key, together with the secret shares of
`threshold - 1` participants, can be made from the ballots and the totals of votes. Probabilities differ only if two of
the `1 + shares + shares · options` proofs hash the same data. -/
theorem C75_threshold_simulation (B : Backend F E) (hB : B.Lawful) (hT : B.TotalSer) (p : ℕ) [CharP F p]
    (key : Params) (hk : ValidParams key) (hs : key.shares < p) (o c m : ℕ) (params : QuadraticVotingParams E)
    (hp : VotingParamsFor B params o c m) :
    ∃ D₀ : Finset (List Entry), ∀ D, D₀ ⊆ D → ∀ (H₀ : List Entry → F) (n b : ℕ) (bad : Fin b → ℕ),
      key.threshold = b + 1 → Function.Injective bad → (∀ a, bad a < key.shares) →
      ∀ votes : PublicKey E → Fin n → Fin o → ℕ, (∀ K v i, votes K v i ≤ m) →
      (∀ K v, cost (List.ofFn (votes K v)) ≤ c) →
      ∀ guess : (List Entry → F) → ThresholdView F E (QuadraticVotingBallot F E) n o b key.shares → ℚ,
      (∀ H view, 0 ≤ guess H view ∧ guess H view ≤ 1) →
      |thresholdGame B D H₀ key bad (votingPoll params votes) guess -
        votersGame B D H₀ params votes (withShares B key bad votesTotal (fun K => voteSums (votes K)) guess)| ≤
      ((1 + key.shares + key.shares * o).choose 2 : ℚ) / Fintype.card F := by
  have := hB.finite
  refine ⟨(proofData_finite B key o).toFinset, fun D hD H₀ n b bad hb hi hbad votes hv hc guess hg => ?_⟩
  choose cts hcts hdh using fun k : F => voting_totals B hB hT hp (keyOf B (k • B.gen)) k (keyOf_element hT _) votes
    (hv _) (hc _)
  exact poll_shared B hB hT key hk hb bad (badNodes_injective p hs hbad hi) hbad (votingPoll params votes)
    (fun K => voteSums (votes K)) (fun K H H' h => votingPoll_congr B params votes K H H' h) cts
    (fun k H tapes => hcts k tapes H) hdh D hD H₀ guess hg

/-- C75: elections with quadratic voting and a shared key hide everything but the totals of votes from `threshold - 1`
participants if the decisional Diffie–Hellman problem is hard, for a random hash function. The attacker sees the data
published by the dealer, all ballots, all proofs of possession, all decryption shares with their proofs, and knows the
secret shares of the participants `bad`. -/
theorem C75_threshold_private (B : Backend F E) (hB : B.Lawful) (hT : B.TotalSer) (p : ℕ) [CharP F p]
    (key : Params) (hk : ValidParams key) (hs : key.shares < p) (o c m : ℕ) (params : QuadraticVotingParams E)
    (hp : VotingParamsFor B params o c m) :
    ∃ D₀ : Finset (List Entry), ∀ D, D₀ ⊆ D → ∀ (H₀ : List Entry → F) (n b : ℕ) (bad : Fin b → ℕ),
      key.threshold = b + 1 → Function.Injective bad → (∀ a, bad a < key.shares) →
      ∀ votes votes' : PublicKey E → Fin n → Fin o → ℕ, (∀ K v i, votes K v i ≤ m) → (∀ K v i, votes' K v i ≤ m) →
      (∀ K v, cost (List.ofFn (votes K v)) ≤ c) → (∀ K v, cost (List.ofFn (votes' K v)) ≤ c) →
      (∀ K, voteSums (votes K) = voteSums (votes' K)) →
      ∀ guess : (List Entry → F) → ThresholdView F E (QuadraticVotingBallot F E) n o b key.shares → ℚ,
      (∀ H view, 0 ≤ guess H view ∧ guess H view ≤ 1) →
      |thresholdGame B D H₀ key bad (votingPoll params votes) guess -
        thresholdGame B D H₀ key bad (votingPoll params votes') guess| ≤
      |∑ v, votingGaps B D H₀ params (fun K => votes K v) (fun K => votes' K v) (embedVoter B params votes votes'
          (withShares B key bad votesTotal (fun K => voteSums (votes K)) guess) v)| +
        2 * (((1 + key.shares + key.shares * o).choose 2 : ℚ) / Fintype.card F) := by
  obtain ⟨D₁, h1⟩ := C75_threshold_simulation B hB hT p key hk hs o c m params hp
  obtain ⟨D₂, h2⟩ := C74_voters_private B hB hT o c m params hp
  classical
  refine ⟨D₁ ∪ D₂, fun D hD H₀ n b bad hb hi hbad votes votes' hv hv' hc hc' heq guess hg => ?_⟩
  have a1 := h1 D (Finset.union_subset_left hD) H₀ n b bad hb hi hbad votes hv hc guess hg
  have a2 := h1 D (Finset.union_subset_left hD) H₀ n b bad hb hi hbad votes' hv' hc' guess hg
  rw [← h2 D (Finset.union_subset_right hD) H₀ n votes votes' hv hv' hc hc']
  rw [← funext heq] at a2
  generalize thresholdGame B D H₀ key bad (votingPoll params votes) guess = x1 at a1 ⊢
  generalize thresholdGame B D H₀ key bad (votingPoll params votes') guess = x2 at a2 ⊢
  generalize votersGame B D H₀ params votes _ = y1 at a1 ⊢
  generalize votersGame B D H₀ params votes' _ = y2 at a2 ⊢
  have a3 := abs_sub_abs_le_abs_sub (x1 - x2) (y1 - y2)
  have a4 := abs_sub (x1 - y1) (x2 - y2)
  rw [show x1 - y1 - (x2 - y2) = x1 - x2 - (y1 - y2) by ring] at a4
  linarith

/-- C75: the bound on the number of known shares is sharp: with the secret shares of `threshold` participants, an attacker
decrypts the votes of every ballot. -/
theorem C75_threshold_sharp (B : Backend F E) (hB : B.Lawful) (hT : B.TotalSer) (p : ℕ) [CharP F p]
    (key : Params) (hk : ValidParams key) (hs : key.shares < p) (o c m : ℕ) (params : QuadraticVotingParams E)
    (hp : VotingParamsFor B params o c m) (hm : m < p) (D : Finset (List Entry)) (H₀ : List Entry → F) (n : ℕ)
    (bad : Fin key.threshold → ℕ) (hi : Function.Injective bad) (hb : ∀ a, bad a < key.shares)
    (votes : Fin n → Fin o → ℕ) (hv : ∀ v i, votes v i ≤ m) (hc : ∀ v, cost (List.ofFn (votes v)) ≤ c) (v : Fin n)
    (w : Fin o → ℕ) (hw : ∀ i, w i ≤ m) :
    thresholdGame B D H₀ key bad (votingPoll params fun _ => votes) (votesDecryptingGuess B bad v (List.ofFn w)) =
      if votes v = w then 1 else 0 := by
  refine thresholdGame_const B hB hT D H₀ key hk bad hb _ _ _ fun H cs tapes pop possession decryptions => ?_
  have hinj : Function.Injective fun a => (bad a : F) + 1 := fun a a' h =>
    hi (CharP.natCast_injOn_Iio F p (Set.mem_Iio.mpr ((hb a).trans hs)) (Set.mem_Iio.mpr ((hb a').trans hs))
      (add_right_cancel h))
  have hcs : List.ofFn cs = interpolating (Finset.univ : Finset (Fin key.threshold)) (fun a => (bad a : F) + 1)
      fun a => polyAt ((bad a : F) + 1) (List.ofFn cs) :=
    eq_interpolating hinj.injOn (List.ofFn cs) (by simp)
  have hK : (keyOf B (polyAt (0 : F) (dealtPoly B key cs))).element = polyAt (0 : F) (List.ofFn cs) • B.gen :=
    (keyOf_element hT _).trans (polyAt_smul ..)
  obtain ⟨rs, hrs⟩ := voting_ciphertexts B hB hT hp (keyOf B (polyAt (0 : F) (dealtPoly B key cs)))
    (polyAt (0 : F) (List.ofFn cs)) hK (votes v) (hv v) (hc v) (tapes v)
  obtain ⟨ballot, h1, h2⟩ := hrs H
  simp only [votesDecryptingGuess, ← hcs, votingPoll]
  have h3 : (ballot.votes.map fun w => SecretKey.decryptToElement (polyAt (0 : F) (List.ofFn cs)) w.ciphertext) =
      List.ofFn fun i => (votes v i : F) • B.gen := by
    rw [show (fun w : CiphertextWithRangeProof F E => SecretKey.decryptToElement (polyAt (0 : F) (List.ofFn cs)) w.ciphertext) =
      SecretKey.decryptToElement (polyAt (0 : F) (List.ofFn cs)) ∘ (·.ciphertext) from rfl, ← List.map_map, h2,
      List.map_ofFn]
    congr 1
    funext i
    simp only [Function.comp_def, SecretKey.decryptToElement, hK]
    module
  simp only [h1, Option.map_some, h3, List.map_ofFn, Option.some.injEq, List.ofFn_inj]
  have h4 : ((fun i => (votes v i : F) • B.gen) = (fun x : ℕ => (x : F) • B.gen) ∘ w) ↔ votes v = w := by
    refine ⟨fun h => funext fun i => ?_, fun h => by rw [h]; rfl⟩
    exact CharP.natCast_injOn_Iio F p (Set.mem_Iio.mpr ((hv v i).trans_lt hm)) (Set.mem_Iio.mpr ((hw i).trans_lt hm))
      (hB.smul_gen_inj (congrFun h i))
  simp only [h4]

namespace Toy

/-- An attacker that decrypts the first ballot in the toy group. -/
def exampleVotingElectionGuess (H : List Entry → ZMod 101) (K : PublicKey (ZMod 101))
    (ballots : Fin 2 → Option (QuadraticVotingBallot (ZMod 101) (ZMod 101)))
    (_ : Fin 2 → Option (VerifiableDecryption (ZMod 101) × LogEqualityProof (ZMod 101))) : ℚ :=
  exampleVotingGuess H K (ballots 0)

theorem exampleVotingElection_wins (D : Finset (List Entry)) (H₀ : List Entry → ZMod 101) (votes : Fin 2 → Fin 2 → ℕ)
    (hv : ∀ i, votes 0 i ≤ 4) (hc : cost (List.ofFn (votes 0)) ≤ 16) :
    electionGame B101 D H₀ exampleContexts (votingPoll exampleVoting fun _ => votes) exampleVotingElectionGuess =
      if votes 0 = ![0, 4] then 1 else 0 := by
  rw [electionGame]
  simp only [(generate_tape B101 B101_total _).1, exampleVotingElectionGuess, votingPoll,
    exampleVoting_key (votes 0) hv hc, mean_const, meanHash_const]

-- two voters exchange their votes: the totals are the same, the advantage of the attacker is that of the reductions
example : ∃ D₀ : Finset (List Entry), ∀ D, D₀ ⊆ D → ∀ H₀ : List Entry → ZMod 101, ∃ gaps : Fin 2 → ℚ,
    ∑ v, gaps v = 1 ∧
      electionGame B101 D H₀ exampleContexts (votingPoll exampleVoting fun _ => ![![0, 4], ![3, 2]])
          exampleVotingElectionGuess -
        electionGame B101 D H₀ exampleContexts (votingPoll exampleVoting fun _ => ![![3, 2], ![0, 4]])
          exampleVotingElectionGuess = ∑ v, gaps v := by
  obtain ⟨D₀, h⟩ := C75_election_private B101 B101_lawful B101_total 2 16 4 exampleVoting exampleVoting_for.1
    exampleContexts exampleContexts_injective
  refine ⟨D₀, fun D hD H₀ => ?_⟩
  have := h D hD H₀ 2 (fun _ => ![![0, 4], ![3, 2]]) (fun _ => ![![3, 2], ![0, 4]]) (fun _ => by decide)
    (fun _ => by decide) (fun _ => by decide) (fun _ => by decide) (fun _ => by decide) exampleVotingElectionGuess
  refine ⟨_, ?_, this⟩
  rw [← this, exampleVotingElection_wins _ _ _ (by decide) (by decide),
    exampleVotingElection_wins _ _ _ (by decide) (by decide), if_pos (by decide), if_neg (by decide)]
  norm_num

example : ∃ D₀ : Finset (List Entry), ∀ D, D₀ ⊆ D → ∀ H₀ : List Entry → ZMod 101,
    votersGame B101 D H₀ exampleVoting (fun _ => ![![0, 4], ![3, 2]])
      (withCounts B101 exampleContexts votesTotal (fun _ => ![3, 6]) exampleVotingElectionGuess) = 1 := by
  obtain ⟨D₀, h⟩ := C75_decryption_simulation B101 B101_lawful B101_total 2 16 4 exampleVoting exampleVoting_for.1
    exampleContexts exampleContexts_injective
  refine ⟨D₀, fun D hD H₀ => ?_⟩
  have := h D hD H₀ 2 (fun _ => ![![0, 4], ![3, 2]]) (fun _ => by decide) (fun _ => by decide) exampleVotingElectionGuess
  simp only [show voteSums ![![0, 4], ![3, 2]] = ![3, 6] by decide] at this
  rw [← this, exampleVotingElection_wins _ _ _ (by decide) (by decide), if_pos (by decide)]

-- some reduction has a positive advantage
example : ∃ D₀ : Finset (List Entry), ∀ D, D₀ ⊆ D → ∀ H₀ : List Entry → ZMod 101,
    ∃ A ∈ votersReductions B101 D H₀ exampleVoting (fun _ => ![![0, 4], ![3, 2]]) (fun _ => ![![3, 2], ![0, 4]])
      (withCounts B101 exampleContexts votesTotal (fun _ => voteSums ![![0, 4], ![3, 2]]) exampleVotingElectionGuess),
      0 < |ddhGap B101 A| := by
  obtain ⟨D₀, h⟩ := C75_election_bound B101 B101_lawful B101_total 2 16 4 exampleVoting exampleVoting_for.1
    exampleContexts exampleContexts_injective
  refine ⟨D₀, fun D hD H₀ => ?_⟩
  by_contra hA
  push Not at hA
  have := h D hD H₀ 2 (fun _ => ![![0, 4], ![3, 2]]) (fun _ => ![![3, 2], ![0, 4]]) (fun _ => by decide)
    (fun _ => by decide) (fun _ => by decide) (fun _ => by decide) (fun _ => by decide) exampleVotingElectionGuess 0 hA
  rw [exampleVotingElection_wins _ _ _ (by decide) (by decide), exampleVotingElection_wins _ _ _ (by decide) (by decide),
    if_pos (by decide), if_neg (by decide)] at this
  norm_num at this

/-- An attacker that knows the share of one participant. -/
def exampleVotingThresholdGuess (H : List Entry → ZMod 101)
    (view : ThresholdView (ZMod 101) (ZMod 101) (QuadraticVotingBallot (ZMod 101) (ZMod 101)) 2 2 1 3) : ℚ :=
  exampleVotingGuess H view.keySet.sharedKey (view.ballots 0)

theorem exampleVotingThreshold_wins (D : Finset (List Entry)) (H₀ : List Entry → ZMod 101) (votes : Fin 2 → Fin 2 → ℕ)
    (hv : ∀ i, votes 0 i ≤ 4) (hc : cost (List.ofFn (votes 0)) ≤ 16) :
    thresholdGame B101 D H₀ ⟨3, 2⟩ ![1] (votingPoll exampleVoting fun _ => votes) exampleVotingThresholdGuess =
      if votes 0 = ![0, 4] then 1 else 0 := by
  refine thresholdGame_const B101 B101_lawful B101_total D H₀ ⟨3, 2⟩ (by constructor <;> decide) _ (by decide) _ _ _
    fun H cs tapes pop possession decryptions => ?_
  have hk : polyAt (0 : ZMod 101) (dealtPoly B101 ⟨3, 2⟩ cs) = polyAt (0 : ZMod 101) (List.ofFn cs) • B101.gen :=
    polyAt_smul ..
  have hK : keyOf B101 (polyAt (0 : ZMod 101) (List.ofFn cs) • B101.gen) =
      ⟨encOf B101 (polyAt (0 : ZMod 101) (List.ofFn cs) • B101.gen), polyAt (0 : ZMod 101) (List.ofFn cs) • B101.gen⟩ :=
    isKey_eq (keyOf_isKey B101_total _) ⟨rfl, serElem_encOf B101_total _⟩
  simp only [exampleVotingThresholdGuess, keySetOf, hk, hK]
  exact exampleVoting_key (votes 0) hv hc _ _ _

theorem exampleVotingThreshold_range (H : List Entry → ZMod 101)
    (view : ThresholdView (ZMod 101) (ZMod 101) (QuadraticVotingBallot (ZMod 101) (ZMod 101)) 2 2 1 3) :
    0 ≤ exampleVotingThresholdGuess H view ∧ exampleVotingThresholdGuess H view ≤ 1 := by
  rw [exampleVotingThresholdGuess]
  unfold exampleVotingGuess
  split
  · simp
  · split <;> simp

-- the attacker knows one of three shares, the threshold is two
example : ∃ D₀ : Finset (List Entry), ∀ D, D₀ ⊆ D → ∀ H₀ : List Entry → ZMod 101, ∃ gaps : Fin 2 → ℚ,
    (11 / 101 : ℚ) ≤ |∑ v, gaps v| ∧
      |thresholdGame B101 D H₀ ⟨3, 2⟩ ![1] (votingPoll exampleVoting fun _ => ![![0, 4], ![3, 2]])
          exampleVotingThresholdGuess -
        thresholdGame B101 D H₀ ⟨3, 2⟩ ![1] (votingPoll exampleVoting fun _ => ![![3, 2], ![0, 4]])
          exampleVotingThresholdGuess| ≤ |∑ v, gaps v| + 90 / 101 := by
  obtain ⟨D₀, h⟩ := C75_threshold_private B101 B101_lawful B101_total 101 ⟨3, 2⟩ (by constructor <;> decide) (by decide)
    2 16 4 exampleVoting exampleVoting_for.1
  refine ⟨D₀, fun D hD H₀ => ?_⟩
  have := h D hD H₀ 2 1 ![1] rfl (by decide) (by decide) (fun _ => ![![0, 4], ![3, 2]]) (fun _ => ![![3, 2], ![0, 4]])
    (fun _ => by decide) (fun _ => by decide) (fun _ => by decide) (fun _ => by decide) (fun _ => by decide)
    exampleVotingThresholdGuess exampleVotingThreshold_range
  rw [show (((1 + (⟨3, 2⟩ : Params).shares + (⟨3, 2⟩ : Params).shares * 2).choose 2 : ℕ) : ℚ) /
    Fintype.card (ZMod 101) = 45 / 101 by rw [ZMod.card]; norm_num [Nat.choose]] at this
  obtain ⟨gaps, hg⟩ : ∃ gaps : Fin 2 → ℚ,
      |thresholdGame B101 D H₀ ⟨3, 2⟩ ![1] (votingPoll exampleVoting fun _ => ![![0, 4], ![3, 2]])
          exampleVotingThresholdGuess -
        thresholdGame B101 D H₀ ⟨3, 2⟩ ![1] (votingPoll exampleVoting fun _ => ![![3, 2], ![0, 4]])
          exampleVotingThresholdGuess| ≤ |∑ v, gaps v| + 2 * (45 / 101) := ⟨_, this⟩
  refine ⟨gaps, ?_, hg.trans (le_of_eq (by ring))⟩
  rw [exampleVotingThreshold_wins _ _ _ (by decide) (by decide), exampleVotingThreshold_wins _ _ _ (by decide) (by decide),
    if_pos (by decide), if_neg (by decide), sub_zero, abs_one] at hg
  linarith

example : ∃ D₀ : Finset (List Entry), ∀ D, D₀ ⊆ D → ∀ H₀ : List Entry → ZMod 101,
    (56 / 101 : ℚ) ≤ votersGame B101 D H₀ exampleVoting (fun _ => ![![0, 4], ![3, 2]])
      (withShares B101 ⟨3, 2⟩ ![1] votesTotal (fun _ => ![3, 6]) exampleVotingThresholdGuess) := by
  obtain ⟨D₀, h⟩ := C75_threshold_simulation B101 B101_lawful B101_total 101 ⟨3, 2⟩ (by constructor <;> decide)
    (by decide) 2 16 4 exampleVoting exampleVoting_for.1
  refine ⟨D₀, fun D hD H₀ => ?_⟩
  have := h D hD H₀ 2 1 ![1] rfl (by decide) (by decide) (fun _ => ![![0, 4], ![3, 2]]) (fun _ => by decide)
    (fun _ => by decide) exampleVotingThresholdGuess exampleVotingThreshold_range
  simp only [show voteSums ![![0, 4], ![3, 2]] = ![3, 6] by decide] at this
  rw [show (((1 + (⟨3, 2⟩ : Params).shares + (⟨3, 2⟩ : Params).shares * 2).choose 2 : ℕ) : ℚ) /
    Fintype.card (ZMod 101) = 45 / 101 by rw [ZMod.card]; norm_num [Nat.choose],
    exampleVotingThreshold_wins _ _ _ (by decide) (by decide), if_pos (by decide)] at this
  linarith [(abs_le.mp this).2]

-- with two shares, ballots are decrypted
example (D : Finset (List Entry)) (H₀ : List Entry → ZMod 101) :
    thresholdGame B101 D H₀ ⟨3, 2⟩ ![2, 0] (votingPoll exampleVoting fun _ => ![![0, 4], ![3, 2]])
      (votesDecryptingGuess B101 ![2, 0] 1 (List.ofFn ![3, 2])) = 1 := by
  rw [C75_threshold_sharp B101 B101_lawful B101_total 101 ⟨3, 2⟩ (by constructor <;> decide) (by decide) 2 16 4
    exampleVoting exampleVoting_for.1 (by decide) D H₀ 2 ![2, 0] (by decide) (by decide) ![![0, 4], ![3, 2]] (by decide)
    (by decide) 1 ![3, 2] (by decide), if_pos (by decide)]

end Toy

end ElasticElgamal
