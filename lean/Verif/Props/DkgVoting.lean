import Verif.Lemmas.DkgVoting
import Verif.Props.DkgPrivacy
import Verif.Props.VotingElectionPrivacy

/-!
# C85: elections with quadratic voting and distributed key generation hide votes
-/

set_option autoImplicit false
set_option linter.unusedSectionVars false

namespace ElasticElgamal

open Spec

variable {F E : Type} [Field F] [Fintype F] [AddCommGroup E] [Module F E] [DecidableEq F] [DecidableEq E]

/-- C85: in elections with quadratic voting and a key made by distributed key generation, one honest participant is
enough to hide everything but the totals of votes. The attacker chooses the polynomials of all other participants after
it has seen the polynomial of the honest participant, its proof of possession, and the shares of `threshold - 1`
participants (`bad`). Then it sees the key set, all ballots, all proofs of possession and all decryption shares with
their proofs. If votes according to `votes` or `votes'` are admissible and have the same totals, the difference of the
probabilities that the attacker outputs 1 is at most a sum of advantages of explicit algorithms in the Diffie–Hellman
game, and a collision term. The polynomials chosen by the attacker must not depend on hash values of data hashed after
key generation. -/
theorem C85_voting_private (B : Backend F E) (hB : B.Lawful) (hT : B.TotalSer) (p : ℕ) [CharP F p]
    (key : Params) (hk : ValidParams key) (hs : key.shares < p) (o c m : ℕ) (params : QuadraticVotingParams E)
    (hp : VotingParamsFor B params o c m) :
    ∃ D₀ : Finset (List Entry), ∀ D, D₀ ⊆ D → ∀ (H₀ : List Entry → F) (n b : ℕ) (bad : Fin b → ℕ),
      key.threshold = b + 1 → Function.Injective bad → (∀ a, bad a < key.shares) →
      ∀ (honest : Fin key.shares) (others : DkgStrategy F E key b),
      (∀ H H', (∀ q, ¬ ElectionData q → H q = H' q) → others H = others H') →
      ∀ votes votes' : PublicKey E → Fin n → Fin o → ℕ, (∀ K v i, votes K v i ≤ m) → (∀ K v i, votes' K v i ≤ m) →
      (∀ K v, cost (List.ofFn (votes K v)) ≤ c) → (∀ K v, cost (List.ofFn (votes' K v)) ≤ c) →
      (∀ K, voteSums (votes K) = voteSums (votes' K)) →
      ∀ guess : (List Entry → F) → ThresholdView F E (QuadraticVotingBallot F E) n o b key.shares → ℚ,
      (∀ H view, 0 ≤ guess H view ∧ guess H view ≤ 1) →
      |dkgGame B D H₀ key honest bad others (votingPoll params votes) guess -
        dkgGame B D H₀ key honest bad others (votingPoll params votes') guess| ≤
      |∑ v, dkgVotingGaps B D H₀ key honest bad others params votes votes' guess v| +
        2 * (((key.shares + key.shares * o).choose 2 : ℚ) / Fintype.card F) := by
  have := hB.finite
  classical
  refine ⟨(proofData_finite B key o).toFinset ∪
    ((rangeData_finite B params.voteCountRange (Transcript.new "quadratic_voting_variant")).toFinset ∪
    ((rangeData_finite B params.creditRange (Transcript.new "quadratic_voting_credit_range")).toFinset ∪
    (sumSqData_finite B o (Transcript.new "quadratic_voting_credit_equiv")).toFinset)),
    fun D hD H₀ n b bad hb hi hbad honest others hothers votes votes' hv hv' hc hc' heq guess hg => ?_⟩
  have hD₀ := Finset.union_subset_left hD
  have hD₁ := Finset.union_subset_left (Finset.union_subset_right hD)
  have hD₂ := Finset.union_subset_left (Finset.union_subset_right (Finset.union_subset_right hD))
  have hD₃ := Finset.union_subset_right (Finset.union_subset_right (Finset.union_subset_right hD))
  have hi' := badNodes_injective (F := F) p hs hbad hi
  obtain ⟨s1, c1⟩ := votingPoll_simulated (b := b) B hB hT key hk.1 hp D hD₀ votes hv hc
  obtain ⟨s2, c2⟩ := votingPoll_simulated (b := b) B hB hT key hk.1 hp D hD₀ votes' hv' hc'
  have a1 := dkg_simulation B hB hT key p hk hs hb honest bad hi' hbad others hothers D hD₀ H₀ (votingPoll params votes)
    s1 _ c1 guess hg
  have a2 := dkg_simulation B hB hT key p hk hs hb honest bad hi' hbad others hothers D hD₀ H₀ (votingPoll params votes')
    s2 _ c2 guess hg
  rw [← funext heq] at a2
  rw [← simulatedDkg_voting B hB hT key hp D hD₁ hD₂ hD₃ H₀ honest bad others votes votes' hv hv' hc hc' guess]
  generalize dkgGame B D H₀ key honest bad others (votingPoll params votes) guess = x at a1 ⊢
  generalize dkgGame B D H₀ key honest bad others (votingPoll params votes') guess = x' at a2 ⊢
  generalize simulatedDkg B key D H₀ honest bad others (fun K => voteSums (votes K)) guess (votingPoll params votes) = y
    at a1 ⊢
  generalize simulatedDkg B key D H₀ honest bad others (fun K => voteSums (votes K)) guess (votingPoll params votes') = y'
    at a2 ⊢
  have a3 := abs_sub_abs_le_abs_sub (x - x') (y - y')
  have a4 := abs_sub (x - y) (x' - y')
  rw [show x - y - (x' - y') = x - x' - (y - y') by ring] at a4
  linarith

/-- C85 with a bound: if none of the explicit algorithms has an advantage above `ε` in the Diffie–Hellman game, then the
attacker distinguishes votes with the same totals with an advantage of at most `2·n·(o·r + r')·ε`, and the collision
term, where `r` and `r'` are the numbers of rings of the ranges for votes and for the credit. -/
theorem C85_voting_bound (B : Backend F E) (hB : B.Lawful) (hT : B.TotalSer) (p : ℕ) [CharP F p]
    (key : Params) (hk : ValidParams key) (hs : key.shares < p) (o c m : ℕ) (params : QuadraticVotingParams E)
    (hp : VotingParamsFor B params o c m) :
    ∃ D₀ : Finset (List Entry), ∀ D, D₀ ⊆ D → ∀ (H₀ : List Entry → F) (n b : ℕ) (bad : Fin b → ℕ),
      key.threshold = b + 1 → Function.Injective bad → (∀ a, bad a < key.shares) →
      ∀ (honest : Fin key.shares) (others : DkgStrategy F E key b),
      (∀ H H', (∀ q, ¬ ElectionData q → H q = H' q) → others H = others H') →
      ∀ votes votes' : PublicKey E → Fin n → Fin o → ℕ, (∀ K v i, votes K v i ≤ m) → (∀ K v i, votes' K v i ≤ m) →
      (∀ K v, cost (List.ofFn (votes K v)) ≤ c) → (∀ K v, cost (List.ofFn (votes' K v)) ≤ c) →
      (∀ K, voteSums (votes K) = voteSums (votes' K)) →
      ∀ guess : (List Entry → F) → ThresholdView F E (QuadraticVotingBallot F E) n o b key.shares → ℚ,
      (∀ H view, 0 ≤ guess H view ∧ guess H view ≤ 1) → ∀ ε : ℚ,
      (∀ v, ∀ A ∈ dkgVotingReductions B D H₀ key honest bad others params votes votes' guess v, |ddhGap B A| ≤ ε) →
      |dkgGame B D H₀ key honest bad others (votingPoll params votes) guess -
        dkgGame B D H₀ key honest bad others (votingPoll params votes') guess| ≤
      2 * n * (o * rangeRings params.voteCountRange + rangeRings params.creditRange) * ε +
        2 * (((key.shares + key.shares * o).choose 2 : ℚ) / Fintype.card F) := by
  obtain ⟨D₀, h⟩ := C85_voting_private B hB hT p key hk hs o c m params hp
  refine ⟨D₀, fun D hD H₀ n b bad hb hi hbad honest others hothers votes votes' hv hv' hc hc' heq guess hg ε hε => ?_⟩
  refine (h D hD H₀ n b bad hb hi hbad honest others hothers votes votes' hv hv' hc hc' heq guess hg).trans
    (add_le_add_left ?_ _)
  have hr : ∀ (range : PreparedRange E) (t : Transcript) (w w' : PublicKey E → ℕ) (g : (Fin b → F) → KeyGen F E →
      (List Entry → F) → PublicKey E → Option (Ciphertext E × RangeProof F E) → ℚ),
      (∀ r, |ddhGap B (dkgRangeReduction B D H₀ key honest bad others range t w g r)| ≤ ε) →
      (∀ r, |ddhGap B (dkgRangeReduction B D H₀ key honest bad others range t w' g r)| ≤ ε) →
      |dkgRangeGaps B D H₀ key honest bad others range t w w' g| ≤ rangeRings range * (2 * ε) := by
    intro range t w w' g h1 h2
    rw [dkgRangeGaps]
    refine (Finset.abs_sum_le_sum_abs _ _).trans ?_
    refine (Finset.sum_le_sum (g := fun _ => 2 * ε) fun i _ => ?_).trans (by simp)
    refine (abs_sub _ _).trans ?_
    linarith [h1 i, h2 i]
  refine (Finset.abs_sum_le_sum_abs _ _).trans ?_
  refine (Finset.sum_le_sum (g := fun _ => (o * rangeRings params.voteCountRange + rangeRings params.creditRange) * (2 * ε))
    fun v _ => ?_).trans (by simp; ring_nf; rfl)
  rw [dkgVotingGaps]
  refine (abs_add_le _ _).trans ?_
  rw [add_mul, mul_assoc]
  refine add_le_add ?_ ?_
  · refine (Finset.abs_sum_le_sum_abs _ _).trans ?_
    refine (Finset.sum_le_sum (g := fun _ => rangeRings params.voteCountRange * (2 * ε)) fun i _ => ?_).trans (by simp)
    exact hr _ _ _ _ _ (fun r => hε v _ (.inl ⟨i, r, votes, by simp, rfl⟩))
      fun r => hε v _ (.inl ⟨i, r, votes', by simp, rfl⟩)
  · exact hr _ _ _ _ _ (fun r => hε v _ (.inr ⟨r, votes, by simp, rfl⟩))
      fun r => hε v _ (.inr ⟨r, votes', by simp, rfl⟩)

/-- C85: the bound on the number of known shares is sharp: with the shares made by the honest participant for `threshold`
participants, an attacker decrypts the votes of every ballot. -/
theorem C85_voting_sharp (B : Backend F E) (hB : B.Lawful) (hT : B.TotalSer) (p : ℕ) [CharP F p]
    (key : Params) (hk : ValidParams key) (hs : key.shares < p) (o c m : ℕ) (params : QuadraticVotingParams E)
    (hp : VotingParamsFor B params o c m) (hm : m < p) (D : Finset (List Entry)) (H₀ : List Entry → F) (n : ℕ)
    (honest : Fin key.shares) (bad : Fin key.threshold → ℕ) (hi : Function.Injective bad) (hb : ∀ a, bad a < key.shares)
    (others : DkgStrategy F E key key.threshold)
    (votes : Fin n → Fin o → ℕ) (hv : ∀ v i, votes v i ≤ m) (hc : ∀ v, cost (List.ofFn (votes v)) ≤ c) (v : Fin n)
    (w : Fin o → ℕ) (hw : ∀ i, w i ≤ m) :
    dkgGame B D H₀ key honest bad others (votingPoll params fun _ => votes)
      (dkgVotesDecryptingGuess B honest bad others v (List.ofFn w)) = if votes v = w then 1 else 0 := by
  refine dkgGame_const B hB hT p D H₀ key hk hs honest bad hb others _ _ _
    fun H cs tapes pop possession decryptions => ?_
  have hinj : Function.Injective fun a => (bad a : F) + 1 := fun a a' h =>
    hi (CharP.natCast_injOn_Iio F p (Set.mem_Iio.mpr ((hb a).trans hs)) (Set.mem_Iio.mpr ((hb a').trans hs))
      (add_right_cancel h))
  have hcs : List.ofFn cs = interpolating (Finset.univ : Finset (Fin key.threshold)) (fun a => (bad a : F) + 1)
      fun a => polyAt ((bad a : F) + 1) (List.ofFn cs) :=
    eq_interpolating hinj.injOn (List.ofFn cs) (by simp)
  simp only [dkgVotesDecryptingGuess, ← hcs, ← polyAt_total]
  generalize totalCoefficients honest cs _ = total
  have hK : (keyOf B (polyAt (0 : F) (dealtPoly B key total))).element = polyAt (0 : F) (List.ofFn total) • B.gen :=
    (keyOf_element hT _).trans (polyAt_smul ..)
  obtain ⟨rs, hrs⟩ := voting_ciphertexts B hB hT hp (keyOf B (polyAt (0 : F) (dealtPoly B key total)))
    (polyAt (0 : F) (List.ofFn total)) hK (votes v) (hv v) (hc v) (tapes v)
  obtain ⟨ballot, h1, h2⟩ := hrs H
  simp only [votingPoll]
  have h3 : (ballot.votes.map fun w => SecretKey.decryptToElement (polyAt (0 : F) (List.ofFn total)) w.ciphertext) =
      List.ofFn fun i => (votes v i : F) • B.gen := by
    rw [show (fun w : CiphertextWithRangeProof F E => SecretKey.decryptToElement (polyAt (0 : F) (List.ofFn total))
      w.ciphertext) = SecretKey.decryptToElement (polyAt (0 : F) (List.ofFn total)) ∘ (·.ciphertext) from rfl,
      ← List.map_map, h2, List.map_ofFn]
    congr 1
    funext i
    simp only [Function.comp_def, SecretKey.decryptToElement, hK]
    module
  simp only [h1, Option.map_some, h3, List.map_ofFn, Option.some.injEq, List.ofFn_inj]
  have h4 : ((fun i => (votes v i : F) • B.gen) = (fun x : ℕ => (x : F) • B.gen) ∘ w) ↔ votes v = w := by
    refine ⟨fun h => funext fun i => ?_, fun h => by rw [h]; rfl⟩
    exact CharP.natCast_injOn_Iio F p (Set.mem_Iio.mpr ((hv v i).trans_lt hm)) (Set.mem_Iio.mpr ((hw i).trans_lt hm))
      (hB.smul_gen_inj (congrFun h i))
  simp only [h4]

namespace Toy

theorem exampleVotingDkg_wins (D : Finset (List Entry)) (H₀ : List Entry → ZMod 101) (votes : Fin 2 → Fin 2 → ℕ)
    (hv : ∀ i, votes 0 i ≤ 4) (hc : cost (List.ofFn (votes 0)) ≤ 16) :
    dkgGame B101 D H₀ ⟨3, 2⟩ 2 ![1] (exampleStrategy 0) (votingPoll exampleVoting fun _ => votes)
      exampleVotingThresholdGuess = if votes 0 = ![0, 4] then 1 else 0 := by
  refine dkgGame_const B101 B101_lawful B101_total 101 D H₀ ⟨3, 2⟩ (by constructor <;> decide) (by decide) _ _ (by decide)
    _ _ _ _ fun H cs tapes pop possession decryptions => ?_
  simp only
  generalize totalCoefficients _ cs _ = total
  have hk : polyAt (0 : ZMod 101) (dealtPoly B101 ⟨3, 2⟩ total) = polyAt (0 : ZMod 101) (List.ofFn total) • B101.gen :=
    polyAt_smul ..
  have hK : keyOf B101 (polyAt (0 : ZMod 101) (List.ofFn total) • B101.gen) =
      ⟨encOf B101 (polyAt (0 : ZMod 101) (List.ofFn total) • B101.gen),
        polyAt (0 : ZMod 101) (List.ofFn total) • B101.gen⟩ :=
    isKey_eq (keyOf_isKey B101_total _) ⟨rfl, serElem_encOf B101_total _⟩
  simp only [exampleVotingThresholdGuess, keySetOf, hk, hK]
  exact exampleVoting_key (votes 0) hv hc _ _ _

-- an attacker that plays two of three participants, chooses their polynomials last, and knows one share made by the third
-- one does not win without solving Diffie–Hellman problems
example : ∃ D₀ : Finset (List Entry), ∀ D, D₀ ⊆ D → ∀ H₀ : List Entry → ZMod 101, ∃ gaps : Fin 2 → ℚ,
    (29 / 101 : ℚ) ≤ |∑ v, gaps v| ∧
      |dkgGame B101 D H₀ ⟨3, 2⟩ 2 ![1] (exampleStrategy 0) (votingPoll exampleVoting fun _ => ![![0, 4], ![3, 2]])
          exampleVotingThresholdGuess -
        dkgGame B101 D H₀ ⟨3, 2⟩ 2 ![1] (exampleStrategy 0) (votingPoll exampleVoting fun _ => ![![3, 2], ![0, 4]])
          exampleVotingThresholdGuess| ≤ |∑ v, gaps v| + 72 / 101 := by
  obtain ⟨D₀, h⟩ := C85_voting_private B101 B101_lawful B101_total 101 ⟨3, 2⟩ (by constructor <;> decide) (by decide)
    2 16 4 exampleVoting exampleVoting_for.1
  refine ⟨D₀, fun D hD H₀ => ?_⟩
  have := h D hD H₀ 2 1 ![1] rfl (by decide) (by decide) 2 (exampleStrategy 0) (exampleStrategy_hash 0)
    (fun _ => ![![0, 4], ![3, 2]]) (fun _ => ![![3, 2], ![0, 4]])
    (fun _ => by decide) (fun _ => by decide) (fun _ => by decide) (fun _ => by decide) (fun _ => by decide)
    exampleVotingThresholdGuess exampleVotingThreshold_range
  rw [show ((((⟨3, 2⟩ : Params).shares + (⟨3, 2⟩ : Params).shares * 2).choose 2 : ℕ) : ℚ) /
    Fintype.card (ZMod 101) = 36 / 101 by rw [ZMod.card]; norm_num [Nat.choose]] at this
  obtain ⟨gaps, hg⟩ : ∃ gaps : Fin 2 → ℚ,
      |dkgGame B101 D H₀ ⟨3, 2⟩ 2 ![1] (exampleStrategy 0) (votingPoll exampleVoting fun _ => ![![0, 4], ![3, 2]])
          exampleVotingThresholdGuess -
        dkgGame B101 D H₀ ⟨3, 2⟩ 2 ![1] (exampleStrategy 0) (votingPoll exampleVoting fun _ => ![![3, 2], ![0, 4]])
          exampleVotingThresholdGuess| ≤ |∑ v, gaps v| + 2 * (36 / 101) := ⟨_, this⟩
  refine ⟨gaps, ?_, hg.trans (le_of_eq (by ring))⟩
  rw [exampleVotingDkg_wins _ _ _ (by decide) (by decide), exampleVotingDkg_wins _ _ _ (by decide) (by decide),
    if_pos (by decide), if_neg (by decide), sub_zero, abs_one] at hg
  linarith

-- some reduction has a positive advantage
example : ∃ D₀ : Finset (List Entry), ∀ D, D₀ ⊆ D → ∀ H₀ : List Entry → ZMod 101,
    ∃ v, ∃ A ∈ dkgVotingReductions B101 D H₀ ⟨3, 2⟩ 2 ![1] (exampleStrategy 0) exampleVoting
      (fun _ => ![![0, 4], ![3, 2]]) (fun _ => ![![3, 2], ![0, 4]]) exampleVotingThresholdGuess v,
      0 < |ddhGap B101 A| := by
  obtain ⟨D₀, h⟩ := C85_voting_bound B101 B101_lawful B101_total 101 ⟨3, 2⟩ (by constructor <;> decide) (by decide)
    2 16 4 exampleVoting exampleVoting_for.1
  refine ⟨D₀, fun D hD H₀ => ?_⟩
  by_contra hA
  push Not at hA
  have := h D hD H₀ 2 1 ![1] rfl (by decide) (by decide) 2 (exampleStrategy 0) (exampleStrategy_hash 0)
    (fun _ => ![![0, 4], ![3, 2]]) (fun _ => ![![3, 2], ![0, 4]])
    (fun _ => by decide) (fun _ => by decide) (fun _ => by decide) (fun _ => by decide) (fun _ => by decide)
    exampleVotingThresholdGuess exampleVotingThreshold_range 0 hA
  rw [show ((((⟨3, 2⟩ : Params).shares + (⟨3, 2⟩ : Params).shares * 2).choose 2 : ℕ) : ℚ) /
    Fintype.card (ZMod 101) = 36 / 101 by rw [ZMod.card]; norm_num [Nat.choose],
    exampleVotingDkg_wins _ _ _ (by decide) (by decide), exampleVotingDkg_wins _ _ _ (by decide) (by decide),
    if_pos (by decide), if_neg (by decide)] at this
  norm_num at this

-- with two shares, ballots are decrypted
example (D : Finset (List Entry)) (H₀ : List Entry → ZMod 101) :
    dkgGame B101 D H₀ ⟨3, 2⟩ 0 ![2, 0] (exampleStrategy 1) (votingPoll exampleVoting fun _ => ![![0, 4], ![3, 2]])
      (dkgVotesDecryptingGuess B101 0 ![2, 0] (exampleStrategy 1) 1 (List.ofFn ![3, 2])) = 1 := by
  rw [C85_voting_sharp B101 B101_lawful B101_total 101 ⟨3, 2⟩ (by constructor <;> decide) (by decide) 2 16 4
    exampleVoting exampleVoting_for.1 (by decide) D H₀ 2 0 ![2, 0] (by decide) (by decide) (exampleStrategy 1)
    ![![0, 4], ![3, 2]] (by decide) (by decide) 1 ![3, 2] (by decide), if_pos (by decide)]

end Toy

end ElasticElgamal
