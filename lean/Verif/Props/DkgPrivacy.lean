import Verif.Lemmas.DkgPrivacy
import Verif.Props.ThresholdPrivacy

/-!
# C81: elections with a key made by distributed key generation hide votes
-/

set_option autoImplicit false
set_option linter.unusedSectionVars false

namespace ElasticElgamal

open Spec

variable {F E : Type} [Field F] [Fintype F] [AddCommGroup E] [Module F E] [DecidableEq F] [DecidableEq E]

/-- C81: one honest participant in distributed key generation suffices for the secrecy of votes. The attacker chooses the
polynomials of all other participants after it has seen the polynomial of the honest participant, its proof of
possession, and the shares of `threshold - 1` participants (`bad`). Then it sees the key set, all ballots, all proofs
of possession and all decryption shares with their proofs. If voters select options according to `votes` or `votes'`,
and both give the same numbers of votes, the difference of the probabilities that the attacker outputs 1 is at most a
sum of advantages of explicit algorithms in the Diffie–Hellman game, and a collision term. The polynomials chosen by
the attacker must not depend on hash values of data hashed after key generation. -/
theorem C81_dkg_private (B : Backend F E) (hB : B.Lawful) (hT : B.TotalSer) (p : ℕ) [CharP F p]
    (params : Params) (hv : ValidParams params) (hp : params.shares < p) (o : ℕ) (ho : 0 < o) :
    ∃ D₀ : Finset (List Entry), ∀ D, D₀ ⊆ D → ∀ (H₀ : List Entry → F) (kind : ChoiceKind) (n c : ℕ) (bad : Fin c → ℕ),
      params.threshold = c + 1 → Function.Injective bad → (∀ a, bad a < params.shares) →
      ∀ (honest : Fin params.shares) (others : DkgStrategy F E params c),
      (∀ H H', (∀ q, ¬ ElectionData q → H q = H' q) → others H = others H') →
      ∀ votes votes' : PublicKey E → Fin n → Fin o → Bool,
      (∀ K v, kind = .single → (List.ofFn (votes K v)).count true = 1) →
      (∀ K v, kind = .single → (List.ofFn (votes' K v)).count true = 1) →
      (∀ K, voteCounts (votes K) = voteCounts (votes' K)) →
      ∀ guess : (List Entry → F) → ThresholdView F E (EncryptedChoice F E kind) n o c params.shares → ℚ,
      (∀ H view, 0 ≤ guess H view ∧ guess H view ≤ 1) →
      |dkgGame B D H₀ params honest bad others (choicePoll kind votes) guess -
        dkgGame B D H₀ params honest bad others (choicePoll kind votes') guess| ≤
      |∑ v, ∑ i, (ddhGap B (dkgReduction B D H₀ params honest bad others votes votes' votes guess v i) -
        ddhGap B (dkgReduction B D H₀ params honest bad others votes votes' votes' guess v i))| +
      2 * (((params.shares + params.shares * o).choose 2 : ℚ) / Fintype.card F) := by
  have := hB.finite
  classical
  refine ⟨(proofData_finite B params o).toFinset ∪ (choiceData_finite B o).toFinset, fun D hD H₀ kind n c bad hc hi hb
    honest others hothers votes votes' hone hone' heq guess hg => ?_⟩
  have hi' := badNodes_injective (F := F) p hp hb hi
  have a1 := dkg_simulation B hB hT params p hv hp hc honest bad hi' hb others hothers D
    (Finset.union_subset_left hD) H₀ (choicePoll kind votes)
    (choicePoll_simulated B hB hT params hv.1 ho.ne' D (Finset.union_subset_left hD) votes hone).1 _
    (choicePoll_simulated (c := c) B hB hT params hv.1 ho.ne' D (Finset.union_subset_left hD) votes hone).2 guess hg
  have a2 := dkg_simulation B hB hT params p hv hp hc honest bad hi' hb others hothers D
    (Finset.union_subset_left hD) H₀ (choicePoll kind votes')
    (choicePoll_simulated B hB hT params hv.1 ho.ne' D (Finset.union_subset_left hD) votes' hone').1 _
    (choicePoll_simulated (c := c) B hB hT params hv.1 ho.ne' D (Finset.union_subset_left hD) votes' hone').2 guess hg
  rw [← funext heq] at a2
  rw [← simulatedDkg_sub B hB hT params ho.ne' D (Finset.union_subset_right hD) H₀ honest bad others votes votes' hone hone'
    guess]
  generalize dkgGame B D H₀ params honest bad others (choicePoll kind votes) guess = x at a1 ⊢
  generalize dkgGame B D H₀ params honest bad others (choicePoll kind votes') guess = x' at a2 ⊢
  generalize simulatedDkg B params D H₀ honest bad others (fun K => voteCounts (votes K)) guess (choicePoll kind votes) = y at a1 ⊢
  generalize simulatedDkg B params D H₀ honest bad others (fun K => voteCounts (votes K)) guess (choicePoll kind votes') = y' at a2 ⊢
  have a3 := abs_sub_abs_le_abs_sub (x - x') (y - y')
  have a4 := abs_sub (x - y) (x' - y')
  rw [show x - y - (x' - y') = x - x' - (y - y') by ring] at a4
  linarith

/-- Games in which the attacker's guess does not depend on proofs. -/
theorem dkgGame_const (B : Backend F E) (hB : B.Lawful) (hT : B.TotalSer) (p : ℕ) [CharP F p] (D : Finset (List Entry))
    (H₀ : List Entry → F) {β : Type} {n o d c : ℕ} (params : Params) (hv : ValidParams params) (hp : params.shares < p)
    (honest : Fin params.shares) (bad : Fin c → ℕ) (hb : ∀ a, bad a < params.shares) (others : DkgStrategy F E params c)
    (poll : Poll F E β n o d)
    (guess : (List Entry → F) → ThresholdView F E β n o c params.shares → ℚ) (x : ℚ)
    (h : ∀ H (cs : Fin params.threshold → F) tapes pop possession decryptions,
      let corrupted := fun a => polyAt ((bad a : F) + 1) (List.ofFn cs)
      let total := totalCoefficients honest cs (others H (dealtPoly B params cs, pop) corrupted)
      guess H
      { publicInfo := (dealtPoly B params cs, pop)
        keySet := keySetOf B params (dealtPoly B params total)
        corrupted
        ballots := poll.ballots (B.withHash H) (keyOf B (polyAt (0 : F) (dealtPoly B params total))) tapes
        possession
        decryptions } = x) :
    dkgGame B D H₀ params honest bad others poll guess = x := by
  rw [dkgGame, ← meanHash_const D H₀ x]
  refine congrArg (meanHash D H₀) (funext fun H => ?_)
  rw [← mean_const (α := Fin params.threshold → F) x]
  refine congrArg mean (funext fun cs => ?_)
  rw [← mean_const (α := Fin params.threshold → F) x]
  refine congrArg mean (funext fun ns => ?_)
  obtain ⟨s, -, hs⟩ := (dealer_hashOnce B hB hT params hv.1 cs).cover H ns
  rw [dkgRun_eq B hB hT params p hv hp honest bad hb others poll guess H cs ns _ hs]
  simp only [electionMean]
  rw [← mean_const (α := Fin n → Fin d → F) x]
  refine congrArg mean (funext fun tapes => ?_)
  rw [← mean_const (α := ∀ i : ElectionIndex params.shares o, ProofTape F params.threshold (.inr i)) x]
  exact congrArg mean (funext fun ts => h _ _ _ _ _ _)

/-- C81: the bound on the number of known shares is sharp: with the shares made by the honest participant for `threshold`
participants, an attacker decrypts every ballot. -/
theorem C81_dkg_sharp (B : Backend F E) (hB : B.Lawful) (hT : B.TotalSer) (p : ℕ) [CharP F p]
    (params : Params) (hv : ValidParams params) (hp : params.shares < p) (D : Finset (List Entry)) (H₀ : List Entry → F)
    (kind : ChoiceKind) (n o : ℕ) (honest : Fin params.shares) (bad : Fin params.threshold → ℕ)
    (hi : Function.Injective bad) (hb : ∀ a, bad a < params.shares) (others : DkgStrategy F E params params.threshold)
    (votes : Fin n → Fin o → Bool) (hone : ∀ v, kind = .single → (List.ofFn (votes v)).count true = 1) (v : Fin n)
    (j : Fin o) :
    dkgGame B D H₀ params honest bad others (choicePoll kind fun _ => votes) (dkgDecryptingGuess B honest bad others v j) =
      if votes v j then 1 else 0 := by
  refine dkgGame_const B hB hT p D H₀ params hv hp honest bad hb others _ _ _
    fun H cs tapes pop possession decryptions => ?_
  have hinj : Function.Injective fun a => (bad a : F) + 1 := fun a a' h =>
    hi (CharP.natCast_injOn_Iio F p (Set.mem_Iio.mpr ((hb a).trans hp)) (Set.mem_Iio.mpr ((hb a').trans hp))
      (add_right_cancel h))
  have hcs : List.ofFn cs = interpolating (Finset.univ : Finset (Fin params.threshold)) (fun a => (bad a : F) + 1)
      fun a => polyAt ((bad a : F) + 1) (List.ofFn cs) :=
    eq_interpolating hinj.injOn (List.ofFn cs) (by simp)
  simp only [dkgDecryptingGuess, ← hcs, ← polyAt_total]
  generalize totalCoefficients honest cs _ = total
  have hk : polyAt (0 : F) (dealtPoly B params total) = polyAt (0 : F) (List.ofFn total) • B.gen := polyAt_smul ..
  obtain ⟨ss, hss⟩ := honest_eq_made B hB hT (Nat.pos_iff_ne_zero.mp j.pos)
    (keyOf B (polyAt (0 : F) (dealtPoly B params total))) (polyAt (0 : F) (List.ofFn total))
    ((keyOf_element hT _).trans hk) votes hone H tapes
  have hss : (choicePoll kind fun _ => votes).ballots (B.withHash H) (keyOf B (polyAt (0 : F) (dealtPoly B params total)))
    tapes = madeBallots B (keyOf B (polyAt (0 : F) (dealtPoly B params total))) votes ss := hss
  have hd : SecretKey.decryptToElement (polyAt (0 : F) (List.ofFn total)) (choiceCts B
      (keyOf B (polyAt (0 : F) (dealtPoly B params total))) (votes v) (ss v).1 j) = if votes v j then B.gen else 0 := by
    simp only [choiceCts, SecretKey.decryptToElement, keyOf_element hT, hk]
    module
  simp only [hss, madeBallots, makeChoice, Option.bind_some, List.getElem?_ofFn, Fin.is_lt, dif_pos,
    Option.map_some, Option.some.injEq, hd]
  cases votes v j
  · simp [hB.gen_ne_zero.symm]
  · simp

/-- C81: participants in the game are those of the protocol: every participant in a reachable state with no missing shares,
whose own polynomial is in place and whose public polynomials have the coefficients `secrets`, completes key
generation with the same result as in the game. -/
theorem C81_participant (B : Backend F E) (hB : B.Lawful) (hT : B.TotalSer) (p : ℕ) [CharP F p] (params : Params)
    (hv : ValidParams params) (hp : params.shares < p) (index : ℕ) (rng : B.Rng) (h : DkgHistory F E)
    (state : ExchangingSecrets F E) (hs : dkgShares B params index rng h = some state) (hm : state.missingShares = [])
    (hown : state.publicPolynomials[index]? = some state.dealer.publicInfo.1)
    (secrets : Fin params.shares → Fin params.threshold → F)
    (hsec : state.publicPolynomials = List.ofFn fun j => List.ofFn fun m => secrets j m • B.gen) (dealer : Dealer F E) :
    ∃ participant, state.complete B = some (.ok participant) ∧
      dkgParticipant B params dealer state.publicPolynomials index
        (∑ j, polyAt ((index : F) + 1) (List.ofFn (secrets j))) = some participant := by
  obtain ⟨r, hr⟩ := C47_complete_total B hT p params hv hp index rng h state hs hm
  obtain ⟨⟨ks, i, x⟩, rfl, e1, e2, e3, -, e4, -⟩ := C47_complete B p params hv hp index rng h state hs hm hown r hr
  obtain ⟨q, hf⟩ := dkgShares_spec hs
  obtain ⟨own, hset, -⟩ := hf.facts.setup
  have hlen : state.publicPolynomials.length = params.shares := by simp [hsec]
  have hshare : (∑ j, polyAt ((index : F) + 1) (List.ofFn (secrets j))) • B.gen =
      polyAt ((index : F) + 1) (polySum params.threshold state.publicPolynomials) := by
    rw [polyAt_polySum _ _ _ hf.degree, hsec, List.map_ofFn, List.sum_ofFn, Finset.sum_smul]
    refine Finset.sum_congr rfl fun j _ => ?_
    exact (polyAt_ofFn_smul _ _ _).symm
  refine ⟨_, hr, ?_⟩
  rw [dkgParticipant_eq B hT p params hv hp dealer state.publicPolynomials hlen hf.degree index hset.index_lt _ hshare]
  have hx : (∑ j, polyAt ((index : F) + 1) (List.ofFn (secrets j))) = x := by
    rw [← sub_eq_zero, ← smul_eq_zero_iff_left hB.gen_ne_zero (R := F), sub_smul, hshare, sub_eq_zero]
    exact e4.symm
  simp only at e1 e2
  have e5 := keySetFor_eq hT e3
  simp only [e1] at e5
  rw [hx, ← e2, ← e5]

namespace Toy

/-- Polynomials chosen from what the attacker has seen, and a hash value. -/
def exampleStrategy (c : ℕ) : DkgStrategy (ZMod 101) (ZMod 101) ⟨3, 2⟩ (c + 1) := fun H info corrupted j m =>
  H [] + info.1.headD 0 + info.2.challenge * corrupted 0 + (j : ℕ) + 2 * (m : ℕ)

theorem exampleStrategy_hash (c : ℕ) (H H' : List Entry → ZMod 101) (h : ∀ q, ¬ ElectionData q → H q = H' q) :
    exampleStrategy c H = exampleStrategy c H' := by
  funext info corrupted j m
  simp only [exampleStrategy, h [] (by decide)]

theorem exampleDkg_wins (D : Finset (List Entry)) (H₀ : List Entry → ZMod 101) (a : Fin 3) :
    dkgGame B101 D H₀ ⟨3, 2⟩ 2 ![1] (exampleStrategy 0) (choicePoll .single (fun _ => exampleVotes a))
      exampleThresholdGuess = if a = 0 then 1 else 0 := by
  refine dkgGame_const B101 B101_lawful B101_total 101 D H₀ ⟨3, 2⟩ (by constructor <;> decide) (by decide) _ _ (by decide)
    _ _ _ _ fun H cs tapes pop possession decryptions => ?_
  simp only
  generalize totalCoefficients _ cs _ = total
  have hk : polyAt (0 : ZMod 101) (dealtPoly B101 ⟨3, 2⟩ total) = polyAt (0 : ZMod 101) (List.ofFn total) • B101.gen :=
    polyAt_smul ..
  have hK : keyOf B101 (polyAt (0 : ZMod 101) (List.ofFn total) • B101.gen) =
      ⟨encOf B101 (polyAt (0 : ZMod 101) (List.ofFn total) • B101.gen),
        polyAt (0 : ZMod 101) (List.ofFn total) • B101.gen⟩ :=
    isKey_eq (keyOf_isKey B101_total _) ⟨rfl, serElem_encOf B101_total _⟩
  have h : (List.ofFn (exampleVotes a 0)).count true = 1 := by revert a; decide
  simp only [exampleThresholdGuess, keySetOf, hk, hK]
  refine (exampleChoice_key _ h _ _ _).trans ?_
  revert a
  decide

-- an attacker that plays two of three participants, chooses their polynomials last, and knows one share made by the third
-- one does not win without solving Diffie–Hellman problems
example : ∃ D₀ : Finset (List Entry), ∀ D, D₀ ⊆ D → ∀ (H₀ : List Entry → ZMod 101),
    ∃ gaps : Fin 3 → Fin 2 → ℚ, (29 / 101 : ℚ) ≤ |∑ v, ∑ i, gaps v i| ∧
      |dkgGame B101 D H₀ ⟨3, 2⟩ 2 ![1] (exampleStrategy 0) (choicePoll .single (fun _ => exampleVotes 0))
          exampleThresholdGuess -
        dkgGame B101 D H₀ ⟨3, 2⟩ 2 ![1] (exampleStrategy 0) (choicePoll .single (fun _ => exampleVotes 2))
          exampleThresholdGuess| ≤
      |∑ v, ∑ i, gaps v i| + 72 / 101 := by
  obtain ⟨D₀, h⟩ := C81_dkg_private B101 B101_lawful B101_total 101 ⟨3, 2⟩ (by constructor <;> decide) (by decide) 2
    (by norm_num)
  refine ⟨D₀, fun D hD H₀ => ?_⟩
  have := h D hD H₀ .single 3 1 ![1] rfl (by decide) (by decide) 2 (exampleStrategy 0) (exampleStrategy_hash 0)
    (fun _ => exampleVotes 0) (fun _ => exampleVotes 2)
    (fun _ v _ => by revert v; decide) (fun _ v _ => by revert v; decide) (fun _ => by decide) exampleThresholdGuess
    exampleThreshold_range
  rw [show ((((⟨3, 2⟩ : Params).shares + (⟨3, 2⟩ : Params).shares * 2).choose 2 : ℕ) : ℚ) /
    Fintype.card (ZMod 101) = 36 / 101 by rw [ZMod.card]; norm_num [Nat.choose]] at this
  obtain ⟨gaps, hg⟩ : ∃ gaps : Fin 3 → Fin 2 → ℚ,
      |dkgGame B101 D H₀ ⟨3, 2⟩ 2 ![1] (exampleStrategy 0) (choicePoll .single (fun _ => exampleVotes 0))
          exampleThresholdGuess -
        dkgGame B101 D H₀ ⟨3, 2⟩ 2 ![1] (exampleStrategy 0) (choicePoll .single (fun _ => exampleVotes 2))
          exampleThresholdGuess| ≤
      |∑ v, ∑ i, gaps v i| + 2 * (36 / 101) := ⟨_, this⟩
  refine ⟨gaps, ?_, hg.trans (le_of_eq (by ring))⟩
  rw [exampleDkg_wins, exampleDkg_wins, if_pos rfl, if_neg (by decide), sub_zero, abs_one] at hg
  linarith

-- with two shares, ballots are decrypted
example (D : Finset (List Entry)) (H₀ : List Entry → ZMod 101) :
    dkgGame B101 D H₀ ⟨3, 2⟩ 0 ![2, 0] (exampleStrategy 1) (choicePoll .single (fun _ => exampleVotes 1))
      (dkgDecryptingGuess B101 0 ![2, 0] (exampleStrategy 1) 1 0) = 1 :=
  C81_dkg_sharp B101 B101_lawful B101_total 101 ⟨3, 2⟩ (by constructor <;> decide) (by decide) D H₀ .single 3 2 0 ![2, 0]
    (by decide) (by decide) (exampleStrategy 1) (exampleVotes 1) (fun v _ => by revert v; decide) 1 0

example : ∃ participant, exampleExchanging.complete C101 = some (.ok participant) ∧
    dkgParticipant C101 ⟨2, 2⟩ exampleDkgDealer [[7, 11], [8, 9]] 0 (18 + 17) = some participant :=
  C81_participant C101 (B101_lawful.withHash _) B101_total 101 ⟨2, 2⟩ (by simp [ValidParams]) (by norm_num) 0 (0 : ℕ)
    exampleHistory exampleExchanging exampleExchanging_eq rfl rfl ![![7, 11], ![8, 9]] (by decide) exampleDkgDealer

end Toy

end ElasticElgamal
