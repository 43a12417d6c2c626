import Verif.Lemmas.ThresholdPrivacy
import Verif.Props.ElectionPrivacy

/-!
# C69: elections with a shared key hide votes from fewer participants than the threshold
-/

set_option autoImplicit false
set_option linter.unusedSectionVars false

namespace ElasticElgamal

open Spec

variable {F E : Type} [Field F] [Fintype F] [AddCommGroup E] [Module F E] [DecidableEq F] [DecidableEq E]

/-- C69: everything published in an election with a shared key, together with the secret shares of `threshold - 1`
participants, can be made from the ballots and the numbers of votes: the public polynomial, the proofs of possession,
and all shares of decryptions with their proofs. Probabilities differ only if two of the
`1 + shares + shares · options` proofs hash the same data. -/
theorem C69_threshold_simulation (B : Backend F E) (hB : B.Lawful) (hT : B.TotalSer) (p : ℕ) [CharP F p]
    (params : Params) (hv : ValidParams params) (hp : params.shares < p) (o : ℕ) (ho : 0 < o) :
    ∃ D₀ : Finset (List Entry), ∀ D, D₀ ⊆ D → ∀ (H₀ : List Entry → F) (kind : ChoiceKind) (n c : ℕ) (bad : Fin c → ℕ),
      params.threshold = c + 1 → Function.Injective bad → (∀ a, bad a < params.shares) →
      ∀ votes : PublicKey E → Fin n → Fin o → Bool,
      (∀ K v, kind = .single → (List.ofFn (votes K v)).count true = 1) →
      ∀ guess : (List Entry → F) → ThresholdView F E (EncryptedChoice F E kind) n o c params.shares → ℚ,
      (∀ H view, 0 ≤ guess H view ∧ guess H view ≤ 1) →
      |thresholdGame B D H₀ params bad (choicePoll kind votes) guess -
        choicesGame B D H₀ kind votes (withShares B params bad optionTotal (fun K => voteCounts (votes K)) guess)| ≤
      ((1 + params.shares + params.shares * o).choose 2 : ℚ) / Fintype.card F := by
  have := hB.finite
  exact ⟨(proofData_finite B params o).toFinset, fun D hD H₀ kind n c bad hc hi hb votes hone guess hg =>
    threshold_simulation B hB hT params hv hc ho.ne' bad (badNodes_injective p hp hb hi) hb D hD H₀ votes hone guess hg⟩

/-- C69: elections with a shared key hide everything but the numbers of votes from `threshold - 1` participants
if the decisional Diffie–Hellman problem is hard, for a random hash function: if voters select options according to
`votes` or `votes'`, and both give the same numbers of votes, the difference of the probabilities that the attacker
outputs 1 is at most a sum of advantages of explicit algorithms in the Diffie–Hellman game, and a collision term. The
attacker sees the data published by the dealer, all ballots, all proofs of possession, all decryption shares with
their proofs, and knows the secret shares of the participants `bad`. -/
theorem C69_threshold_private (B : Backend F E) (hB : B.Lawful) (hT : B.TotalSer) (p : ℕ) [CharP F p]
    (params : Params) (hv : ValidParams params) (hp : params.shares < p) (o : ℕ) (ho : 0 < o) :
    ∃ D₀ : Finset (List Entry), ∀ D, D₀ ⊆ D → ∀ (H₀ : List Entry → F) (kind : ChoiceKind) (n c : ℕ) (bad : Fin c → ℕ),
      params.threshold = c + 1 → Function.Injective bad → (∀ a, bad a < params.shares) →
      ∀ votes votes' : PublicKey E → Fin n → Fin o → Bool,
      (∀ K v, kind = .single → (List.ofFn (votes K v)).count true = 1) →
      (∀ K v, kind = .single → (List.ofFn (votes' K v)).count true = 1) →
      (∀ K, voteCounts (votes K) = voteCounts (votes' K)) →
      ∀ guess : (List Entry → F) → ThresholdView F E (EncryptedChoice F E kind) n o c params.shares → ℚ,
      (∀ H view, 0 ≤ guess H view ∧ guess H view ≤ 1) →
      |thresholdGame B D H₀ params bad (choicePoll kind votes) guess - thresholdGame B D H₀ params bad (choicePoll kind votes') guess| ≤
        |∑ v, ∑ i, (ddhGap B (hybridReduction B (onKey B (fun _ => 0) fun K j => if votes K v j then B.gen else 0)
            (onKey B (fun _ => 0) (simulatedGuess B D H₀ (embedBallot B votes votes'
              (withShares B params bad optionTotal (fun K => voteCounts (votes K)) guess) v))) i) -
          ddhGap B (hybridReduction B (onKey B (fun _ => 0) fun K j => if votes' K v j then B.gen else 0)
            (onKey B (fun _ => 0) (simulatedGuess B D H₀ (embedBallot B votes votes'
              (withShares B params bad optionTotal (fun K => voteCounts (votes K)) guess) v))) i))| +
        2 * (((1 + params.shares + params.shares * o).choose 2 : ℚ) / Fintype.card F) := by
  obtain ⟨D₁, h1⟩ := C69_threshold_simulation B hB hT p params hv hp o ho
  obtain ⟨D₂, h2⟩ := C67_choices_private B hB hT o ho
  classical
  refine ⟨D₁ ∪ D₂, fun D hD H₀ kind n c bad hc hi hb votes votes' hone hone' heq guess hg => ?_⟩
  have a1 := h1 D (Finset.union_subset_left hD) H₀ kind n c bad hc hi hb votes hone guess hg
  have a2 := h1 D (Finset.union_subset_left hD) H₀ kind n c bad hc hi hb votes' hone' guess hg
  rw [← h2 D (Finset.union_subset_right hD) H₀ kind n votes votes' hone hone']
  rw [← funext heq] at a2
  have a3 := abs_sub_abs_le_abs_sub (thresholdGame B D H₀ params bad (choicePoll kind votes) guess -
      thresholdGame B D H₀ params bad (choicePoll kind votes') guess)
    (choicesGame B D H₀ kind votes (withShares B params bad optionTotal (fun K => voteCounts (votes K)) guess) -
      choicesGame B D H₀ kind votes' (withShares B params bad optionTotal (fun K => voteCounts (votes K)) guess))
  have a4 := abs_sub (thresholdGame B D H₀ params bad (choicePoll kind votes) guess -
      choicesGame B D H₀ kind votes (withShares B params bad optionTotal (fun K => voteCounts (votes K)) guess))
    (thresholdGame B D H₀ params bad (choicePoll kind votes') guess -
      choicesGame B D H₀ kind votes' (withShares B params bad optionTotal (fun K => voteCounts (votes K)) guess))
  rw [show ∀ a b c d : ℚ, a - b - (c - d) = a - c - (b - d) from fun _ _ _ _ => by ring] at a4
  linarith

/-- Games in which the attacker's guess does not depend on proofs. -/
theorem thresholdGame_const (B : Backend F E) (hB : B.Lawful) (hT : B.TotalSer) (D : Finset (List Entry))
    (H₀ : List Entry → F) {β : Type} {n o d c : ℕ} (params : Params) (hv : ValidParams params)
    (bad : Fin c → ℕ) (hb : ∀ a, bad a < params.shares) (poll : Poll F E β n o d)
    (guess : (List Entry → F) → ThresholdView F E β n o c params.shares → ℚ) (x : ℚ)
    (h : ∀ H (cs : Fin params.threshold → F) tapes pop possession decryptions, guess H
      { publicInfo := (dealtPoly B params cs, pop)
        keySet := keySetOf B params (dealtPoly B params cs)
        corrupted := fun a => polyAt ((bad a : F) + 1) (List.ofFn cs)
        ballots := poll.ballots (B.withHash H) (keyOf B (polyAt (0 : F) (dealtPoly B params cs))) tapes
        possession
        decryptions } = x) :
    thresholdGame B D H₀ params bad poll guess = x := by
  rw [thresholdGame]
  simp only [thresholdRun_mean B hB hT params _ hv bad hb]
  rw [← meanHash_const D H₀ x]
  congr 1
  funext H
  rw [← mean_const (α := Fin params.threshold → F) x]
  congr 1
  funext cs
  rw [← mean_const (α := Fin n → Fin d → F) x]
  congr 1
  funext tapes
  rw [← mean_const (α := ∀ i : ProofIndex params.shares o, ProofTape F params.threshold i) x]
  congr 1
  funext ts
  obtain ⟨s, -, hs⟩ := (proof_hashOnce (o := o) B hB hT params cs (poll.totals (poll.ballots (B.withHash H)
    (keyOf B (polyAt (0 : F) (dealtPoly B params cs))) tapes)) hv.1 (.inl ())).cover H (ts (.inl ()))
  rw [dealtGuess_some B params cs bad guess H _ _ ⟨s.1, List.ofFn s.2⟩ hs]
  exact h _ _ _ _ _ _

/-- C69: the bound on the number of known shares is sharp: with the secret shares of `threshold` participants, an attacker
decrypts every ballot. -/
theorem C69_threshold_sharp (B : Backend F E) (hB : B.Lawful) (hT : B.TotalSer) (p : ℕ) [CharP F p]
    (params : Params) (hv : ValidParams params) (hp : params.shares < p) (D : Finset (List Entry)) (H₀ : List Entry → F)
    (kind : ChoiceKind) (n o : ℕ) (bad : Fin params.threshold → ℕ) (hi : Function.Injective bad)
    (hb : ∀ a, bad a < params.shares) (votes : Fin n → Fin o → Bool)
    (hone : ∀ v, kind = .single → (List.ofFn (votes v)).count true = 1) (v : Fin n) (j : Fin o) :
    thresholdGame B D H₀ params bad (choicePoll kind (fun _ => votes)) (decryptingGuess B bad v j) = if votes v j then 1 else 0 := by
  refine thresholdGame_const B hB hT D H₀ params hv bad hb _ _ _ fun H cs tapes pop possession decryptions => ?_
  have hinj : Function.Injective fun a => (bad a : F) + 1 := fun a a' h =>
    hi (CharP.natCast_injOn_Iio F p (Set.mem_Iio.mpr ((hb a).trans hp)) (Set.mem_Iio.mpr ((hb a').trans hp))
      (add_right_cancel h))
  have hcs : List.ofFn cs = interpolating (Finset.univ : Finset (Fin params.threshold)) (fun a => (bad a : F) + 1)
      fun a => polyAt ((bad a : F) + 1) (List.ofFn cs) :=
    eq_interpolating hinj.injOn (List.ofFn cs) (by simp)
  have hk : polyAt (0 : F) (dealtPoly B params cs) = polyAt (0 : F) (List.ofFn cs) • B.gen := polyAt_smul ..
  obtain ⟨ss, hss⟩ := honest_eq_made B hB hT (Nat.pos_iff_ne_zero.mp j.pos) (keyOf B (polyAt (0 : F) (dealtPoly B params cs)))
    (polyAt (0 : F) (List.ofFn cs)) ((keyOf_element hT _).trans hk) votes hone H tapes
  have hss : (choicePoll kind fun _ => votes).ballots (B.withHash H) (keyOf B (polyAt (0 : F) (dealtPoly B params cs)))
    tapes = madeBallots B (keyOf B (polyAt (0 : F) (dealtPoly B params cs))) votes ss := hss
  simp only [decryptingGuess, ← hcs, hss]
  have hd : SecretKey.decryptToElement (polyAt (0 : F) (List.ofFn cs)) (choiceCts B
      (keyOf B (polyAt (0 : F) (dealtPoly B params cs))) (votes v) (ss v).1 j) = if votes v j then B.gen else 0 := by
    simp only [choiceCts, SecretKey.decryptToElement, keyOf_element hT, hk]
    module
  simp only [madeBallots, makeChoice, Option.bind_some, List.getElem?_ofFn, Fin.is_lt, dif_pos,
    Option.map_some, Option.some.injEq, hd]
  cases votes v j
  · simp [hB.gen_ne_zero.symm]
  · simp

namespace Toy

/-- An attacker in the toy group that decrypts the first ballot. -/
def exampleThresholdGuess (H : List Entry → ZMod 101) (view : ThresholdView (ZMod 101) (ZMod 101) (EncryptedChoice (ZMod 101) (ZMod 101) .single) 3 2 1 3) : ℚ :=
  exampleChoiceGuess H view.keySet.sharedKey (view.ballots 0)

theorem exampleThreshold_wins (D : Finset (List Entry)) (H₀ : List Entry → ZMod 101) (a : Fin 3) :
    thresholdGame B101 D H₀ ⟨3, 2⟩ ![1] (choicePoll .single (fun _ => exampleVotes a)) exampleThresholdGuess = if a = 0 then 1 else 0 := by
  refine thresholdGame_const B101 B101_lawful B101_total D H₀ ⟨3, 2⟩ (by constructor <;> decide) _ (by decide) _ _ _
    fun H cs tapes pop possession decryptions => ?_
  have hk : polyAt (0 : ZMod 101) (dealtPoly B101 ⟨3, 2⟩ cs) = polyAt (0 : ZMod 101) (List.ofFn cs) • B101.gen :=
    polyAt_smul ..
  have hK : keyOf B101 (polyAt (0 : ZMod 101) (List.ofFn cs) • B101.gen) =
      ⟨encOf B101 (polyAt (0 : ZMod 101) (List.ofFn cs) • B101.gen), polyAt (0 : ZMod 101) (List.ofFn cs) • B101.gen⟩ :=
    isKey_eq (keyOf_isKey B101_total _) ⟨rfl, serElem_encOf B101_total _⟩
  have h : (List.ofFn (exampleVotes a 0)).count true = 1 := by revert a; decide
  simp only [exampleThresholdGuess, keySetOf, hk, hK]
  refine (exampleChoice_key _ h _ _ _).trans ?_
  revert a
  decide

theorem exampleThreshold_range (H : List Entry → ZMod 101) (view : ThresholdView (ZMod 101) (ZMod 101) (EncryptedChoice (ZMod 101) (ZMod 101) .single) 3 2 1 3) :
    0 ≤ exampleThresholdGuess H view ∧ exampleThresholdGuess H view ≤ 1 := by
  rw [exampleThresholdGuess]
  unfold exampleChoiceGuess
  split
  · simp
  · split <;> simp

-- the attacker knows one of three shares, the threshold is two: it does not win without solving Diffie–Hellman problems
example : ∃ D₀ : Finset (List Entry), ∀ D, D₀ ⊆ D → ∀ (H₀ : List Entry → ZMod 101),
    ∃ gaps : Fin 3 → Fin 2 → ℚ, (11 / 101 : ℚ) ≤ |∑ v, ∑ i, gaps v i| ∧
      |thresholdGame B101 D H₀ ⟨3, 2⟩ ![1] (choicePoll .single (fun _ => exampleVotes 0)) exampleThresholdGuess -
        thresholdGame B101 D H₀ ⟨3, 2⟩ ![1] (choicePoll .single (fun _ => exampleVotes 2)) exampleThresholdGuess| ≤
      |∑ v, ∑ i, gaps v i| + 90 / 101 := by
  obtain ⟨D₀, h⟩ := C69_threshold_private B101 B101_lawful B101_total 101 ⟨3, 2⟩ (by constructor <;> decide) (by decide) 2
    (by norm_num)
  refine ⟨D₀, fun D hD H₀ => ?_⟩
  have := h D hD H₀ .single 3 1 ![1] rfl (by decide) (by decide) (fun _ => exampleVotes 0) (fun _ => exampleVotes 2)
    (fun _ v _ => by revert v; decide) (fun _ v _ => by revert v; decide) (fun _ => by decide) exampleThresholdGuess
    exampleThreshold_range
  rw [show (((1 + (⟨3, 2⟩ : Params).shares + (⟨3, 2⟩ : Params).shares * 2).choose 2 : ℕ) : ℚ) /
    Fintype.card (ZMod 101) = 45 / 101 by rw [ZMod.card]; norm_num [Nat.choose]] at this
  obtain ⟨gaps, hg⟩ : ∃ gaps : Fin 3 → Fin 2 → ℚ,
      |thresholdGame B101 D H₀ ⟨3, 2⟩ ![1] (choicePoll .single (fun _ => exampleVotes 0)) exampleThresholdGuess -
        thresholdGame B101 D H₀ ⟨3, 2⟩ ![1] (choicePoll .single (fun _ => exampleVotes 2)) exampleThresholdGuess| ≤
      |∑ v, ∑ i, gaps v i| + 2 * (45 / 101) := ⟨_, this⟩
  refine ⟨gaps, ?_, hg.trans (le_of_eq (by ring))⟩
  rw [exampleThreshold_wins, exampleThreshold_wins, if_pos rfl, if_neg (by decide), sub_zero, abs_one] at hg
  linarith

example : ∃ D₀ : Finset (List Entry), ∀ D, D₀ ⊆ D → ∀ (H₀ : List Entry → ZMod 101),
    (56 / 101 : ℚ) ≤ choicesGame B101 D H₀ .single (fun _ => exampleVotes 0)
      (withShares B101 ⟨3, 2⟩ ![1] optionTotal (fun _ => ![1, 2]) exampleThresholdGuess) := by
  obtain ⟨D₀, h⟩ := C69_threshold_simulation B101 B101_lawful B101_total 101 ⟨3, 2⟩ (by constructor <;> decide) (by decide)
    2 (by norm_num)
  refine ⟨D₀, fun D hD H₀ => ?_⟩
  have := h D hD H₀ .single 3 1 ![1] rfl (by decide) (by decide) (fun _ => exampleVotes 0)
    (fun _ v _ => by revert v; decide) exampleThresholdGuess exampleThreshold_range
  rw [show (((1 + (⟨3, 2⟩ : Params).shares + (⟨3, 2⟩ : Params).shares * 2).choose 2 : ℕ) : ℚ) /
    Fintype.card (ZMod 101) = 45 / 101 by rw [ZMod.card]; norm_num [Nat.choose],
    exampleThreshold_wins, if_pos rfl, show voteCounts (exampleVotes 0) = ![1, 2] by decide] at this
  linarith [(abs_le.mp this).2]

-- with two shares, ballots are decrypted
example (D : Finset (List Entry)) (H₀ : List Entry → ZMod 101) :
    thresholdGame B101 D H₀ ⟨3, 2⟩ ![2, 0] (choicePoll .single (fun _ => exampleVotes 1)) (decryptingGuess B101 ![2, 0] 1 0) = 1 :=
  C69_threshold_sharp B101 B101_lawful B101_total 101 ⟨3, 2⟩ (by constructor <;> decide) (by decide) D H₀ .single 3 2 ![2, 0]
    (by decide) (by decide) (exampleVotes 1) (fun v _ => by revert v; decide) 1 0

end Toy

end ElasticElgamal
