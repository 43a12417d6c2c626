import Verif.Lemmas.DkgPrivacy
import Verif.Lemmas.VotingTally
import Verif.Spec.DkgVoting

/-!
# Lemmas: quadratic voting after distributed key generation
-/

set_option autoImplicit false
set_option linter.unusedSectionVars false

namespace ElasticElgamal

open Spec

variable {F E : Type} [Field F] [AddCommGroup E] [Module F E] [DecidableEq F] [DecidableEq E] [Fintype F]

section
variable (B : Backend F E) (hB : B.Lawful) (hT : B.TotalSer)

/-- A game about an output, for a random key that is shifted. -/
noncomputable def shiftedOutput (D : Finset (List Entry)) (base : E → List Entry → F) (γ : E → F) {T α : Type} [Fintype T]
    (guess : E → (List Entry → F) → PublicKey E → α → ℚ) (out : (List Entry → F) → PublicKey E → T → α) : ℚ :=
  mean fun k : F => meanHash D (base (k • B.gen)) fun H => mean fun s : T =>
    guess (k • B.gen) H (shiftedKey B γ (k • B.gen)) (out H (shiftedKey B γ (k • B.gen)) s)

/-- Replacing one of several outputs. -/
theorem shiftedOutput_family (D : Finset (List Entry)) (base : E → List Entry → F) (γ : E → F) {T α W : Type} [Fintype T]
    [Nonempty T] {n : ℕ} (guess : E → (List Entry → F) → PublicKey E → (Fin n → α) → ℚ)
    (out : (List Entry → F) → PublicKey E → W → T → α) (values values' : PublicKey E → Fin n → W) :
    let embed := fun (v : Fin n) (X : E) (H : List Entry → F) (K : PublicKey E) (a : α) =>
      mean fun ts : Fin n → T => guess X H K fun i =>
        if i = v then a else out H K (if i < v then values' K i else values K i) (ts i)
    shiftedOutput B D base γ guess (fun H K (ts : Fin n → T) i => out H K (values K i) (ts i)) -
      shiftedOutput B D base γ guess (fun H K (ts : Fin n → T) i => out H K (values' K i) (ts i)) =
    ∑ v, (shiftedOutput B D base γ (embed v) (fun H K => out H K (values K v)) -
      shiftedOutput B D base γ (embed v) (fun H K => out H K (values' K v))) := by
  intro embed
  have hembed : ∀ (v : Fin n) (w : PublicKey E → W), shiftedOutput B D base γ (embed v) (fun H K => out H K (w K)) =
      shiftedOutput B D base γ guess fun H K (ts : Fin n → T) i =>
        out H K (if i = v then w K else if i < v then values' K i else values K i) (ts i) := by
    intro v w
    simp only [shiftedOutput, embed]
    congr 1
    funext k
    congr 1
    funext H
    rw [mean_comm]
    refine Eq.trans ?_ (mean_update v _)
    congr 1
    funext ts
    congr 1
    funext s
    congr 1
    funext i
    by_cases hi : i = v
    · subst hi; simp
    · simp [hi]
  let mix : ℕ → ℚ := fun t => shiftedOutput B D base γ guess fun H K (ts : Fin n → T) i =>
    out H K (if i.1 < t then values' K i else values K i) (ts i)
  have h0 : shiftedOutput B D base γ guess (fun H K (ts : Fin n → T) i => out H K (values K i) (ts i)) = mix 0 := by
    simp [mix]
  have hn : shiftedOutput B D base γ guess (fun H K (ts : Fin n → T) i => out H K (values' K i) (ts i)) = mix n := by
    simp [mix]
  rw [h0, hn, ← Finset.sum_range_sub' mix, ← Fin.sum_univ_eq_sum_range fun i => mix i - mix (i + 1)]
  refine Finset.sum_congr rfl fun v _ => ?_
  obtain ⟨h1, h2⟩ := shifted_mix values values' v
  rw [hembed v fun K => values K v, hembed v fun K => values' K v]
  refine congrArg₂ (· - ·) ?_ ?_
  · exact congrArg (fun w : PublicKey E → Fin n → W => shiftedOutput B D base γ guess fun H K (ts : Fin n → T) i =>
      out H K (w K i) (ts i)) h1
  · exact congrArg (fun w : PublicKey E → Fin n → W => shiftedOutput B D base γ guess fun H K (ts : Fin n → T) i =>
      out H K (w K i) (ts i)) h2

include hT in
theorem shiftedKey_element (γ : E → F) (k : F) :
    (shiftedKey B γ (k • B.gen)).element = (k + γ (k • B.gen)) • B.gen := by
  rw [shiftedKey, keyOf_element hT, add_smul]

include hT in
theorem shiftedKey_bytes (γ : E → F) (X : E) :
    (shiftedKey B γ X).bytes = encOf B (shiftedKey B γ X).element := by
  rw [shiftedKey, keyOf_element hT]
  exact (encOf_eq (keyOf_isKey hT _).2).symm

include hB hT in
/-- Values encrypted with range proofs. -/
theorem shifted_range_private [Finite E] {m : ℕ} {range : PreparedRange E} (hr : PreparedFor B m range) (t : Transcript)
    (D : Finset (List Entry)) (hD : (rangeData_finite B range t).toFinset ⊆ D) (base : E → List Entry → F) (γ : E → F)
    (value value' : PublicKey E → ℕ) (hv : ∀ K, value K < m) (hv' : ∀ K, value' K < m)
    (guess : E → (List Entry → F) → PublicKey E → Option (Ciphertext E × RangeProof F E) → ℚ) :
    let reduction := fun w : PublicKey E → ℕ =>
      hybridReduction B (fun X => ringMessage B range (w (shiftedKey B γ X)))
        (fun X cts => simulatedRange B D (base X) range t (guess X) (shiftedKey B γ X) fun j => shiftCiphertext (γ X) (cts j))
    shiftedOutput B D base γ guess (fun H K (tape : Fin (rangeDraws range) → F) =>
        rangeOutput (B.withHash H) K range t (value K) (List.ofFn tape)) -
      shiftedOutput B D base γ guess (fun H K (tape : Fin (rangeDraws range) → F) =>
        rangeOutput (B.withHash H) K range t (value' K) (List.ofFn tape)) =
    ∑ i, (ddhGap B (reduction value i) - ddhGap B (reduction value' i)) := by
  intro reduction
  have hgame : ∀ w : PublicKey E → ℕ, (∀ K, w K < m) →
      shiftedOutput B D base γ guess (fun H K (tape : Fin (rangeDraws range) → F) =>
        rangeOutput (B.withHash H) K range t (w K) (List.ofFn tape)) =
      mean fun k : F => mean fun rs : Fin (rangeRings range) → F =>
        simulatedRange B D (base (k • B.gen)) range t (guess (k • B.gen)) (shiftedKey B γ (k • B.gen)) fun j =>
          shiftCiphertext (γ (k • B.gen)) ⟨rs j • B.gen, ringMessage B range (w (shiftedKey B γ (k • B.gen))) j +
            rs j • k • B.gen⟩ := by
    intro w hw
    rw [shiftedOutput]
    congr 1
    funext k
    rw [range_simulation B hB hT hr t _ _ (shiftedKey_element B hT γ k) (shiftedKey_bytes B hT γ _) D hD _ (hw _)
      (guess (k • B.gen))]
    congr 1
    funext rs
    congr 1
    funext j
    simp only [shiftCiphertext, rangeCts, shiftedKey_element B hT]
    congr 1
    module
  rw [hgame value hv, hgame value' hv', Finset.sum_sub_distrib, ← hybrid_total B hB, ← hybrid_total B hB]
  ring

/-- The algorithms made of an attacker against range encryption, with their signs. -/
noncomputable def shiftedRangeGaps (D : Finset (List Entry)) (base : E → List Entry → F) (γ : E → F)
    (range : PreparedRange E) (t : Transcript) (value value' : PublicKey E → ℕ)
    (guess : E → (List Entry → F) → PublicKey E → Option (Ciphertext E × RangeProof F E) → ℚ) : ℚ :=
  let reduction := fun w : PublicKey E → ℕ =>
    hybridReduction B (fun X => ringMessage B range (w (shiftedKey B γ X)))
      (fun X cts => simulatedRange B D (base X) range t (guess X) (shiftedKey B γ X) fun j => shiftCiphertext (γ X) (cts j))
  ∑ i, (ddhGap B (reduction value i) - ddhGap B (reduction value' i))

include hB hT in
/-- Ballots. -/
theorem shifted_ballot_private [Finite E] {params : QuadraticVotingParams E} {o c m : ℕ}
    (hp : VotingParamsFor B params o c m) (D : Finset (List Entry))
    (hD₁ : (rangeData_finite B params.voteCountRange (Transcript.new "quadratic_voting_variant")).toFinset ⊆ D)
    (hD₂ : (rangeData_finite B params.creditRange (Transcript.new "quadratic_voting_credit_range")).toFinset ⊆ D)
    (hD₃ : (sumSqData_finite B o (Transcript.new "quadratic_voting_credit_equiv")).toFinset ⊆ D)
    (base : E → List Entry → F) (γ : E → F) (votes votes' : PublicKey E → Fin o → ℕ)
    (hv : ∀ K i, votes K i ≤ m) (hv' : ∀ K i, votes' K i ≤ m)
    (hc : ∀ K, cost (List.ofFn (votes K)) ≤ c) (hc' : ∀ K, cost (List.ofFn (votes' K)) ≤ c)
    (guess : E → (List Entry → F) → PublicKey E → Option (QuadraticVotingBallot F E) → ℚ) :
    shiftedOutput B D base γ guess (fun H K (tape : Fin (ballotDraws params o) → F) =>
        votingOutput (B.withHash H) { params with receiver := K } (List.ofFn (votes K)) (List.ofFn tape)) -
      shiftedOutput B D base γ guess (fun H K (tape : Fin (ballotDraws params o) → F) =>
        votingOutput (B.withHash H) { params with receiver := K } (List.ofFn (votes' K)) (List.ofFn tape)) =
    ∑ i, shiftedRangeGaps B D base γ params.voteCountRange (Transcript.new "quadratic_voting_variant")
        (fun K => votes K i) (fun K => votes' K i)
        (fun X => embedRange B params.voteCountRange (Transcript.new "quadratic_voting_variant") votes votes'
          (votesAttack B params (costOf votes) (guess X)) i) +
      shiftedRangeGaps B D base γ params.creditRange (Transcript.new "quadratic_voting_credit_range")
        (costOf votes) (costOf votes') (fun X => creditAttack B params votes' (guess X)) := by
  let ranges := fun (w : PublicKey E → Fin o → ℕ) (credit : PublicKey E → ℕ) =>
    shiftedOutput B D base γ (fun X => votesAttack B params credit (guess X))
      fun H K (tapes : Fin o → Fin (rangeDraws params.voteCountRange) → F) i =>
        rangeOutput (B.withHash H) K params.voteCountRange (Transcript.new "quadratic_voting_variant") (w K i)
          (List.ofFn (tapes i))
  have h1 : ∀ w : PublicKey E → Fin o → ℕ, (∀ K i, w K i ≤ m) → (∀ K, cost (List.ofFn (w K)) ≤ c) →
      shiftedOutput B D base γ guess (fun H K (tape : Fin (ballotDraws params o) → F) =>
        votingOutput (B.withHash H) { params with receiver := K } (List.ofFn (w K)) (List.ofFn tape)) =
      ranges w (costOf w) := by
    intro w hw hcw
    simp only [ranges, shiftedOutput]
    congr 1
    funext k
    exact voting_simulation B hB hT hp _ _ (shiftedKey_element B hT γ k) (shiftedKey_bytes B hT γ _) _ (hw _) (hcw _) D
      hD₃ _ (guess (k • B.gen))
  have h2 : ∀ (w : PublicKey E → Fin o → ℕ) (credit : PublicKey E → ℕ), ranges w credit =
      shiftedOutput B D base γ (fun X => creditAttack B params w (guess X))
        fun H K (tape : Fin (rangeDraws params.creditRange) → F) => rangeOutput (B.withHash H) K params.creditRange
          (Transcript.new "quadratic_voting_credit_range") (credit K) (List.ofFn tape) := by
    intro w credit
    simp only [ranges, shiftedOutput, votesAttack, creditAttack]
    congr 1
    funext k
    congr 1
    funext H
    exact mean_comm _
  rw [h1 votes hv hc, h1 votes' hv' hc', ← sub_add_sub_cancel _ (ranges votes' (costOf votes))]
  refine congrArg₂ (· + ·) ?_ ?_
  · refine (shiftedOutput_family B D base γ (fun X => votesAttack B params (costOf votes) (guess X))
      (fun H K (w : ℕ) (tape : Fin (rangeDraws params.voteCountRange) → F) => rangeOutput (B.withHash H) K
        params.voteCountRange (Transcript.new "quadratic_voting_variant") w (List.ofFn tape)) votes votes').trans
      (Finset.sum_congr rfl fun i _ => ?_)
    exact shifted_range_private B hB hT hp.votes _ D hD₁ base γ (fun K => votes K i) (fun K => votes' K i)
      (fun K => Nat.lt_succ_of_le (hv K i)) (fun K => Nat.lt_succ_of_le (hv' K i))
      (fun X => embedRange B params.voteCountRange (Transcript.new "quadratic_voting_variant") votes votes'
          (votesAttack B params (costOf votes) (guess X)) i)
  · rw [h2, h2]
    exact shifted_range_private B hB hT hp.credits _ D hD₂ base γ (costOf votes) (costOf votes')
      (fun K => Nat.lt_succ_of_le (hc K)) (fun K => Nat.lt_succ_of_le (hc' K)) _

include hB hT in
/-- Ballots of several voters. -/
theorem shifted_voters_private [Finite E] {params : QuadraticVotingParams E} {n o c m : ℕ}
    (hp : VotingParamsFor B params o c m) (D : Finset (List Entry))
    (hD₁ : (rangeData_finite B params.voteCountRange (Transcript.new "quadratic_voting_variant")).toFinset ⊆ D)
    (hD₂ : (rangeData_finite B params.creditRange (Transcript.new "quadratic_voting_credit_range")).toFinset ⊆ D)
    (hD₃ : (sumSqData_finite B o (Transcript.new "quadratic_voting_credit_equiv")).toFinset ⊆ D)
    (base : E → List Entry → F) (γ : E → F) (votes votes' : PublicKey E → Fin n → Fin o → ℕ)
    (hv : ∀ K v i, votes K v i ≤ m) (hv' : ∀ K v i, votes' K v i ≤ m)
    (hc : ∀ K v, cost (List.ofFn (votes K v)) ≤ c) (hc' : ∀ K v, cost (List.ofFn (votes' K v)) ≤ c)
    (guess : E → (List Entry → F) → PublicKey E → (Fin n → Option (QuadraticVotingBallot F E)) → ℚ) :
    shiftedGame B D base γ guess (votingPoll params votes) - shiftedGame B D base γ guess (votingPoll params votes') =
    ∑ v, (∑ i, shiftedRangeGaps B D base γ params.voteCountRange (Transcript.new "quadratic_voting_variant")
        (fun K => votes K v i) (fun K => votes' K v i)
        (fun X => embedRange B params.voteCountRange (Transcript.new "quadratic_voting_variant")
          (fun K => votes K v) (fun K => votes' K v)
          (votesAttack B params (costOf fun K => votes K v) (embedVoter B params votes votes' (guess X) v)) i) +
      shiftedRangeGaps B D base γ params.creditRange (Transcript.new "quadratic_voting_credit_range")
        (costOf fun K => votes K v) (costOf fun K => votes' K v)
        (fun X => creditAttack B params (fun K => votes' K v) (embedVoter B params votes votes' (guess X) v))) := by
  refine (shiftedOutput_family B D base γ guess
    (fun H K (w : Fin o → ℕ) (tape : Fin (ballotDraws params o) → F) => votingOutput (B.withHash H)
      { params with receiver := K } (List.ofFn w) (List.ofFn tape)) votes votes').trans
    (Finset.sum_congr rfl fun v _ => ?_)
  exact shifted_ballot_private B hB hT hp D hD₁ hD₂ hD₃ base γ (fun K => votes K v) (fun K => votes' K v)
    (fun K => hv K v) (fun K => hv' K v) (fun K => hc K v) (fun K => hc' K v)
    (fun X => embedVoter B params votes votes' (guess X) v)

/-! ## After key generation -/

variable (key : Params)

theorem rangeData_electionData [Finite E] (range : PreparedRange E) {label : String} (h : label ∈ electionLabels)
    {D : Finset (List Entry)} (hD : (rangeData_finite B range (Transcript.new label)).toFinset ⊆ D) :
    (rangeData_finite B range (Transcript.new label)).toFinset ⊆ D.filter ElectionData := by
  refine fun q hq => Finset.mem_filter.mpr ⟨hD hq, ?_⟩
  rw [Set.Finite.mem_toFinset] at hq
  obtain ⟨p, rfl⟩ := hq
  exact ⟨label, h, _, rfl⟩

theorem sumSqData_electionData [Finite E] (o : ℕ) {label : String} (h : label ∈ electionLabels)
    {D : Finset (List Entry)} (hD : (sumSqData_finite B o (Transcript.new label)).toFinset ⊆ D) :
    (sumSqData_finite B o (Transcript.new label)).toFinset ⊆ D.filter ElectionData := by
  refine fun q hq => Finset.mem_filter.mpr ⟨hD hq, ?_⟩
  rw [Set.Finite.mem_toFinset] at hq
  obtain ⟨p, rfl⟩ := hq
  exact ⟨label, h, _, rfl⟩

include hB hT in
/-- Polls with quadratic voting. -/
theorem votingPoll_simulated [Finite E] (hm : 0 < key.threshold) {n o c m b : ℕ} {params : QuadraticVotingParams E}
    (hp : VotingParamsFor B params o c m) (D : Finset (List Entry)) (hD : (proofData_finite B key o).toFinset ⊆ D)
    (votes : PublicKey E → Fin n → Fin o → ℕ) (hv : ∀ K v i, votes K v i ≤ m)
    (hc : ∀ K v, cost (List.ofFn (votes K v)) ≤ c) :
    PollSimulated B key (votingPoll params votes) b (D.filter ElectionData)
      (((key.shares + key.shares * o).choose 2 : ℚ) / Fintype.card F) ∧
    PollCounts B (votingPoll params votes) fun K => voteSums (votes K) := by
  choose cts hcts hdh using fun k : F => voting_totals B hB hT hp (keyOf B (k • B.gen)) k (keyOf_element hT _) votes
    (hv _) (hc _)
  constructor
  · intro cs info corrupted X H₀ guess hg
    obtain ⟨k, rfl⟩ := hB.gen_spans X
    rw [meanHash_mean, meanHash_mean, ← mean_sub]
    refine (abs_mean_le _).trans ?_
    rw [← mean_const (α := Fin n → Fin (ballotDraws params o) → F)
      (((key.shares + key.shares * o).choose 2 : ℚ) / Fintype.card F)]
    refine mean_le_mean fun tapes => ?_
    simp only [hcts]
    have := family_simulation (nodup_electionIndexes key.shares o) mem_electionIndexes
      (fun i => proof_hashOnce B hB hT key cs (cts k tapes) hm (.inr i)) (D.filter ElectionData)
      (fun i s => Finset.mem_filter.mpr ⟨hD (proofQuery_mem B key cs _ (.inr i) s), proofQuery_electionData B key cs _ i s⟩)
      H₀ (fun H outs => electionGuess B key cs info corrupted guess H
        ((votingPoll params votes).ballots (B.withHash H) (keyOf B (k • B.gen)) tapes) outs)
      (fun _ => 1) (fun H outs => hg _ _) (fun _ _ => rfl)
    rw [length_electionIndexes, meanHash_const, mul_one] at this
    refine le_trans (le_of_eq ?_) this
    congr 2
    rw [← meanHash_mean]
    congr 1
    funext H
    rw [simulatedElection]
    simp only [hcts]
    congr 1
    funext scalars
    refine congrArg (fun b => electionGuess B key cs info corrupted guess _ b _)
      (votingPoll_congr B params votes _ H _ ?_ tapes).symm
    rintro q - hq
    refine program_of_notMem fun hm' => ?_
    simp only [familyPoints, List.map_map, List.mem_map, Function.comp_apply] at hm'
    obtain ⟨i, -, rfl⟩ := hm'
    exact notInBallots_not_prover (proofQuery_notInBallots B key cs _ hm (.inr i) _) hq
  · intro k H tapes j
    rw [hcts]
    exact hdh k tapes j

include hB hT in
/-- Differences of simulated games. -/
theorem simulatedDkg_voting [Finite E] {n o c m b : ℕ} {params : QuadraticVotingParams E}
    (hp : VotingParamsFor B params o c m) (D : Finset (List Entry))
    (hD₁ : (rangeData_finite B params.voteCountRange (Transcript.new "quadratic_voting_variant")).toFinset ⊆ D)
    (hD₂ : (rangeData_finite B params.creditRange (Transcript.new "quadratic_voting_credit_range")).toFinset ⊆ D)
    (hD₃ : (sumSqData_finite B o (Transcript.new "quadratic_voting_credit_equiv")).toFinset ⊆ D)
    (H₀ : List Entry → F) (honest : Fin key.shares) (bad : Fin b → ℕ) (others : DkgStrategy F E key b)
    (votes votes' : PublicKey E → Fin n → Fin o → ℕ)
    (hv : ∀ K v i, votes K v i ≤ m) (hv' : ∀ K v i, votes' K v i ≤ m)
    (hc : ∀ K v, cost (List.ofFn (votes K v)) ≤ c) (hc' : ∀ K v, cost (List.ofFn (votes' K v)) ≤ c)
    (guess : (List Entry → F) → ThresholdView F E (QuadraticVotingBallot F E) n o b key.shares → ℚ) :
    simulatedDkg B key D H₀ honest bad others (fun K => voteSums (votes K)) guess (votingPoll params votes) -
      simulatedDkg B key D H₀ honest bad others (fun K => voteSums (votes K)) guess (votingPoll params votes') =
    ∑ v, dkgVotingGaps B D H₀ key honest bad others params votes votes' guess v := by
  have hsub : ∀ (D : Finset (List Entry)) (g g' : (List Entry → F) → ℚ), meanHash D H₀ g - meanHash D H₀ g' =
      meanHash D H₀ fun H => g H - g' H := fun _ _ _ => by simp only [meanHash, Finset.sum_sub_distrib, sub_div]
  have hadd : ∀ (D : Finset (List Entry)) (g g' : (List Entry → F) → ℚ), (meanHash D H₀ fun H => g H + g' H) =
      meanHash D H₀ g + meanHash D H₀ g' := fun _ _ _ => by simp only [meanHash, Finset.sum_add_distrib, add_div]
  have hadd' : ∀ {α : Type} [Fintype α] (g g' : α → ℚ), (mean fun a => g a + g' a) = mean g + mean g' :=
    fun _ _ => by simp only [mean, Finset.sum_add_distrib, add_div]
  have hsum : ∀ {α ι : Type} [Fintype α] [Fintype ι] (g : α → ι → ℚ), (mean fun a => ∑ i, g a i) =
      ∑ i, mean fun a => g a i := fun g => by
    simp only [mean, Finset.sum_div]
    exact Finset.sum_comm
  have hsumH : ∀ {ι : Type} [Fintype ι] (D : Finset (List Entry)) (g : (List Entry → F) → ι → ℚ),
      (meanHash D H₀ fun H => ∑ i, g H i) = ∑ i, meanHash D H₀ fun H => g H i := fun D g => by
    simp only [meanHash, Finset.sum_div]
    exact Finset.sum_comm
  have ht : ∀ w : PublicKey E → Fin n → Fin o → ℕ, (votingPoll params w : Poll F E _ n o _).totals = votesTotal :=
    fun _ => rfl
  simp only [simulatedDkg, ht]
  rw [← mean_sub]
  simp only [← mean_sub, hsub]
  have h := fun (shares : Fin b → F) (s : F × (Fin key.threshold → F)) (H : List Entry → F) =>
    shifted_voters_private B hB hT hp (D.filter ElectionData) (rangeData_electionData B _ (by decide) hD₁)
      (rangeData_electionData B _ (by decide) hD₂) (sumSqData_electionData B o (by decide) hD₃)
      (fun X => (simulatedKeyGen B key honest bad others shares s H X).hash)
      (fun X => (simulatedKeyGen B key honest bad others shares s H X).offset 0) votes votes' hv hv' hc hc'
      (fun X => withDkg B key bad votesTotal (fun K => voteSums (votes K)) guess shares
        (simulatedKeyGen B key honest bad others shares s H X))
  simp only [h, hsum, hsumH, hadd, hadd', shiftedRangeGaps]
  refine Finset.sum_congr rfl fun v _ => ?_
  rw [dkgVotingGaps]
  refine congrArg₂ (· + ·) (Finset.sum_congr rfl fun i _ => ?_) ?_
  all_goals
    rw [dkgRangeGaps]
    refine Finset.sum_congr rfl fun i _ => ?_
    unfold dkgRangeReduction
    simp only [ddhGap_mean, ddhGap_meanHash, ← hsub, mean_sub]
    rfl

end

end ElasticElgamal
