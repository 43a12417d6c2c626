import Verif.Lemmas.VotingPrivacy
import Verif.Lemmas.ThresholdPrivacy

/-!
# Lemmas: decryptions of totals of quadratic-voting ballots
-/

set_option autoImplicit false
set_option linter.unusedSectionVars false

namespace ElasticElgamal

open Spec

variable {F E : Type} [Field F] [AddCommGroup E] [Module F E] [DecidableEq F] [DecidableEq E]

/-! ## Ballots that depend only on some values of the hash function -/

theorem logEqData_not_prover (B : Backend F E) (ctx : List Entry) (k : Bytes) (e : (E × E) × (E × E)) :
    ¬ ProverData (logEqData B ctx k e) := by
  rintro ⟨l, s, x, h, h1, -⟩
  obtain ⟨l', y, h'⟩ := logEqData_end B ctx k e
  rw [h'] at h
  have := (List.append_inj' h (by simp)).2
  simp only [List.cons.injEq, Entry.msg.injEq] at this
  exact h1 this.1.1.symm

theorem notInBallots_not_prover {B : Backend F E} {q : List Entry} (h : NotInBallots B q) : ¬ ProverData q := by
  rcases h with ⟨l, x, rfl⟩ | ⟨ctx, k, e, rfl, -⟩
  · rintro ⟨l', s, y, h, -, h1⟩
    have := (List.append_inj' h (by simp)).2
    simp only [List.cons.injEq, Entry.msg.injEq] at this
    exact h1 this.1.1.symm
  · exact logEqData_not_prover B ctx k e

/-- Creation of ballots does not use other values of the hash function. -/
theorem votingOutput_congr (B : Backend F E) {H H' : List Entry → F} (hag : Agree [] H H')
    (params : QuadraticVotingParams E) (votes : List ℕ) (tape : List F) :
    votingOutput (B.withHash H') params votes tape = votingOutput (B.withHash H) params votes tape := by
  have := QuadraticVotingBallot.new_congr (B := B.withTape) hag params votes tape
  simp only [votingOutput]
  exact congrArg (Option.map _) this

section
variable [Fintype F]

/-- Ballots and decryptions of their totals compared with ballots and simulated decryptions, if ballots
depend only on values of the hash function for data of provers. -/
theorem poll_decryptions (B : Backend F E) (hT : B.TotalSer) [Finite E] {β : Type} {n o d : ℕ}
    (poll : Poll F E β n o d) (K : PublicKey E) (k : F) (hk : K.element = k • B.gen) (counts : PublicKey E → Fin o → ℕ)
    (hcongr : ∀ H H' : List Entry → F, Agree [] H H' → ∀ tapes,
      poll.ballots (B.withHash H') K tapes = poll.ballots (B.withHash H) K tapes)
    (cts : (Fin n → Fin d → F) → Fin o → Ciphertext E)
    (hcts : ∀ (H : List Entry → F) tapes, poll.totals (poll.ballots (B.withHash H) K tapes) = cts tapes)
    (hdh : ∀ tapes j, k • (cts tapes j).random = (cts tapes j).blinded - (counts K j : F) • B.gen)
    (t : Fin o → Transcript) (ht : Function.Injective t)
    (D : Finset (List Entry)) (hD : (decData_finite B t).toFinset ⊆ D) (H₀ : List Entry → F)
    (guess : (List Entry → F) → PublicKey E → (Fin n → Option β) →
      (Fin o → Option (VerifiableDecryption E × LogEqualityProof F)) → ℚ) :
    (meanHash D H₀ fun H => mean fun tapes : Fin n → Fin d → F =>
      mean fun xs : Fin o → F => guess H K (poll.ballots (B.withHash H) K tapes) fun j =>
        (VerifiableDecryption.new (B.withHash H).withTape (poll.totals (poll.ballots (B.withHash H) K tapes) j) ⟨k, K⟩
          (t j) [xs j]).map Prod.fst) =
    meanHash D H₀ fun H => mean fun tapes : Fin n → Fin d → F =>
      withCounts B t poll.totals counts guess H K (poll.ballots (B.withHash H) K tapes) := by
  rw [meanHash_mean, meanHash_mean]
  congr 1
  funext tapes
  simp only [hcts]
  rw [decryptions_simulation B hT K k hk t ht D hD H₀ (cts tapes)
    (fun H ds => guess H K (poll.ballots (B.withHash H) K tapes) ds), ← meanHash_mean]
  congr 1
  funext H
  rw [withCounts]
  congr 1
  funext p
  simp only [hcts, decryptionsOf, ← hdh]
  rw [hcongr H _ ?_ tapes]
  rintro q - hq
  refine program_of_notMem fun hm => ?_
  obtain ⟨qa, hqa, rfl⟩ := List.mem_map.mp hm
  obtain ⟨l, hl, hqa⟩ := List.mem_flatten.mp hqa
  obtain ⟨j, rfl⟩ := (List.mem_ofFn' _ _).mp hl
  obtain ⟨e, he, -⟩ := decryptionPoint_spec B hT K (cts tapes j) (t j) (⟨k • (cts tapes j).random⟩, p j)
  simp only [he, List.mem_singleton] at hqa
  rw [hqa] at hq
  exact logEqData_not_prover _ _ _ _ hq

/-- The same for elections with a shared key. -/
theorem poll_shared (B : Backend F E) (hB : B.Lawful) (hT : B.TotalSer) [Finite E] (params : Params)
    (hv : ValidParams params) {c : ℕ} (hc : params.threshold = c + 1) {β : Type} {n o d : ℕ} (bad : Fin c → ℕ)
    (hi : Function.Injective (badNodes F bad)) (hbad : ∀ a, bad a < params.shares)
    (poll : Poll F E β n o d) (counts : PublicKey E → Fin o → ℕ)
    (hcongr : ∀ K (H H' : List Entry → F), Agree [] H H' → ∀ tapes,
      poll.ballots (B.withHash H') K tapes = poll.ballots (B.withHash H) K tapes)
    (cts : F → (Fin n → Fin d → F) → Fin o → Ciphertext E)
    (hcts : ∀ (k : F) (H : List Entry → F) tapes,
      poll.totals (poll.ballots (B.withHash H) (keyOf B (k • B.gen)) tapes) = cts k tapes)
    (hdh : ∀ (k : F) tapes j, k • (cts k tapes j).random =
      (cts k tapes j).blinded - (counts (keyOf B (k • B.gen)) j : F) • B.gen)
    (D : Finset (List Entry)) (hD : (proofData_finite B params o).toFinset ⊆ D) (H₀ : List Entry → F)
    (guess : (List Entry → F) → ThresholdView F E β n o c params.shares → ℚ)
    (hg : ∀ H view, 0 ≤ guess H view ∧ guess H view ≤ 1) :
    |thresholdGame B D H₀ params bad poll guess -
      ballotsGame B D H₀ poll (withShares B params bad poll.totals counts guess)| ≤
    ((1 + params.shares + params.shares * o).choose 2 : ℚ) / Fintype.card F := by
  refine shared_simulation B hB hT params hv hc bad hi hbad D H₀ poll counts guess ?_ ?_
  · intro k H tapes j
    rw [hcts]
    exact hdh k tapes j
  · intro k cs
    rw [meanHash_mean, meanHash_mean, ← mean_sub]
    refine (abs_mean_le _).trans ?_
    rw [← mean_const (α := Fin n → Fin d → F) (((1 + params.shares + params.shares * o).choose 2 : ℚ) / Fintype.card F)]
    refine mean_le_mean fun tapes => ?_
    simp only [hcts]
    have := family_simulation (nodup_proofIndexes params.shares o) mem_proofIndexes
      (proof_hashOnce B hB hT params cs (cts k tapes) hv.1) D (fun i s => hD (proofQuery_mem B params cs _ i s)) H₀
      (fun H outs => dealtGuess B params cs bad guess H (poll.ballots (B.withHash H) (keyOf B (k • B.gen)) tapes) outs)
      (fun _ => 1) ?_ ?_
    · rw [length_proofIndexes, meanHash_const, mul_one] at this
      refine le_trans (le_of_eq ?_) this
      congr 2
      rw [← meanHash_mean]
      congr 1
      funext H
      rw [simulatedProofs]
      simp only [hcts]
      congr 1
      funext scalars
      refine congrArg (fun b => dealtGuess B params cs bad guess _ b _) (hcongr _ H _ ?_ tapes).symm
      rintro q - hq
      refine program_of_notMem fun hm => ?_
      simp only [familyPoints, List.map_map, List.mem_map, Function.comp_apply] at hm
      obtain ⟨i, -, rfl⟩ := hm
      exact notInBallots_not_prover (proofQuery_notInBallots B params cs _ hv.1 i _) hq
    · intro H outs
      unfold dealtGuess
      split
      · simp
      · exact hg _ _
    · intro H scalars
      rfl

end

/-! ## Quadratic-voting ballots -/

theorem split_tape {α : Type} {a b c o : ℕ} (T : Fin (o * a + (b + c)) → α) :
    ∃ (tapes : Fin o → Fin a → α) (tape : Fin b → α) (s : Fin c → α),
      List.ofFn T = (List.ofFn fun i => List.ofFn (tapes i)).flatten ++ (List.ofFn tape ++ List.ofFn s) := by
  have h1 : ∀ {m n : ℕ} (f : Fin (m + n) → α), ∃ (x : Fin m → α) (y : Fin n → α), List.ofFn f = List.ofFn x ++ List.ofFn y :=
    fun _ => ⟨_, _, List.ofFn_add⟩
  have h2 : ∀ f : Fin (o * a) → α, ∃ x : Fin o → Fin a → α, List.ofFn f = (List.ofFn fun i => List.ofFn (x i)).flatten :=
    fun f => ⟨_, List.ofFn_mul f⟩
  obtain ⟨x, y, e1⟩ := h1 T
  obtain ⟨tapes, e2⟩ := h2 x
  obtain ⟨tape, s, e3⟩ := h1 y
  exact ⟨tapes, tape, s, by rw [e1, e2, e3]⟩

section
variable [Fintype F]

/-- The encrypted votes in a ballot do not depend on the hash function. -/
theorem voting_ciphertexts (B : Backend F E) (hB : B.Lawful) (hT : B.TotalSer) {params : QuadraticVotingParams E}
    {o c m : ℕ} (hp : VotingParamsFor B params o c m) (K : PublicKey E) (k : F) (hk : K.element = k • B.gen)
    (votes : Fin o → ℕ) (hv : ∀ i, votes i ≤ m) (hc : cost (List.ofFn votes) ≤ c) (T : Fin (ballotDraws params o) → F) :
    ∃ rs : Fin o → F, ∀ H, ∃ ballot : QuadraticVotingBallot F E,
      votingOutput (B.withHash H) { params with receiver := K } (List.ofFn votes) (List.ofFn T) = some ballot ∧
      ballot.votes.map (·.ciphertext) = List.ofFn fun i => ⟨rs i • B.gen, (votes i : F) • B.gen + rs i • K.element⟩ := by
  obtain ⟨tapes, tape, s, hs⟩ := split_tape (a := rangeDraws params.voteCountRange) (b := rangeDraws params.creditRange)
    (c := o * 2 + 1) (o := o) T
  refine ⟨fun i => (CiphertextWithValue.newU64 B.withTape (votes i) K (List.ofFn (tapes i))).1.randomness, fun H => ?_⟩
  have hp' : VotingParamsFor (B.withHash H) params o c m := ⟨hp.options, hp.votes.withHash H, hp.credits.withHash H⟩
  have h1 := voting_output (B.withHash H) (hB.withHash H) hT hp' K k hk votes hv hc tapes tape s
  choose proofs ts h2 using fun i => range_new_frame (B.withHash H) (hB.withHash H) hT hp'.votes K k hk
    (Nat.lt_succ_of_le (hv i)) (Transcript.new "quadratic_voting_variant") (List.ofFn (tapes i)) (by simp)
  obtain ⟨proof, t', h3⟩ := range_new_frame (B.withHash H) (hB.withHash H) hT hp'.credits K k hk
    (Nat.lt_succ_of_le hc) (Transcript.new "quadratic_voting_credit_range") (List.ofFn tape) (by simp)
  have h2' : ∀ i, rangeOutput (B.withHash H) K params.voteCountRange (Transcript.new "quadratic_voting_variant") (votes i)
      (List.ofFn (tapes i)) = some ((CiphertextWithValue.newU64 B.withTape (votes i) K (List.ofFn (tapes i))).1.ciphertext,
        proofs i) := by
    intro i
    have := h2 i []
    rw [List.append_nil] at this
    rw [rangeOutput, this]
    rfl
  have h3' : rangeOutput (B.withHash H) K params.creditRange (Transcript.new "quadratic_voting_credit_range")
      (cost (List.ofFn votes)) (List.ofFn tape) =
      some ((CiphertextWithValue.newU64 B.withTape (cost (List.ofFn votes)) K (List.ofFn tape)).1.ciphertext, proof) := by
    have := h3 []
    rw [List.append_nil] at this
    rw [rangeOutput, this]
    rfl
  obtain ⟨⟨sum, t2, rest⟩, h4⟩ := C19_sum_sq_new_total (B.withHash H).withTape hT
    (List.ofFn fun i => (CiphertextWithValue.newU64 B.withTape (votes i) K (List.ofFn (tapes i))).1.generalize)
    (CiphertextWithValue.newU64 B.withTape (cost (List.ofFn votes)) K (List.ofFn tape)).1.generalize K
    (Transcript.new "quadratic_voting_credit_equiv") (List.ofFn s)
  have h5 : votingOutput (B.withHash H) { params with receiver := K } (List.ofFn votes) (List.ofFn T) =
      makeBallot (fun i => some ((CiphertextWithValue.newU64 B.withTape (votes i) K (List.ofFn (tapes i))).1.ciphertext,
        proofs i)) (some ((CiphertextWithValue.newU64 B.withTape (cost (List.ofFn votes)) K
          (List.ofFn tape)).1.ciphertext, proof)) (some sum) := by
    refine (congrArg (votingOutput (B.withHash H) { params with receiver := K } (List.ofFn votes)) hs).trans ?_
    refine h1.trans ?_
    refine congrArg₂ (fun a b => a b) (congrArg₂ makeBallot (funext h2') h3') ?_
    exact congrArg (Option.map Prod.fst) h4
  have h6 : (List.ofFn fun i => some ((CiphertextWithValue.newU64 B.withTape (votes i) K
      (List.ofFn (tapes i))).1.ciphertext, proofs i)).mapM id = some (List.ofFn fun i =>
      ((CiphertextWithValue.newU64 B.withTape (votes i) K (List.ofFn (tapes i))).1.ciphertext, proofs i)) := by
    rw [← mapM_id_some, List.map_ofFn]
    rfl
  refine ⟨_, h5.trans (by simp only [makeBallot, h6, Option.bind_eq_bind, Option.bind_some, Option.pure_def]; rfl), ?_⟩
  simp only [List.map_ofFn]
  rfl

/-- The sums of the encrypted votes do not depend on the hash function, and decrypt to the sums of votes. -/
theorem voting_totals (B : Backend F E) (hB : B.Lawful) (hT : B.TotalSer) {params : QuadraticVotingParams E}
    {n o c m : ℕ} (hp : VotingParamsFor B params o c m) (K : PublicKey E) (k : F) (hk : K.element = k • B.gen)
    (votes : PublicKey E → Fin n → Fin o → ℕ) (hv : ∀ v i, votes K v i ≤ m)
    (hc : ∀ v, cost (List.ofFn (votes K v)) ≤ c) (tapes : Fin n → Fin (ballotDraws params o) → F) :
    ∃ cts : Fin o → Ciphertext E, (∀ H : List Entry → F,
      (votingPoll params votes).totals ((votingPoll params votes).ballots (B.withHash H) K tapes) = cts) ∧
      ∀ j, k • (cts j).random = (cts j).blinded - (voteSums (votes K) j : F) • B.gen := by
  choose rs hrs using fun v => voting_ciphertexts B hB hT hp K k hk (votes K v) (hv v) (hc v) (tapes v)
  let rows : List (List (Ciphertext E)) := List.ofFn fun v => List.ofFn fun i =>
    ⟨rs v i • B.gen, (votes K v i : F) • B.gen + rs v i • K.element⟩
  have hl : ∀ j : Fin o, j.1 < (tally o rows).length := fun j => by simp [tally]
  refine ⟨fun j => (tally o rows)[j.1]'(hl j), fun H => ?_, fun j => ?_⟩
  · funext j
    simp only [votingPoll, votesTotal]
    rw [show (List.ofFn fun v => ((votingOutput (B.withHash H) { params with receiver := K } (List.ofFn (votes K v))
        (List.ofFn (tapes v))).map fun ballot => ballot.votes.map (·.ciphertext)).getD []) = rows by
      congr 1
      funext v
      obtain ⟨ballot, h1, h2⟩ := hrs v H
      rw [h1, Option.map_some, Option.getD_some, h2], List.getElem?_eq_getElem (hl j), Option.getD_some]
  · have := tally_decrypts B hB k o rows (List.ofFn fun v => List.ofFn (votes K v)) ?_ j _
      (List.getElem?_eq_getElem (hl j))
    · rw [SecretKey.decryptToElement] at this
      rw [eq_sub_iff_add_eq, add_comm, ← eq_sub_iff_add_eq, this]
      congr 2
      rw [voteSums, List.map_ofFn]
      simp only [Function.comp_def, List.getElem?_ofFn, Fin.is_lt, dif_pos, Option.getD_some]
    · refine forall₂_ofFn fun v => ⟨by simp, ?_⟩
      rw [List.map_ofFn, List.map_ofFn]
      congr 1
      funext i
      simp only [Function.comp_def, SecretKey.decryptToElement, hk]
      module

theorem votingPoll_congr (B : Backend F E) (params : QuadraticVotingParams E) {n o : ℕ}
    (votes : PublicKey E → Fin n → Fin o → ℕ) (K : PublicKey E) (H H' : List Entry → F) (hag : Agree [] H H')
    (tapes : Fin n → Fin (ballotDraws params o) → F) :
    (votingPoll params votes).ballots (B.withHash H') K tapes =
      (votingPoll params votes).ballots (B.withHash H) K tapes :=
  funext fun _ => votingOutput_congr B hag _ _ _

end

end ElasticElgamal
