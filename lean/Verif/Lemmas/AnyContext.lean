import Verif.Lemmas.VotingTally

/-!
# Lemmas: decryptions of totals with arbitrary contexts

As in `Lemmas/TallyPrivacy.lean`, but contexts of decryption proofs may be equal, so that hashed data may collide.
-/

set_option autoImplicit false
set_option linter.unusedSectionVars false

namespace ElasticElgamal

open Spec

variable {F E : Type} [Field F] [AddCommGroup E] [Module F E] [DecidableEq F] [DecidableEq E]

section
variable (B : Backend F E) (hB : B.Lawful) (hT : B.TotalSer) (K : PublicKey E) (k : F) (hk : K.element = k • B.gen)

/-- Data hashed last for the decryption of `ct`. -/
def decInput (ct : Ciphertext E) (t : Transcript) (p : LogEqualityProof F) : List Entry :=
  logEqInput B (keyOf B ct.random) (k • B.gen, k • (keyOf B ct.random).element)
    (t.startProof "decryption_with_custom_key") p

include hT hk in
theorem decryptionPoint_eq (H : List Entry → F) (ct : Ciphertext E) (t : Transcript) (p : LogEqualityProof F) :
    decryptionPoint (B.withHash H) K ct t (⟨k • ct.random⟩, p) = [(decInput B k ct t p, p.challenge)] := by
  have hf : PublicKey.fromElement (B.withHash H) ct.random = some (keyOf B ct.random) := fromElement_keyOf hT _
  simp only [decryptionPoint, CandidateDecryption.verify, CandidateDecryption.ofVerifiable, hf,
    Option.bind_eq_bind, Option.bind_some, Option.pure_def, hk]
  rw [logEq_verify_eq B hT H, decInput, keyOf_element hT]
  rfl

include hB hT hk in
theorem decryption_hashOnce [Fintype F] (ct : Ciphertext E) (t : Transcript) :
    HashOnce (fun H (x : F) => (VerifiableDecryption.new (B.withHash H).withTape ct ⟨k, K⟩ t [x]).map Prod.fst)
      (fun p => some (⟨k • ct.random⟩, p)) (decInput B k ct t) LogEqualityProof.challenge := by
  have := (logEq_hashOnce B hB hT (keyOf B ct.random) k (t.startProof "decryption_with_custom_key")).comp
    (g := Option.map fun p => ((⟨k • ct.random⟩ : VerifiableDecryption E), p))
    (Option.map_injective fun p p' h => (Prod.mk.inj h).2)
  refine Eq.mp (congrArg (fun out => HashOnce out _ (decInput B k ct t) LogEqualityProof.challenge) ?_) this
  funext H x
  have hf : PublicKey.fromElement (B.withHash H).withTape ct.random = some (keyOf B ct.random) := fromElement_keyOf hT _
  simp only [VerifiableDecryption.new, hf, Option.bind_eq_bind, Option.bind_some, Option.pure_def, hk, keyOf_element hT]
  cases LogEqualityProof.new (B.withHash H).withTape (keyOf B ct.random) k (k • B.gen, k • ct.random)
    (t.startProof "decryption_with_custom_key") [x] <;> rfl

include hT in
theorem decInput_mem [Finite E] {o : ℕ} (t : Fin o → Transcript) (j : Fin o) (ct : Ciphertext E) (p : LogEqualityProof F) :
    decInput B k ct (t j) p ∈ (decData_finite B t).toFinset := by
  rw [Set.Finite.mem_toFinset]
  refine ⟨((j, ct.random), ((k • B.gen, k • (keyOf B ct.random).element), (p.response • B.gen - p.challenge • k • B.gen,
    p.response • (keyOf B ct.random).element - p.challenge • k • (keyOf B ct.random).element))), ?_⟩
  obtain ⟨b, hb⟩ := hT ct.random
  have : (keyOf B ct.random).bytes = encOf B ct.random := by
    rw [encOf_eq hb]
    exact Option.some.inj ((keyOf_isKey hT ct.random).2.symm.trans hb)
  simp only [decInput, logEqInput, this]
  rfl

variable [Fintype F]

/-- Values of the hash function programmed for simulated decryptions. -/
def decPoints {o : ℕ} (cts : Fin o → Ciphertext E) (t : Fin o → Transcript) (proofs : Fin o → LogEqualityProof F) :
    List (List Entry × F) :=
  familyPoints (fun j => decInput B k (cts j) (t j)) (fun _ => LogEqualityProof.challenge) (List.finRange o) proofs

include hT hk in
theorem decPoints_eq {o : ℕ} (H : List Entry → F) (cts : Fin o → Ciphertext E) (t : Fin o → Transcript)
    (proofs : Fin o → LogEqualityProof F) :
    (List.ofFn fun j => decryptionPoint (B.withHash H) K (cts j) (t j) (⟨k • (cts j).random⟩, proofs j)).flatten =
      decPoints B k cts t proofs := by
  simp only [decryptionPoint_eq B hT K k hk, decPoints, familyPoints, List.ofFn_eq_map]
  induction List.finRange o with
  | nil => rfl
  | cons j l ih => simp [ih]

include hB hT hk in
/-- Decryptions of given ciphertexts can be simulated up to collisions. -/
theorem decryptions_simulation_any [Finite E] {o : ℕ} (t : Fin o → Transcript)
    (D : Finset (List Entry)) (hD : (decData_finite B t).toFinset ⊆ D) (H₀ : List Entry → F) (cts : Fin o → Ciphertext E)
    (f : (List Entry → F) → (Fin o → Option (VerifiableDecryption E × LogEqualityProof F)) → ℚ) (w : (List Entry → F) → ℚ)
    (hf : ∀ H ds, 0 ≤ f H ds ∧ f H ds ≤ w H) (hw : ∀ H proofs, w (program H (decPoints B k cts t proofs)) = w H) :
    |(meanHash D H₀ fun H => mean fun xs : Fin o → F => f H fun j =>
      (VerifiableDecryption.new (B.withHash H).withTape (cts j) ⟨k, K⟩ (t j) [xs j]).map Prod.fst) -
    mean fun proofs : Fin o → LogEqualityProof F => meanHash D H₀ fun H =>
      f (program H (decPoints B k cts t proofs)) fun j => some (⟨k • (cts j).random⟩, proofs j)| ≤
    (o.choose 2 : ℚ) / Fintype.card F * meanHash D H₀ w := by
  have := family_simulation (List.nodup_finRange o) (fun j => List.mem_finRange j)
    (fun j => decryption_hashOnce B hB hT K k hk (cts j) (t j)) D (fun j p => hD (decInput_mem B hT k t j (cts j) p)) H₀ f w
    hf hw
  rw [List.length_finRange] at this
  exact this

open Classical in
include hB hT hk in
/-- Ballots and decryptions of their totals compared with ballots and simulated decryptions. -/
theorem tally_simulation_any [Finite E] {kind : ChoiceKind} {n o : ℕ} (ho : o ≠ 0) (t : Fin o → Transcript)
    (D : Finset (List Entry)) (hD : (decData_finite B t).toFinset ⊆ D) (H₀ : List Entry → F)
    (votes : Fin n → Fin o → Bool) (hone : ∀ v, kind = .single → (List.ofFn (votes v)).count true = 1)
    (guess : (List Entry → F) → PublicKey E → (Fin n → Option (EncryptedChoice F E kind)) →
      (Fin o → Option (VerifiableDecryption E × LogEqualityProof F)) → ℚ)
    (hg : ∀ H K b d, 0 ≤ guess H K b d ∧ guess H K b d ≤ 1) :
    |(meanHash D H₀ fun H => mean fun tapes : Fin n → Fin (choiceDraws o kind) → F =>
      mean fun xs : Fin o → F => guess H K (honestBallots B H kind K votes tapes) fun j =>
        (VerifiableDecryption.new (B.withHash H).withTape (optionTotal (honestBallots B H kind K votes tapes) j) ⟨k, K⟩
          (t j) [xs j]).map Prod.fst) -
    meanHash D H₀ fun H => mean fun tapes : Fin n → Fin (choiceDraws o kind) → F =>
      withCounts B t optionTotal (fun _ => voteCounts votes) guess H K (honestBallots B H kind K votes tapes)| ≤
    (o.choose 2 : ℚ) / Fintype.card F := by
  have hone1 := mean_honestBallots B hB hT ho K k hk D H₀ votes hone fun _ _ => 1
  simp only [mean_const, meanHash_const] at hone1
  rw [mean_honestBallots B hB hT ho K k hk D H₀ votes hone fun H b => mean fun xs : Fin o → F => guess H K b fun j =>
      (VerifiableDecryption.new (B.withHash H).withTape (optionTotal b j) ⟨k, K⟩ (t j) [xs j]).map Prod.fst,
    mean_honestBallots B hB hT ho K k hk D H₀ votes hone fun H b =>
      withCounts B t optionTotal (fun _ => voteCounts votes) guess H K b,
    ← sub_div, ← Finset.sum_sub_distrib, abs_div, Nat.abs_cast]
  refine (div_le_div_of_nonneg_right (Finset.abs_sum_le_sum_abs _ _) (Nat.cast_nonneg _)).trans ?_
  have key : ∀ ss : Fin n → (Fin o → F) × ChoiceProofs F o kind,
      |(meanHash D H₀ fun H => if ValidBallots B K votes H ss then mean fun xs : Fin o → F =>
          guess H K (madeBallots B K votes ss) fun j => (VerifiableDecryption.new (B.withHash H).withTape
            (optionTotal (madeBallots B K votes ss) j) ⟨k, K⟩ (t j) [xs j]).map Prod.fst else 0) -
        meanHash D H₀ fun H => if ValidBallots B K votes H ss then
          withCounts B t optionTotal (fun _ => voteCounts votes) guess H K (madeBallots B K votes ss) else 0| ≤
      (o.choose 2 : ℚ) / Fintype.card F * meanHash D H₀ fun H => if ValidBallots B K votes H ss then 1 else 0 := by
    intro ss
    have hvalid : ∀ H proofs, ValidBallots B K votes (program H (decPoints B k
        (optionTotal (madeBallots B K votes ss)) t proofs)) ss ↔ ValidBallots B K votes H ss := by
      intro H proofs
      refine forall_congr' fun v => choice_valid_congr B hT ho K _ _ _ _ (fun q => ∃ t k e, q = logEqData B (decLog t) k e)
        (fun q hq => program_of_notMem fun hm => ?_) ?_ ?_ ?_
      · simp only [decPoints, familyPoints, List.map_map, List.mem_map, Function.comp_apply] at hm
        obtain ⟨j, -, rfl⟩ := hm
        exact hq ⟨_, _, _, rfl⟩
      · rintro base j x y ⟨t, k', e, h⟩; exact dec_ne_ring h
      · rintro ctx k' terms hne ⟨t, k', e, h⟩; exact dec_ne_common hne h
      · rintro k' e ⟨t, k', e, h⟩; exact dec_ne_sum h
    have hdh := totals_dh B hB K k hk votes ss
    have := decryptions_simulation_any B hB hT K k hk t D hD H₀ (optionTotal (madeBallots B K votes ss))
      (fun H ds => if ValidBallots B K votes H ss then guess H K (madeBallots B K votes ss) ds else 0)
      (fun H => if ValidBallots B K votes H ss then 1 else 0) ?_ ?_
    · convert this using 3
      · congr 1
        funext H
        split
        · rfl
        · rw [mean_const]
      · rw [← meanHash_mean]
        congr 1
        funext H
        simp only [hvalid]
        split
        · simp only [withCounts, decryptionsOf, ← hdh, decPoints_eq B hT K k hk]
        · simp [mean]
    · intro H ds
      split
      · exact hg _ _ _ _
      · simp
    · intro H proofs
      simp only [hvalid]
  refine (div_le_div_of_nonneg_right (Finset.sum_le_sum fun ss _ => key ss) (Nat.cast_nonneg _)).trans ?_
  rw [← Finset.mul_sum, mul_div_assoc, ← hone1, mul_one]

include hB hT hk in
/-- The same for ballots that depend only on values of the hash function for data of provers. -/
theorem poll_decryptions_any [Finite E] {β : Type} {n o d : ℕ}
    (poll : Poll F E β n o d) (counts : PublicKey E → Fin o → ℕ)
    (hcongr : ∀ H H' : List Entry → F, Agree [] H H' → ∀ tapes,
      poll.ballots (B.withHash H') K tapes = poll.ballots (B.withHash H) K tapes)
    (cts : (Fin n → Fin d → F) → Fin o → Ciphertext E)
    (hcts : ∀ (H : List Entry → F) tapes, poll.totals (poll.ballots (B.withHash H) K tapes) = cts tapes)
    (hdh : ∀ tapes j, k • (cts tapes j).random = (cts tapes j).blinded - (counts K j : F) • B.gen)
    (t : Fin o → Transcript) (D : Finset (List Entry)) (hD : (decData_finite B t).toFinset ⊆ D) (H₀ : List Entry → F)
    (guess : (List Entry → F) → PublicKey E → (Fin n → Option β) →
      (Fin o → Option (VerifiableDecryption E × LogEqualityProof F)) → ℚ)
    (hg : ∀ H K b d, 0 ≤ guess H K b d ∧ guess H K b d ≤ 1) :
    |(meanHash D H₀ fun H => mean fun tapes : Fin n → Fin d → F =>
      mean fun xs : Fin o → F => guess H K (poll.ballots (B.withHash H) K tapes) fun j =>
        (VerifiableDecryption.new (B.withHash H).withTape (poll.totals (poll.ballots (B.withHash H) K tapes) j) ⟨k, K⟩
          (t j) [xs j]).map Prod.fst) -
    meanHash D H₀ fun H => mean fun tapes : Fin n → Fin d → F =>
      withCounts B t poll.totals counts guess H K (poll.ballots (B.withHash H) K tapes)| ≤
    (o.choose 2 : ℚ) / Fintype.card F := by
  rw [meanHash_mean, meanHash_mean, ← mean_sub]
  refine (abs_mean_le _).trans ?_
  rw [← mean_const (α := Fin n → Fin d → F) ((o.choose 2 : ℚ) / Fintype.card F)]
  refine mean_le_mean fun tapes => ?_
  have := decryptions_simulation_any B hB hT K k hk t D hD H₀ (cts tapes)
    (fun H ds => guess H K (poll.ballots (B.withHash H) K tapes) ds) (fun _ => 1) (fun _ _ => hg _ _ _ _) fun _ _ => rfl
  rw [meanHash_const, mul_one] at this
  simp only [hcts]
  convert this using 3
  rw [← meanHash_mean]
  congr 1
  funext H
  rw [withCounts]
  congr 1
  funext p
  simp only [hcts, decryptionsOf, ← hdh, decPoints_eq B hT K k hk]
  rw [hcongr H (program H (decPoints B k (cts tapes) t p)) ?_ tapes]
  rintro q - hq
  refine program_of_notMem fun hm => ?_
  simp only [decPoints, familyPoints, List.map_map, List.mem_map, Function.comp_apply] at hm
  obtain ⟨j, -, rfl⟩ := hm
  exact logEqData_not_prover _ _ _ _ hq

end

end ElasticElgamal
