import Verif.Lemmas.ChoicePrivacy
import Verif.Props.Election

/-!
# Lemmas: simulation of decryptions of tallies
-/

set_option autoImplicit false
set_option linter.unusedSectionVars false

namespace ElasticElgamal

open Spec

variable {F E : Type} [Field F] [AddCommGroup E] [Module F E] [DecidableEq F] [DecidableEq E]

/-- The context of decryption proofs. -/
def decLog (t : Transcript) : List Entry := (t.startProof "decryption_with_custom_key").log

theorem decryptionPoint_spec (B : Backend F E) (hT : B.TotalSer) (K : PublicKey E) (ct : Ciphertext E) (t : Transcript)
    (d : VerifiableDecryption E × LogEqualityProof F) :
    ∃ e, (∀ H : List Entry → F, decryptionPoint (B.withHash H) K ct t d =
        [(logEqData B (decLog t) (encOf B ct.random) e, d.2.challenge)]) ∧
      ∀ H : List Entry → F, (∃ t', d.2.verify (B.withHash H) ⟨encOf B ct.random, ct.random⟩ (K.element, d.1.dhElement)
          (t.startProof "decryption_with_custom_key") = some (.ok (), t')) ↔
        H (logEqData B (decLog t) (encOf B ct.random) e) = d.2.challenge := by
  obtain ⟨b, hb⟩ := hT ct.random
  obtain ⟨e, h1, h2⟩ := logEqPoint_spec B hT ⟨encOf B ct.random, ct.random⟩ (K.element, d.1.dhElement)
    (t.startProof "decryption_with_custom_key") d.2
  refine ⟨e, fun H => ?_, h2⟩
  have hf : PublicKey.fromElement (B.withHash H) ct.random = some ⟨encOf B ct.random, ct.random⟩ := by
    simp only [PublicKey.fromElement, hb, encOf_eq hb]
    rfl
  rw [decLog, ← h1 H]
  simp only [decryptionPoint, logEqPoint, CandidateDecryption.verify, CandidateDecryption.ofVerifiable, hf,
    Option.bind_eq_bind, Option.bind_some, Option.pure_def]
  cases d.2.verify (B.withHash H) ⟨encOf B ct.random, ct.random⟩ (K.element, d.1.dhElement)
    (t.startProof "decryption_with_custom_key") <;> rfl

/-- Outputs of `VerifiableDecryption::new`. -/
theorem decryption_outputs (B : Backend F E) (hT : B.TotalSer) (K : PublicKey E) (k : F)
    (hk : K.element = k • B.gen) (ct : Ciphertext E) (t : Transcript) :
    (∀ H (p : LogEqualityProof F), Has H (decryptionPoint (B.withHash H) K ct t (⟨k • ct.random⟩, p)) →
      ∃! x : F, (VerifiableDecryption.new (B.withHash H).withTape ct ⟨k, K⟩ t [x]).map Prod.fst =
        some (⟨k • ct.random⟩, p)) ∧
    ∀ H (x : F), ∃ p : LogEqualityProof F, Has H (decryptionPoint (B.withHash H) K ct t (⟨k • ct.random⟩, p)) ∧
      (VerifiableDecryption.new (B.withHash H).withTape ct ⟨k, K⟩ t [x]).map Prod.fst = some (⟨k • ct.random⟩, p) := by
  obtain ⟨b, hb⟩ := hT ct.random
  have hf : ∀ H, PublicKey.fromElement (B.withHash H).withTape ct.random = some ⟨encOf B ct.random, ct.random⟩ := by
    intro H
    simp only [PublicKey.fromElement, hb, encOf_eq hb]
    rfl
  have hnew : ∀ H x, (VerifiableDecryption.new (B.withHash H).withTape ct ⟨k, K⟩ t [x]).map Prod.fst =
      (LogEqualityProof.new (B.withHash H).withTape ⟨encOf B ct.random, ct.random⟩ k (k • B.gen, k • ct.random)
        (t.startProof "decryption_with_custom_key") [x]).map fun r => (⟨k • ct.random⟩, r.1) := by
    intro H x
    simp only [VerifiableDecryption.new, hf, hk, Option.bind_eq_bind, Option.bind_some, Option.pure_def]
    cases LogEqualityProof.new (B.withHash H).withTape ⟨encOf B ct.random, ct.random⟩ k (k • B.gen, k • ct.random)
        (t.startProof "decryption_with_custom_key") [x] <;> rfl
  have hiff : ∀ H p, Has H (decryptionPoint (B.withHash H) K ct t (⟨k • ct.random⟩, p)) ↔
      ∃ t', p.verify (B.withHash H) ⟨encOf B ct.random, ct.random⟩ (k • B.gen, k • ct.random)
          (t.startProof "decryption_with_custom_key") = some (.ok (), t') := by
    intro H p
    obtain ⟨e, h1, h2⟩ := decryptionPoint_spec B hT K ct t (⟨k • ct.random⟩, p)
    rw [h1, ← hk, h2 H]
    simp [Has]
  refine ⟨fun H p hp => ?_, fun H x => ?_⟩
  · obtain ⟨t', hv⟩ := (hiff H p).mp hp
    obtain ⟨x, hx, hu⟩ := C51_log_eq_zk (B.withHash H) ⟨encOf B ct.random, ct.random⟩ k p _ t' hv
    have hx' : LogEqualityProof.new (B.withHash H).withTape ⟨encOf B ct.random, ct.random⟩ k
      (k • B.gen, k • ct.random) (t.startProof "decryption_with_custom_key") [x] = some (p, t', []) := hx
    refine ⟨x, by simp only [hnew, hx', Option.map_some], ?_⟩
    intro y hy
    simp only [hnew, Option.map_eq_some_iff, Prod.mk.injEq, true_and, Prod.exists] at hy
    obtain ⟨p', t2, rest, hy, rfl⟩ := hy
    obtain ⟨-, -, -, -, -, -, -, -, -, -, e1, -⟩ := LogEqualityProof.new_eq_some.mp hx'
    obtain ⟨-, -, -, -, -, -, -, -, -, -, e2, -⟩ := LogEqualityProof.new_eq_some.mp hy
    rw [e1] at e2
    simpa using e2.symm
  · obtain ⟨⟨p, t', rest⟩, hn⟩ := C11_log_eq_new_total (B.withHash H).withTape hT ⟨encOf B ct.random, ct.random⟩ k
      (k • B.gen, k • ct.random) (t.startProof "decryption_with_custom_key") [x]
    refine ⟨p, (hiff H p).mpr ⟨t', ?_⟩, by simp only [hnew, hn, Option.map_some]⟩
    exact C11_log_eq_complete (B.withHash H).withTape ⟨encOf B ct.random, ct.random⟩ k _ t' _ rest p hn

theorem decLog_injective {B : Backend F E} {t t' : Transcript} {k k' : Bytes} {e e' : (E × E) × (E × E)}
    (h : logEqData B (decLog t) k e = logEqData B (decLog t') k' e') : t = t' := by
  have h1 := (List.append_inj' h (by simp)).1
  have h2 := (List.append_inj' (show t.log ++ [_] = t'.log ++ [_] from h1) (by simp)).1
  cases t; cases t'
  exact congrArg _ h2

theorem dec_ne_sum {B : Backend F E} {t : Transcript} {k k' : Bytes} {e e' : (E × E) × (E × E)} :
    logEqData B (Transcript.new "choice_encryption_sum").log k e ≠ logEqData B (decLog t) k' e' := by
  intro h
  have h1 := (List.append_inj' h (by simp)).1
  have h2 := congrArg List.getLast? h1
  simp [decLog, Transcript.new, Transcript.startProof, Transcript.appendMessage] at h2
  revert h2
  decide

theorem logEqData_end (B : Backend F E) (ctx : List Entry) (k : Bytes) (e : (E × E) × (E × E)) :
    ∃ l x, logEqData B ctx k e = l ++ [.msg "[x]K" x, .chal "c"] :=
  ⟨ctx ++ [_, _, _, _, _], _, by simp only [logEqData, logEqQuery, List.append_assoc]; rfl⟩

theorem dec_ne_ring {B : Backend F E} {ctx : List Entry} {k' x y : Bytes} {j : ℕ} {e : (E × E) × (E × E)}
    {base : List Entry} : ringQuery base j x y ≠ logEqData B ctx k' e := by
  intro h
  obtain ⟨l, z, hl⟩ := logEqData_end B ctx k' e
  rw [hl, show ringQuery base j x y = (base ++ [.msg "j" (leBytes 8 j), .msg "R_G" x]) ++ [.msg "R_K" y, .chal "c"] by
    simp [ringQuery]] at h
  have := (List.append_inj' h (by simp)).2
  simp at this

theorem dec_ne_common {B : Backend F E} {ctx ctx' : List Entry} {k k' : Bytes} {e : (E × E) × (E × E)}
    {terms : List (E × E)} (hne : terms ≠ []) : commonPoint B ctx k terms ≠ logEqData B ctx' k' e := by
  intro h
  obtain ⟨ts, t, rfl⟩ := List.eq_nil_or_concat terms |>.resolve_left hne
  obtain ⟨l, z, hl⟩ := logEqData_end B ctx' k' e
  rw [hl, List.concat_eq_append, show commonPoint B ctx k (ts ++ [t]) = (ctx ++ [.msg "dom-sep" (asciiBytes "multi_ring_enc"),
      .msg "K" k] ++ (ts.map fun e => (encOf B e.1, encOf B e.2)).flatMap (fun p => [.msg "R_G" p.1, .msg "R_K" p.2]) ++
      [.msg "R_G" (encOf B t.1)]) ++ [.msg "R_K" (encOf B t.2), .chal "c"] by
    simp [commonPoint, commonQuery]] at h
  have := (List.append_inj' h (by simp)).2
  simp at this

/-- Validity of ballots depends only on hash values of data hashed in ballots. -/
theorem choice_valid_congr (B : Backend F E) (hT : B.TotalSer) {kind : ChoiceKind} {o : ℕ} (ho : o ≠ 0)
    (K : PublicKey E) (cts : Fin o → Ciphertext E) (proofs : ChoiceProofs F o kind) (H H' : List Entry → F)
    (X : List Entry → Prop) (h : ∀ q, ¬ X q → H' q = H q) (h1 : ∀ base j x y, ¬ X (ringQuery base j x y))
    (h2 : ∀ ctx k terms, terms ≠ [] → ¬ X (commonPoint B ctx k terms))
    (h3 : ∀ k e, ¬ X (logEqData B (Transcript.new "choice_encryption_sum").log k e)) :
    Has H' (choicePoints (B.withHash H') K (makeChoice cts proofs)) ↔
      Has H (choicePoints (B.withHash H) K (makeChoice cts proofs)) := by
  obtain ⟨terms, e1, l, e2, e3, e4, -⟩ := choicePoints_spec B hT ho H K cts proofs
  rw [e4 H' fun enc i j x y => h _ (h1 _ _ _ _), e4 H fun _ _ _ _ _ => rfl]
  have : ∀ qa ∈ (commonPoint B (Transcript.new "encrypted_choice_ranges").log K.bytes terms, proofs.1.1) :: l,
      H' qa.1 = H qa.1 := by
    intro qa hqa
    refine h _ ?_
    rcases List.mem_cons.mp hqa with rfl | hqa
    · exact h2 _ _ _ (by rintro rfl; exact ho e1.symm)
    · obtain ⟨e', he'⟩ := e3 qa hqa
      rw [he']
      exact h3 _ _
  exact ⟨fun hh qa hqa => (this qa hqa) ▸ hh qa hqa, fun hh qa hqa => (this qa hqa).symm ▸ hh qa hqa⟩

/-- All data hashed last by verifiers of decryptions in the contexts `t`. -/
theorem decData_finite [Finite E] (B : Backend F E) {o : ℕ} (t : Fin o → Transcript) : Set.Finite
    (Set.range fun p : (Fin o × E) × ((E × E) × (E × E)) => logEqData B (decLog (t p.1.1)) (encOf B p.1.2) p.2) :=
  Set.finite_range _

theorem forall₂_ofFn {α β : Type} {R : α → β → Prop} : ∀ {n : ℕ} {f : Fin n → α} {g : Fin n → β},
    (∀ i, R (f i) (g i)) → List.Forall₂ R (List.ofFn f) (List.ofFn g)
  | 0, _, _, _ => by simp
  | n + 1, f, g, h => by
    rw [List.ofFn_succ, List.ofFn_succ]
    exact .cons (h 0) (forall₂_ofFn fun i => h i.succ)

section
variable [Fintype F]

theorem card_logEqProofs : Fintype.card (LogEqualityProof F) = Fintype.card F ^ 2 := by
  rw [Fintype.card_congr (⟨fun p => (p.challenge, p.response), fun p => ⟨p.1, p.2⟩, fun _ => rfl, fun _ => rfl⟩ :
    LogEqualityProof F ≃ F × F), Fintype.card_prod, sq]

/-- Decryptions of given ciphertexts can be simulated. -/
theorem decryptions_simulation (B : Backend F E) (hT : B.TotalSer) [Finite E] {o : ℕ}
    (K : PublicKey E) (k : F) (hk : K.element = k • B.gen) (t : Fin o → Transcript) (ht : Function.Injective t)
    (D : Finset (List Entry)) (hD : (decData_finite B t).toFinset ⊆ D) (H₀ : List Entry → F) (cts : Fin o → Ciphertext E)
    (f : (List Entry → F) → (Fin o → Option (VerifiableDecryption E × LogEqualityProof F)) → ℚ) :
    (meanHash D H₀ fun H => mean fun xs : Fin o → F => f H fun j =>
      (VerifiableDecryption.new (B.withHash H).withTape (cts j) ⟨k, K⟩ (t j) [xs j]).map Prod.fst) =
    mean fun proofs : Fin o → LogEqualityProof F => meanHash D H₀ fun H =>
      f (program H (List.ofFn fun j => decryptionPoint (B.withHash H) K (cts j) (t j)
          (⟨k • (cts j).random⟩, proofs j)).flatten) fun j => some (⟨k • (cts j).random⟩, proofs j) := by
  choose e he _ using fun (p : Fin o → LogEqualityProof F) j =>
    decryptionPoint_spec B hT K (cts j) (t j) (⟨k • (cts j).random⟩, p j)
  have hpts : ∀ (H : List Entry → F) (p : Fin o → LogEqualityProof F),
      (List.ofFn fun j => decryptionPoint (B.withHash H) K (cts j) (t j) (⟨k • (cts j).random⟩, p j)).flatten =
      List.ofFn fun j => (logEqData B (decLog (t j)) (encOf B (cts j).random) (e p j), (p j).challenge) := by
    intro H p
    simp only [he]
    generalize hg : (fun j : Fin o => (logEqData B (decLog (t j)) (encOf B (cts j).random) (e p j), (p j).challenge)) = g
    have hg' : ∀ j, (logEqData B (decLog (t j)) (encOf B (cts j).random) (e p j), (p j).challenge) = g j :=
      fun j => congrFun hg j
    simp only [hg']
    rw [show (List.ofFn fun j => [g j]) = (List.ofFn g).map fun x => [x] by rw [List.map_ofFn]; rfl]
    generalize List.ofFn g = l
    induction l with
    | nil => rfl
    | cons x l ih => simp [ih]
  have hdec : ∀ H (p : Fin o → LogEqualityProof F) (h : Has H (List.ofFn fun j => decryptionPoint (B.withHash H) K
      (cts j) (t j) (⟨k • (cts j).random⟩, p j)).flatten) j,
      Has H (decryptionPoint (B.withHash H) K (cts j) (t j) (⟨k • (cts j).random⟩, p j)) := by
    intro H p h j qa hqa
    exact h qa (List.mem_flatten.mpr ⟨_, (List.mem_ofFn' _ _).mpr ⟨j, rfl⟩, hqa⟩)
  refine rom_simulation (pts := fun H (p : Fin o → LogEqualityProof F) => (List.ofFn fun j =>
    decryptionPoint (B.withHash H) K (cts j) (t j) (⟨k • (cts j).random⟩, p j)).flatten) (k := o)
    ⟨?_, ?_, ?_⟩ ?_ H₀ (fun H (xs : Fin o → F) j =>
      (VerifiableDecryption.new (B.withHash H).withTape (cts j) ⟨k, K⟩ (t j) [xs j]).map Prod.fst)
    (fun p j => some (⟨k • (cts j).random⟩, p j)) ?_ ?_ ?_ ?_ f
  · intro H H' p _
    rw [hpts, hpts]
  · intro H p
    rw [hpts, List.length_ofFn]
  · intro H p qa hqa
    rw [hpts, List.mem_ofFn'] at hqa
    obtain ⟨j, rfl⟩ := hqa
    refine hD ?_
    rw [Set.Finite.mem_toFinset]
    exact ⟨((j, (cts j).random), e p j), rfl⟩
  · intro H p
    rw [hpts, List.map_ofFn, List.nodup_ofFn]
    intro i j hij
    exact ht (decLog_injective hij)
  · intro p p' h
    funext j
    exact (Prod.mk.inj (Option.some.inj (congrFun h j))).2
  · intro H p hp
    choose x hx hu using fun j => (decryption_outputs B hT K k hk (cts j) (t j)).1 H (p j) (hdec H p hp j)
    exact ⟨x, funext hx, fun y hy => funext fun j => hu j _ (congrFun hy j)⟩
  · intro H xs
    choose p hp hx using fun j => (decryption_outputs B hT K k hk (cts j) (t j)).2 H (xs j)
    refine ⟨p, ?_, funext hx⟩
    intro qa hqa
    obtain ⟨l, hl, hqa⟩ := List.mem_flatten.mp hqa
    obtain ⟨j, rfl⟩ := (List.mem_ofFn' _ _).mp hl
    exact hp j qa hqa
  · rw [Fintype.card_fun, Fintype.card_fun, card_logEqProofs, Fintype.card_fin]
    ring

/-- Ballots of `n` voters. -/
def honestBallots (B : Backend F E) (H : List Entry → F) {n o : ℕ} (kind : ChoiceKind) (K : PublicKey E)
    (votes : Fin n → Fin o → Bool) (tapes : Fin n → Fin (choiceDraws o kind) → F) (v : Fin n) :
    Option (EncryptedChoice F E kind) :=
  (EncryptedChoice.new (B.withHash H).withTape ⟨o, K⟩ (List.ofFn (votes v)) (List.ofFn (tapes v))).map Prod.fst

/-- The ballots with given randomness and proofs. -/
def madeBallots (B : Backend F E) {n o : ℕ} {kind : ChoiceKind} (K : PublicKey E) (votes : Fin n → Fin o → Bool)
    (ss : Fin n → (Fin o → F) × ChoiceProofs F o kind) (v : Fin n) : Option (EncryptedChoice F E kind) :=
  some (makeChoice (choiceCts B K (votes v) (ss v).1) (ss v).2)

/-- All of them are accepted. -/
def ValidBallots (B : Backend F E) {n o : ℕ} {kind : ChoiceKind} (K : PublicKey E) (votes : Fin n → Fin o → Bool)
    (H : List Entry → F) (ss : Fin n → (Fin o → F) × ChoiceProofs F o kind) : Prop :=
  ∀ v, Has H (choicePoints (B.withHash H) K (makeChoice (choiceCts B K (votes v) (ss v).1) (ss v).2))

open Classical in
/-- Means over ballots of honest voters are sums over accepted ballots. -/
theorem mean_honestBallots (B : Backend F E) (hB : B.Lawful) (hT : B.TotalSer) {kind : ChoiceKind} {n o : ℕ}
    (ho : o ≠ 0) (K : PublicKey E) (k : F) (hk : K.element = k • B.gen) (D : Finset (List Entry)) (H₀ : List Entry → F)
    (votes : Fin n → Fin o → Bool) (hone : ∀ v, kind = .single → (List.ofFn (votes v)).count true = 1)
    (g : (List Entry → F) → (Fin n → Option (EncryptedChoice F E kind)) → ℚ) :
    (meanHash D H₀ fun H => mean fun tapes : Fin n → Fin (choiceDraws o kind) → F =>
      g H (honestBallots B H kind K votes tapes)) =
    (∑ ss, meanHash D H₀ fun H => if ValidBallots B K votes H ss then g H (madeBallots B K votes ss) else 0) /
      Fintype.card (Fin n → Fin (choiceDraws o kind) → F) := by
  have hout := fun v => choice_outputs B hB hT (kind := kind) ho K k hk (votes v) (hone v)
  have h1 : ∀ H, (∑ tapes : Fin n → Fin (choiceDraws o kind) → F,
      g H (honestBallots B H kind K votes tapes)) =
      ∑ ss, if ValidBallots B K votes H ss then g H (madeBallots B K votes ss) else 0 := fun H =>
    (sum_outputs_pi (fun v => (hout v).1) (fun v => (hout v).2.1 H) (fun v => (hout v).2.2 H) (g H)).trans
      (Finset.sum_congr rfl fun _ _ => by congr)
  simp only [meanHash, mean, h1, ← Finset.sum_div]
  rw [Finset.sum_comm, div_div, div_div]
  congr 1
  exact mul_comm _ _

/-- The Diffie–Hellman elements of totals. -/
theorem totals_dh (B : Backend F E) (hB : B.Lawful) {kind : ChoiceKind} {n o : ℕ} (K : PublicKey E) (k : F)
    (hk : K.element = k • B.gen) (votes : Fin n → Fin o → Bool) (ss : Fin n → (Fin o → F) × ChoiceProofs F o kind)
    (j : Fin o) : k • (optionTotal (madeBallots B K votes ss) j).random =
      (optionTotal (madeBallots B K votes ss) j).blinded - (voteCounts votes j : F) • B.gen := by
  have := tally_decrypts B hB k o (List.ofFn fun v => ((madeBallots B K votes ss v).map (·.choices)).getD [])
    (List.ofFn fun v => (List.ofFn fun j => if votes v j then 1 else 0)) ?_ j (optionTotal (madeBallots B K votes ss) j) ?_
  · rw [SecretKey.decryptToElement] at this
    rw [eq_sub_iff_add_eq, add_comm, ← eq_sub_iff_add_eq, this]
    congr 2
    rw [voteCounts, List.map_ofFn]
    simp only [Function.comp_def, List.getElem?_ofFn, Fin.is_lt, dif_pos, Option.getD_some]
    rw [← sum_ite_eq_count, List.map_ofFn]
    rfl
  · refine forall₂_ofFn fun v => ⟨by simp [madeBallots, makeChoice], ?_⟩
    simp only [madeBallots, Option.map_some, Option.getD_some, makeChoice, List.map_ofFn]
    congr 1
    funext i
    simp only [Function.comp_def, choiceCts, SecretKey.decryptToElement, hk]
    split
    · simp only [Nat.cast_one]; module
    · simp only [Nat.cast_zero]; module
  · have hj : j.1 < (tally o (List.ofFn fun v => ((madeBallots B K votes ss v).map (·.choices)).getD [])).length := by
      simp [tally]
    rw [optionTotal, List.getElem?_eq_getElem hj, Option.getD_some]

open Classical in
/-- Ballots and decryptions of their totals compared with ballots and simulated decryptions. -/
theorem tally_simulation (B : Backend F E) (hB : B.Lawful) (hT : B.TotalSer) [Finite E] {kind : ChoiceKind} {n o : ℕ}
    (ho : o ≠ 0) (K : PublicKey E) (k : F) (hk : K.element = k • B.gen)
    (t : Fin o → Transcript) (ht : Function.Injective t)
    (D : Finset (List Entry)) (hD : (decData_finite B t).toFinset ⊆ D) (H₀ : List Entry → F)
    (votes : Fin n → Fin o → Bool) (hone : ∀ v, kind = .single → (List.ofFn (votes v)).count true = 1)
    (guess : (List Entry → F) → PublicKey E → (Fin n → Option (EncryptedChoice F E kind)) →
      (Fin o → Option (VerifiableDecryption E × LogEqualityProof F)) → ℚ) :
    (meanHash D H₀ fun H => mean fun tapes : Fin n → Fin (choiceDraws o kind) → F =>
      mean fun xs : Fin o → F => guess H K (honestBallots B H kind K votes tapes) fun j =>
        (VerifiableDecryption.new (B.withHash H).withTape (optionTotal (honestBallots B H kind K votes tapes) j) ⟨k, K⟩
          (t j) [xs j]).map Prod.fst) =
    meanHash D H₀ fun H => mean fun tapes : Fin n → Fin (choiceDraws o kind) → F =>
      withCounts B t optionTotal (fun _ => voteCounts votes) guess H K (honestBallots B H kind K votes tapes) := by
  rw [mean_honestBallots B hB hT ho K k hk D H₀ votes hone fun H b => mean fun xs : Fin o → F => guess H K b fun j =>
      (VerifiableDecryption.new (B.withHash H).withTape (optionTotal b j) ⟨k, K⟩ (t j) [xs j]).map Prod.fst,
    mean_honestBallots B hB hT ho K k hk D H₀ votes hone fun H b => withCounts B t optionTotal (fun _ => voteCounts votes) guess H K b]
  congr 1
  refine Finset.sum_congr rfl fun ss _ => ?_
  let made := madeBallots B K votes (kind := kind)
  let valid := ValidBallots B K votes (kind := kind)
  change (meanHash D H₀ fun H => if valid H ss then mean fun xs : Fin o → F => guess H K (made ss) fun j =>
      (VerifiableDecryption.new (B.withHash H).withTape (optionTotal (made ss) j) ⟨k, K⟩ (t j) [xs j]).map Prod.fst else 0) =
    meanHash D H₀ fun H => if valid H ss then withCounts B t optionTotal (fun _ => voteCounts votes) guess H K (made ss) else 0
  have hdh : ∀ j, k • (optionTotal (made ss) j).random =
      (optionTotal (made ss) j).blinded - (voteCounts votes j : F) • B.gen := totals_dh B hB K k hk votes ss
  have h2 := decryptions_simulation B hT K k hk t ht D hD H₀ (fun j => optionTotal (made ss) j)
    (fun H d => if valid H ss then guess H K (made ss) d else 0)
  have h3 : (meanHash D H₀ fun H => if valid H ss then mean fun xs : Fin o → F => guess H K (made ss) fun j =>
      (VerifiableDecryption.new (B.withHash H).withTape (optionTotal (made ss) j) ⟨k, K⟩ (t j) [xs j]).map Prod.fst else 0) =
      meanHash D H₀ fun H => mean fun xs : Fin o → F => if valid H ss then guess H K (made ss) fun j =>
      (VerifiableDecryption.new (B.withHash H).withTape (optionTotal (made ss) j) ⟨k, K⟩ (t j) [xs j]).map Prod.fst else 0 := by
    congr 1
    funext H
    by_cases hv : valid H ss
    · simp only [hv, if_true]
    · simp only [hv, if_false, mean_const]
  rw [h3, h2, ← meanHash_mean]
  congr 1
  funext H
  have hvalid : ∀ p : Fin o → LogEqualityProof F, valid (program H (List.ofFn fun j => decryptionPoint (B.withHash H) K
      (optionTotal (made ss) j) (t j) (⟨k • (optionTotal (made ss) j).random⟩, p j)).flatten) ss ↔ valid H ss := by
    intro p
    refine forall_congr' fun v => choice_valid_congr B hT ho K _ _ _ _ (fun q => ∃ t k e, q = logEqData B (decLog t) k e)
      (fun q hq => program_of_notMem fun hm => ?_) ?_ ?_ ?_
    rotate_left
    · rintro base j x y ⟨t, k', e, h⟩; exact dec_ne_ring h
    · rintro ctx k' terms hne ⟨t, k', e, h⟩; exact dec_ne_common hne h
    · rintro k' e ⟨t, k', e, h⟩; exact dec_ne_sum h
    obtain ⟨qa, hqa, rfl⟩ := List.mem_map.mp hm
    obtain ⟨l, hl, hqa⟩ := List.mem_flatten.mp hqa
    obtain ⟨j, rfl⟩ := (List.mem_ofFn' _ _).mp hl
    obtain ⟨e, he, -⟩ := decryptionPoint_spec B hT K (optionTotal (made ss) j) (t j)
      (⟨k • (optionTotal (made ss) j).random⟩, p j)
    simp only [he, List.mem_singleton] at hqa
    exact hq ⟨_, _, _, congrArg Prod.fst hqa⟩
  by_cases hv : valid H ss
  · simp only [hvalid, hv, if_true, withCounts, decryptionsOf, ← hdh]
  · simp only [hvalid, hv, if_false]
    simp [mean]

end

end ElasticElgamal
