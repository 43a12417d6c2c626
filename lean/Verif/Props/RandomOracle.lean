import Verif.Lemmas.OracleProofs
import Verif.Toy

/-!
# C55-C61: soundness against attackers with access to a random hash function

All statements are about an arbitrary algorithm `adv` that evaluates the hash function at most `q` times and then
outputs a statement with a proof (or ballots, decryption shares). No computational assumption is made.
`Fintype.card F` is the group order.
-/

set_option autoImplicit false
set_option linter.unusedSectionVars false

namespace ElasticElgamal

open Spec Toy

variable {F E : Type} [Field F] [AddCommGroup E] [Module F E] [DecidableEq F] [DecidableEq E] [Fintype F]

/-! ## Meaning of `ProbLe` -/

/-- The certain event has probability 1 and no less. -/
theorem C55_prob_true {Q A : Type} [Fintype A] [Nonempty A] (ε : ℚ) :
    ProbLe (fun _ : Q → A => True) ε ↔ 1 ≤ ε := by
  have e : ∀ S : Finset (Q → A),
      @Finset.filter _ (fun _ => True) (fun _ => Classical.propDecidable _) S = S := fun S => by ext; simp
  constructor
  · rintro ⟨D, h⟩
    have h := h D (fun _ h => h) fun _ => Classical.arbitrary A
    rw [e] at h
    have hc : (0 : ℚ) < ((hashFamily D fun _ => Classical.arbitrary A : Finset (Q → A)).card : ℚ) := by
      rw [card_hashFamily]
      exact_mod_cast pow_pos Fintype.card_pos _
    by_contra hlt
    push Not at hlt
    nlinarith
  · intro h
    refine ⟨∅, fun D _ H₀ => ?_⟩
    rw [e]
    have : (0 : ℚ) ≤ ((hashFamily D H₀).card : ℚ) := by positivity
    nlinarith

example : ¬ ProbLe (fun _ : List Entry → ZMod 101 => True) (1 / 2) := by
  rw [C55_prob_true]; norm_num

/-- The event that given data have a given hash value has probability `1 / |A|` and no less. -/
theorem C55_prob_value {Q A : Type} [Fintype A] [Nonempty A] (q : Q) (a : A) (ε : ℚ) :
    ProbLe (fun H : Q → A => H q = a) ε ↔ 1 / Fintype.card A ≤ ε := by
  classical
  have hpos : (0 : ℚ) < Fintype.card A := by exact_mod_cast Fintype.card_pos
  have key : ∀ (D : Finset Q) (H₀ : Q → A), q ∈ D →
      ((@Finset.filter _ (fun H => H q = a) (fun _ => Classical.propDecidable _) (hashFamily D H₀)).card : ℚ) *
        Fintype.card A = (hashFamily D H₀).card := by
    intro D H₀ hq
    have h : @Finset.filter _ (fun H => H q = a) (fun _ => Classical.propDecidable _) (hashFamily D H₀) =
        hashFamily (D.erase q) (Function.update H₀ q a) := by
      have := hashFamily_filter_eq (H₀ := H₀) a (fun _ => True) hq
      ext H
      have := congrArg (H ∈ ·) this
      simpa using this
    rw [h, card_hashFamily, card_hashFamily, ← Finset.card_erase_add_one hq, pow_succ]
    push_cast
    rfl
  have hc : ∀ (D : Finset Q) (H₀ : Q → A), (0 : ℚ) < (hashFamily D H₀).card := by
    intro D H₀
    rw [card_hashFamily]
    exact_mod_cast pow_pos Fintype.card_pos _
  constructor
  · rintro ⟨D, h⟩
    have h := h (insert q D) (Finset.subset_insert _ _) fun _ => a
    have k := key (insert q D) (fun _ => a) (Finset.mem_insert_self _ _)
    have c := hc (insert q D) fun _ => a
    rw [div_le_iff₀ hpos]
    by_contra hlt
    push Not at hlt
    nlinarith [mul_le_mul_of_nonneg_right h hpos.le]
  · intro h
    refine ⟨{q}, fun D hD H₀ => ?_⟩
    have k := key D H₀ (hD (by simp))
    rw [div_le_iff₀ hpos] at h
    rw [← mul_le_mul_iff_left₀ hpos, k]
    nlinarith [hc D H₀]

example : ProbLe (fun H : List Entry → ZMod 101 => H [] = 7) (1 / 101) ∧
    ¬ ProbLe (fun H : List Entry → ZMod 101 => H [] = 7) (1 / 102) := by
  rw [C55_prob_value, C55_prob_value, ZMod.card]; norm_num

/-! ## C55: log equality, decryption, zero encryption, decryption shares -/

/-- C55: log equality proofs. The attacker may choose the key, the statement and the context. -/
theorem C55_log_eq_bound (B : Backend F E) (hB : B.Lawful)
    (adv : OracleAlg (List Entry) F (PublicKey E × (E × E) × Transcript × LogEqualityProof F))
    (q : ℕ) (hq : adv.AtMost q) :
    ProbLe (fun H => ∃ K powers t proof t', adv.run H = (K, powers, t, proof) ∧ WellFormedKey B K ∧
        proof.verify (B.withHash H) K powers t = some (.ok (), t') ∧ ¬ SameLog B K.element powers)
      (hashBound (Fintype.card F) q) := by
  refine (probLe_logEqForged hB hq fun o => some (o.2.2.1.log, o.1, o.2.1, o.2.2.2)).mono ?_ (le_refl _)
  rintro H ⟨K, powers, t, proof, t', hrun, hK, hv, hs⟩
  exact ⟨_, _, _, _, by rw [hrun], hK, (LogEqualityProof.verify_forged hv).resolve_left hs⟩

example := C55_log_eq_bound B101 B101_lawful
  (.ask [] fun a => .done (⟨[42], 42⟩, (1, 1), Transcript.new "x", ⟨a, 3⟩)) 1 fun _ => trivial

/-- An attacker that guesses the challenge for a false statement succeeds with probability `1 / |F|`: the event
is not impossible. -/
example (ε : ℚ) (h : ProbLe (fun H => ∃ K powers t proof t',
      (OracleAlg.done (⟨[42], 42⟩, (1, 1), Transcript.new "x", ⟨7, 3⟩) : OracleAlg (List Entry) (ZMod 101)
        (PublicKey (ZMod 101) × (ZMod 101 × ZMod 101) × Transcript × LogEqualityProof (ZMod 101))).run H =
          (K, powers, t, proof) ∧ WellFormedKey B101 K ∧
        proof.verify (B101.withHash H) K powers t = some (.ok (), t') ∧ ¬ SameLog B101 K.element powers) ε) :
    1 / 101 ≤ ε := by
  have := (C55_prob_value (A := ZMod 101)
    (logEqQuery (Transcript.new "x").log [42] [1] [1] (leBytes 1 97) (leBytes 1 18)) 7 ε).mp (h.mono ?_ (le_refl _))
  · rw [ZMod.card] at this; exact_mod_cast this
  intro H hH
  refine ⟨_, _, _, _, ⟨logEqQuery (Transcript.new "x").log [42] [1] [1] (leBytes 1 97) (leBytes 1 18)⟩, rfl, by
    unfold WellFormedKey; decide, ?_, ?_⟩
  · refine LogEqualityProof.verify_eq_some.mpr ⟨_, _, _, _, rfl, rfl, rfl, rfl, ?_, ?_⟩
    · rfl
    · change _ = checkChallenge (H _) 7
      have : H (logEqQuery (Transcript.new "x").log [42] (leBytes 1 1) (leBytes 1 1) (leBytes 1 97) (leBytes 1 18))
        = 7 := hH
      exact (checkChallenge_ok.mpr this).symm
  · rintro ⟨r, h1, h2⟩
    change (1 : ZMod 101) = r * 1 at h1
    change (1 : ZMod 101) = r * 42 at h2
    rw [mul_one] at h1
    rw [← h1] at h2
    exact absurd h2 (by decide)

/-- C55: verifiable decryption. A candidate is accepted for the key `[k]G` (which the attacker may choose) and
decrypts wrongly with probability at most `(q + 1) / |F|`. -/
theorem C55_decryption_bound (B : Backend F E) (hB : B.Lawful)
    (adv : OracleAlg (List Entry) F
      (CandidateDecryption E × Ciphertext E × PublicKey E × Transcript × LogEqualityProof F))
    (q : ℕ) (hq : adv.AtMost q) :
    ProbLe (fun H => ∃ cand c key t proof d t' k, adv.run H = (cand, c, key, t, proof) ∧
        key.element = (k : F) • B.gen ∧ cand.verify (B.withHash H) c key proof t = some (.ok d, t') ∧
        d.decryptToElement c ≠ SecretKey.decryptToElement k c)
      (hashBound (Fintype.card F) q) := by
  refine (probLe_logEqForged hB hq fun o => (B.serElem o.2.1.random).map fun b =>
    ((o.2.2.2.1.startProof "decryption_with_custom_key").log, (⟨b, o.2.1.random⟩ : PublicKey E),
      (o.2.2.1.element, o.1.inner.dhElement), o.2.2.2.2)).mono ?_ (le_refl _)
  rintro H ⟨cand, c, key, t, proof, d, t', k, hrun, hk, hv, hne⟩
  simp only [CandidateDecryption.verify, PublicKey.fromElement, Option.bind_eq_bind, Option.bind_eq_some_iff,
    Option.pure_def, Option.some.injEq, Prod.mk.injEq, Prod.exists] at hv
  obtain ⟨lb, ⟨b, hb, rfl⟩, res, t1, hv, hres, rfl⟩ := hv
  cases res with
  | error e => cases hres
  | ok u =>
    cases hres
    change B.serElem _ = _ at hb
    refine ⟨_, _, _, _, by rw [hrun]; simp only [hb]; rfl, hB.deElem_serElem _ _ hb, ?_⟩
    refine (LogEqualityProof.verify_forged hv).resolve_left ?_
    rintro ⟨r, h1, h2⟩
    dsimp only at h1 h2
    rw [hk] at h1
    have := hB.smul_gen_inj h1
    subst this
    exact hne (by simp [VerifiableDecryption.decryptToElement, SecretKey.decryptToElement, h2])

example := C55_decryption_bound B101 B101_lawful
  (.ask [] fun a => .done (⟨⟨5⟩⟩, ⟨1, 2⟩, ⟨[42], 42⟩, Transcript.new "x", ⟨a, 3⟩)) 1 fun _ => trivial

/-- C55: zero encryption proofs, for any well-formed key (which the attacker may choose). -/
theorem C55_zero_bound (B : Backend F E) (hB : B.Lawful)
    (adv : OracleAlg (List Entry) F (PublicKey E × Ciphertext E × LogEqualityProof F))
    (q : ℕ) (hq : adv.AtMost q) :
    ProbLe (fun H => ∃ K ct proof k, adv.run H = (K, ct, proof) ∧ WellFormedKey B K ∧
        K.element = (k : F) • B.gen ∧ K.verifyZero (B.withHash H) ct proof = some (.ok ()) ∧
        SecretKey.decryptToElement k ct ≠ 0)
      (hashBound (Fintype.card F) q) := by
  refine (probLe_logEqForged hB hq fun o => some ((Transcript.new "zero_encryption").log, o.1,
    (o.2.1.random, o.2.1.blinded), o.2.2)).mono ?_ (le_refl _)
  rintro H ⟨K, ct, proof, k, hrun, hK, hk, hv, hne⟩
  simp only [PublicKey.verifyZero, Option.bind_eq_bind, Option.bind_eq_some_iff, Option.pure_def,
    Option.some.injEq, Prod.exists] at hv
  obtain ⟨res, t', hv, rfl⟩ := hv
  refine ⟨_, _, _, _, by rw [hrun], hK, (LogEqualityProof.verify_forged hv).resolve_left ?_⟩
  rintro ⟨r, h1, h2⟩
  apply hne
  dsimp only at h1 h2
  rw [SecretKey.decryptToElement, h1, h2, hk, smul_comm, sub_self]

example := C55_zero_bound B101 B101_lawful
  (.ask [] fun a => .done (⟨[42], 42⟩, ⟨1, 2⟩, ⟨a, 3⟩)) 1 fun _ => trivial

/-- C55: decryption shares. A share of some participant is accepted although it is not `[x_i]R` for the
participant's secret `x_i` with probability at most `(q + 1) / |F|`. -/
theorem C55_share_bound (B : Backend F E) (hB : B.Lawful) (ks : PublicKeySet E)
    (adv : OracleAlg (List Entry) F (CandidateDecryption E × Ciphertext E × ℕ × LogEqualityProof F))
    (q : ℕ) (hq : adv.AtMost q) :
    ProbLe (fun H => ∃ cand ct i proof pk x d, adv.run H = (cand, ct, i, proof) ∧
        ks.participantKeys[i]? = some pk ∧ pk.element = (x : F) • B.gen ∧
        ks.verifyShare (B.withHash H) cand ct i proof = some (.ok d) ∧ d.dhElement ≠ x • ct.random)
      (hashBound (Fintype.card F) q) := by
  refine (probLe_logEqForged hB hq fun o => (ks.participantKeys[o.2.2.1]?).bind fun pk =>
    (B.serElem o.2.1.random).map fun b => (shareLog ks.params ks.sharedKey.bytes o.2.2.1,
      (⟨b, o.2.1.random⟩ : PublicKey E), (pk.element, o.1.inner.dhElement), o.2.2.2)).mono ?_ (le_refl _)
  rintro H ⟨cand, ct, i, proof, pk, x, d, hrun, hpk, hx, hv, hne⟩
  obtain ⟨rfl, h⟩ := C44_share_sound (B.withHash H) (hB.withHash H) ks i pk hpk x hx cand ct proof d hv
  obtain ⟨⟨b, e⟩, ⟨h1, h2⟩, hf⟩ := h.resolve_left hne
  cases h1
  change B.serElem ct.random = some b at h2
  exact ⟨_, _, _, _, by simp only [hrun, hpk, h2, Option.bind_some, Option.map_some],
    hB.deElem_serElem _ _ h2, hf⟩

example := C55_share_bound B101 B101_lawful ⟨⟨3, 2⟩, ⟨[42], 42⟩, [⟨[1], 1⟩, ⟨[2], 2⟩, ⟨[3], 3⟩]⟩
  (.ask [] fun a => .done (⟨⟨5⟩⟩, ⟨1, 2⟩, 1, ⟨a, 3⟩)) 1 fun _ => trivial

/-! ## C56: sum of squares -/

/-- C56: a sum of squares proof is accepted for ciphertexts that do not encrypt `x₁, …, xₙ` and `x₁² + … + xₙ²`
with probability at most `(q + 1) / |F|`. The attacker may choose the key, all ciphertexts and the context. -/
theorem C56_sum_sq_bound (B : Backend F E) (hB : B.Lawful)
    (adv : OracleAlg (List Entry) F
      (SumOfSquaresProof F × List (Ciphertext E) × Ciphertext E × PublicKey E × Transcript))
    (q : ℕ) (hq : adv.AtMost q) :
    ProbLe (fun H => ∃ proof cts z K t t' k, adv.run H = (proof, cts, z, K, t) ∧ WellFormedKey B K ∧
        K.element = (k : F) • B.gen ∧ proof.verify (B.withHash H) cts z K t = some (.ok (), t') ∧
        ¬ EncryptsSumOfSquares B k cts z)
      (hashBound (Fintype.card F) q) := by
  obtain ⟨bad, hbad⟩ := C20_sum_sq_sound B hB
  refine (probLe_sumSqForged (B := B) hq bad some).mono ?_ (le_refl _)
  rintro H ⟨proof, cts, z, K, t, t', k, hrun, hK, hk, hv, hne⟩
  exact ⟨proof, cts, z, K, t, t', by rw [hrun], hv, (hbad H proof cts z K k t t' hK hk hv).resolve_left hne⟩

example := C56_sum_sq_bound B101 B101_lawful
  (.ask [] fun a => .done (⟨a, [1, 2], 3⟩, [⟨1, 2⟩], ⟨3, 4⟩, ⟨[42], 42⟩, Transcript.new "x")) 1 fun _ => trivial

/-! ## C57: rings -/

/-- C57: ring proofs for a key, context and admissible values fixed in advance (at least 2 values per ring).
A proof is accepted although some ciphertext does not encrypt any of its admissible values with probability at
most `ringsBound`. -/
theorem C57_ring_bound (B : Backend F E) (hB : B.Lawful) (K : PublicKey E) (k : F) (hK : K.element = k • B.gen)
    (t : Transcript) (values : List (List E)) (hn : values.length ≤ 2 ^ 64)
    (hsize : ∀ vs ∈ values, 2 ≤ vs.length ∧ vs.length ≤ 2 ^ 64)
    (adv : OracleAlg (List Entry) F (List (Ciphertext E) × RingProof F)) (q : ℕ) (hq : adv.AtMost q) :
    ProbLe (fun H => ∃ cts proof t', adv.run H = (cts, proof) ∧
        proof.verify (B.withHash H) K values cts t = some (.ok (), t') ∧
        ∃ (i : ℕ) (vs : List E) (ct : Ciphertext E), values[i]? = some vs ∧ cts[i]? = some ct ∧
          SecretKey.decryptToElement k ct ∉ vs)
      (ringsBound (Fintype.card F) q (values.map List.length)) := by
  refine (probLe_ringsForged hB K t.log values hn hsize hq some).mono ?_ (le_refl _)
  rintro H ⟨cts, proof, t', hrun, hv, i, vs, ct, h1, h2, h3⟩
  refine ⟨cts, proof, by rw [hrun], (RingProof.verify_forged (B := B.withHash H) hK hv).resolve_left ?_⟩
  intro hall
  have := (hsize vs (List.mem_of_getElem? h1)).1
  obtain ⟨v, hv, r, h4, h5⟩ := hall i vs ct h1 h2 (by rintro rfl; simp at this)
  apply h3
  have : SecretKey.decryptToElement k ct = v := by
    rw [SecretKey.decryptToElement, h4, h5, smul_comm]; simp
  rwa [this]

example := C57_ring_bound B101 B101_lawful ⟨[42], 42⟩ 42 (by decide) (Transcript.new "x") [[0, 1], [0, 2, 4]]
  (by simp) (by simp) (.ask [] fun a => .done ([⟨1, 2⟩, ⟨3, 4⟩], ⟨a, [1, 2, 3, 4, 5]⟩)) 1 fun _ => trivial

/-- C57: `verify_bool`. -/
theorem C57_bool_bound (B : Backend F E) (hB : B.Lawful) (K : PublicKey E) (k : F) (hK : K.element = k • B.gen)
    (adv : OracleAlg (List Entry) F (Ciphertext E × RingProof F)) (q : ℕ) (hq : adv.AtMost q) :
    ProbLe (fun H => ∃ ct proof, adv.run H = (ct, proof) ∧
        K.verifyBool (B.withHash H) ct proof = some (.ok ()) ∧
        SecretKey.decryptToElement k ct ≠ 0 ∧ SecretKey.decryptToElement k ct ≠ B.gen)
      (ringsBound (Fintype.card F) q [2]) := by
  refine (probLe_ringsForged hB K (Transcript.new "bool_encryption").log [[0, B.gen]] (by simp) (by simp) hq
    fun o => some ([o.1], o.2)).mono ?_ (le_refl _)
  rintro H ⟨ct, proof, hrun, hv, h0, h1⟩
  simp only [PublicKey.verifyBool, Option.bind_eq_bind, Option.bind_eq_some_iff, Option.pure_def,
    Option.some.injEq, Prod.exists] at hv
  obtain ⟨res, t', hv, rfl⟩ := hv
  refine ⟨_, _, by rw [hrun], (RingProof.verify_forged (B := B.withHash H) hK hv).resolve_left ?_⟩
  intro hall
  obtain ⟨v, hv, r, h4, h5⟩ := hall 0 _ ct rfl rfl (by simp)
  have : SecretKey.decryptToElement k ct = v := by
    rw [SecretKey.decryptToElement, h4, h5, smul_comm]; simp
  simp only [List.mem_cons, List.not_mem_nil, or_false] at hv
  rw [this] at h0 h1
  rcases hv with rfl | rfl
  · exact h0 rfl
  · exact h1 rfl

example := C57_bool_bound B101 B101_lawful ⟨[42], 42⟩ 42 (by decide)
  (.ask [] fun a => .done (⟨1, 2⟩, ⟨a, [1, 2]⟩)) 1 fun _ => trivial

/-! ## C58: range proofs -/

/-- C58: `verify_range` for a range `0..n`. A proof is accepted although the ciphertext does not encrypt an
integer from the range with probability at most `ringsBound` for the rings of the decomposition. -/
theorem C58_range_bound (B : Backend F E) (hB : B.Lawful) (K : PublicKey E) (k : F) (hK : K.element = k • B.gen)
    (n : ℕ) (range : PreparedRange E) (hr : PreparedFor B n range)
    (adv : OracleAlg (List Entry) F (Ciphertext E × RangeProof F E)) (q : ℕ) (hq : adv.AtMost q) :
    ProbLe (fun H => ∃ ct proof, adv.run H = (ct, proof) ∧
        K.verifyRange (B.withHash H) range ct proof = some (.ok ()) ∧
        ∀ x < n, SecretKey.decryptToElement k ct ≠ (x : F) • B.gen)
      (ringsBound (Fintype.card F) q (range.inner.rings.map (·.size))) := by
  refine (probLe_rangeForged hB K (Transcript.new "ciphertext_range").log hr hq some).mono ?_ (le_refl _)
  rintro H ⟨ct, proof, hrun, hv, hne⟩
  simp only [PublicKey.verifyRange, Option.bind_eq_bind, Option.bind_eq_some_iff, Option.pure_def,
    Option.some.injEq, Prod.exists] at hv
  obtain ⟨res, t', hv, rfl⟩ := hv
  refine ⟨_, _, by rw [hrun], (RangeProof.verify_forged (B := B.withHash H) hr hK hv).resolve_left ?_⟩
  rintro ⟨x, hx, r, h4, h5⟩
  refine hne x hx ?_
  rw [SecretKey.decryptToElement, h4, h5, smul_comm]
  simp

example := C58_range_bound B101 B101_lawful ⟨[42], 42⟩ 42 (by decide) 17 exampleRange exampleRange_prepared
  (.ask [] fun a => .done (⟨1, 2⟩, ⟨[⟨1, 2⟩], ⟨a, List.replicate 9 1⟩⟩)) 1 fun _ => trivial

/-! ## C59: ballots of polls -/

/-- C59: a single-choice ballot is accepted although it does not encrypt exactly one 1 among zeros with
probability at most `choiceBound`. -/
theorem C59_single_bound (B : Backend F E) (hB : B.Lawful) (p : ℕ) [CharP F p] (params : ChoiceParams E .single)
    (ho : params.optionsCount ≤ 2 ^ 64) (hp : params.optionsCount ≤ p) (k : F)
    (hK : params.receiver.element = k • B.gen) (hwf : WellFormedKey B params.receiver)
    (adv : OracleAlg (List Entry) F (EncryptedChoice F E .single)) (q : ℕ) (hq : adv.AtMost q) :
    ProbLe (fun H => ∃ cts, (adv.run H).verify (B.withHash H) params = some (.ok cts) ∧
        ¬ ∃ bits, EncryptsBits B k cts bits ∧ bits.length = params.optionsCount ∧ bits.count true = 1)
      (choiceBound (Fintype.card F) q params.optionsCount .single) := by
  refine (probLe_choiceForged hB hwf ho hq some).mono ?_ (le_refl _)
  rintro H ⟨cts, hv, hne⟩
  obtain ⟨rfl, hl, h⟩ := C33_choice_sound (B.withHash H) hB.gen_ne_zero p params k hK _ cts hv
  refine ⟨_, rfl, hl, h.resolve_right ?_⟩
  rintro ⟨bits, hb, hone⟩
  exact hne ⟨bits, hb, by rw [← hl]; exact (List.Forall₂.length_eq hb).symm, hone rfl hp⟩

example := C59_single_bound B101 B101_lawful 101 ⟨3, ⟨[42], 42⟩⟩ (by norm_num) (by norm_num) 42 (by decide)
  (by unfold WellFormedKey; decide)
  (.ask [] fun a => .done ⟨[⟨1, 2⟩, ⟨3, 4⟩, ⟨5, 6⟩], ⟨a, List.replicate 6 1⟩, ⟨a, 1⟩⟩) 1 fun _ => trivial

/-- C59: a multi-choice ballot is accepted although one of the ciphertexts encrypts neither 0 nor 1 with
probability at most `choiceBound`. -/
theorem C59_multi_bound (B : Backend F E) (hB : B.Lawful) (p : ℕ) [CharP F p] (params : ChoiceParams E .multi)
    (ho : params.optionsCount ≤ 2 ^ 64) (k : F)
    (hK : params.receiver.element = k • B.gen) (hwf : WellFormedKey B params.receiver)
    (adv : OracleAlg (List Entry) F (EncryptedChoice F E .multi)) (q : ℕ) (hq : adv.AtMost q) :
    ProbLe (fun H => ∃ cts, (adv.run H).verify (B.withHash H) params = some (.ok cts) ∧
        ¬ ∃ bits, EncryptsBits B k cts bits ∧ bits.length = params.optionsCount)
      (choiceBound (Fintype.card F) q params.optionsCount .multi) := by
  refine (probLe_choiceForged hB hwf ho hq some).mono ?_ (le_refl _)
  rintro H ⟨cts, hv, hne⟩
  obtain ⟨rfl, hl, h⟩ := C33_choice_sound (B.withHash H) hB.gen_ne_zero p params k hK _ cts hv
  refine ⟨_, rfl, hl, h.resolve_right ?_⟩
  rintro ⟨bits, hb, -⟩
  exact hne ⟨bits, hb, by rw [← hl]; exact (List.Forall₂.length_eq hb).symm⟩

example := C59_multi_bound B101 B101_lawful 101 ⟨3, ⟨[42], 42⟩⟩ (by norm_num) 42 (by decide)
  (by unfold WellFormedKey; decide)
  (.ask [] fun a => .done ⟨[⟨1, 2⟩, ⟨3, 4⟩, ⟨5, 6⟩], ⟨a, List.replicate 6 1⟩, ()⟩) 1 fun _ => trivial

/-! ## C60: quadratic voting ballots -/

/-- C60: a quadratic voting ballot is accepted although it does not encrypt votes within the limits and their
cost with probability at most `ballotBound`. -/
theorem C60_ballot_bound (B : Backend F E) (hB : B.Lawful) (p : ℕ) [CharP F p]
    (params : QuadraticVotingParams E) (o c m : ℕ) (hp : VotingParamsFor B params o c m)
    (hom : o * (m * m) < p) (hc : c < p) (k : F)
    (hK : params.receiver.element = k • B.gen) (hwf : WellFormedKey B params.receiver)
    (adv : OracleAlg (List Entry) F (QuadraticVotingBallot F E)) (q : ℕ) (hq : adv.AtMost q) :
    ProbLe (fun H => ∃ cts, (adv.run H).verify (B.withHash H) params = some (.ok cts) ∧
        ¬ ∃ xs : List ℕ, xs.length = o ∧ (∀ x ∈ xs, x ≤ m) ∧ cost xs ≤ c ∧
          List.Forall₂ (fun ct (x : ℕ) => Encrypts B k ct ((x : F) • B.gen)) cts xs)
      (ballotBound (Fintype.card F) q params) := by
  obtain ⟨bad, hbad⟩ := C37_ballot_sound B hB p
  refine (probLe_ballotForged hB bad hp hq some).mono ?_ (le_refl _)
  rintro H ⟨cts, hv, hne⟩
  obtain ⟨rfl, hl, h⟩ := hbad H params o c m hp hom hc k hK hwf _ _ hv
  refine ⟨_, rfl, by simpa using hl, h.resolve_left ?_⟩
  rintro ⟨xs, h1, h2, h3, -⟩
  exact hne ⟨xs, by rw [← hl]; exact h3.length_eq.symm, h1, h2, h3⟩

example := C60_ballot_bound B101 B101_lawful 101 exampleVoting 2 16 4 exampleVoting_for.1 (by norm_num) (by norm_num)
  42 (by rw [exampleVoting_for.2]; decide) (by rw [exampleVoting_for.2]; unfold WellFormedKey; decide)
  (.ask [] fun a => .done ⟨[⟨⟨1, 2⟩, ⟨[⟨1, 2⟩], ⟨a, [1]⟩⟩⟩], ⟨⟨1, 2⟩, ⟨[⟨1, 2⟩], ⟨a, [1]⟩⟩⟩, ⟨a, [1, 2], 3⟩⟩) 1
  fun _ => trivial

/-! ## C61: elections -/

/-- C61: single-choice election with threshold decryption. The attacker supplies up to `L` ballots, and for every
option decryption shares with proofs. The probability that all of them are accepted by verifiers, and
yet the published result is not the count of valid votes, one per ballot, is at most the sum of bounds for the
ballots and shares used. -/
theorem C61_single_bound (B : Backend F E) (hB : B.Lawful) (hu : Backend.U64Inj F) (p : ℕ) [CharP F p]
    (ks : PublicKeySet E) (hn : ks.params.shares < p) (cs : List E) (hks : KeySetFor B ks cs)
    (params : ChoiceParams E .single) (hK : params.receiver = ks.sharedKey) (ho : params.optionsCount ≤ 2 ^ 64)
    (hp : params.optionsCount ≤ p) (L : ℕ) (hL : L < 2 ^ 64) (table : DiscreteLogTable)
    (ht : DiscreteLogTable.new B (List.range (L + 1)) = some table)
    (adv : OracleAlg (List Entry) F (List (EncryptedChoice F E .single) ×
      (ℕ → List (ℕ × VerifiableDecryption E)) × (ℕ → ℕ → LogEqualityProof F)))
    (q : ℕ) (hq : adv.AtMost q) :
    ProbLe (fun H => ∃ ballots verified contributions proofs, adv.run H = (ballots, contributions, proofs) ∧
        ballots.length ≤ L ∧
        List.Forall₂ (fun (b : EncryptedChoice F E .single) cts =>
          b.verify (B.withHash H) params = some (.ok cts)) ballots verified ∧
        (∀ j ct, (tally params.optionsCount verified)[j]? = some ct →
          VerifiedShares (B.withHash H) ks ct (contributions j) (proofs j)) ∧
        ¬ ∃ votes : List ℕ, votes.length = ballots.length ∧ (∀ v ∈ votes, v < params.optionsCount) ∧
          ∀ j < params.optionsCount, ∃ ct d, (tally params.optionsCount verified)[j]? = some ct ∧
            ks.params.combineShares F (contributions j) = some (some d) ∧
            d.decrypt B ct table = some (some (votes.count j)))
      (L * choiceBound (Fintype.card F) q params.optionsCount .single +
        params.optionsCount * (ks.params.threshold * hashBound (Fintype.card F) q)) := by
  have hwf : WellFormedKey B params.receiver := by
    rw [hK]
    unfold WellFormedKey
    rw [hB.deElem_serElem _ _ hks.shared.2, hks.shared.1]
  have h1 := probLe_exists (P := fun i H => ∃ ballot, (adv.run H).1[i]? = some ballot ∧
      ballot.choices.length = params.optionsCount ∧ ChoiceForged (B.withHash H) params.receiver ballot) (n := L)
    fun i _ => probLe_choiceForged hB hwf ho hq fun o => o.1[i]?
  let share (j : ℕ) (o : List (EncryptedChoice F E .single) × (ℕ → List (ℕ × VerifiableDecryption E)) ×
      (ℕ → ℕ → LogEqualityProof F)) :
      Option (Ciphertext E × List (ℕ × VerifiableDecryption E) × (ℕ → LogEqualityProof F)) :=
    ((tally params.optionsCount (o.1.map (·.choices)))[j]?).map fun ct => (ct, o.2.1 j, o.2.2 j)
  have h2 := probLe_exists (P := fun j H => ∃ ct contributions proofs,
      share j (adv.run H) = some (ct, contributions, proofs) ∧
      ShareForged (B.withHash H) ks ct contributions proofs) (n := params.optionsCount)
    fun j _ => probLe_shareForged hB ks hq (share j)
  refine (h1.or h2).mono ?_ (le_refl _)
  rintro H ⟨ballots, verified, contributions, proofs, hrun, hl, hv, hs, hne⟩
  obtain ⟨hverified, hall⟩ := forall₂_eq_map (f := (·.choices))
    (P := fun b => b.choices.length = params.optionsCount) (fun b cts h => by
      obtain ⟨rfl, h, -⟩ := C33_choice_sound (B.withHash H) hB.gen_ne_zero p params _
        (hB.dlog_smul_gen _).symm b cts h
      exact ⟨rfl, h⟩) hv
  rcases C54_single_tally (B.withHash H) (hB.withHash H) hu p ks hn cs
    ⟨hks.degree, hks.shared, hks.count, hks.keys⟩ params hK hp ballots verified hv L hL hl table ht contributions
    proofs hs with ⟨b, hb, hf⟩ | ⟨j, ct, hct, hf⟩ | h
  · obtain ⟨i, hi, rfl⟩ := List.getElem_of_mem hb
    exact .inl ⟨i, by omega, _, by rw [hrun]; exact List.getElem?_eq_getElem hi, hall _ hb, hf⟩
  · refine .inr ⟨j, ?_, ct, contributions j, proofs j, ?_, hf⟩
    · obtain ⟨h, -⟩ := List.getElem?_eq_some_iff.mp hct
      simpa [tally] using h
    · simp only [share, hrun, ← hverified, hct, Option.map_some]
  · exact absurd h hne

/-- C61: multi-choice election with threshold decryption. The attacker supplies up to `L` ballots, and for every
option decryption shares with proofs. The probability that all of them are accepted by verifiers, and
yet the published result does not count the ballots in which the option is selected, is at most the sum of bounds for the
ballots and shares used. -/
theorem C61_multi_bound (B : Backend F E) (hB : B.Lawful) (hu : Backend.U64Inj F) (p : ℕ) [CharP F p]
    (ks : PublicKeySet E) (hn : ks.params.shares < p) (cs : List E) (hks : KeySetFor B ks cs)
    (params : ChoiceParams E .multi) (hK : params.receiver = ks.sharedKey) (ho : params.optionsCount ≤ 2 ^ 64)
    (k : F) (hk : ks.sharedKey.element = k • B.gen) (L : ℕ) (hL : L < 2 ^ 64) (table : DiscreteLogTable)
    (ht : DiscreteLogTable.new B (List.range (L + 1)) = some table)
    (adv : OracleAlg (List Entry) F (List (EncryptedChoice F E .multi) ×
      (ℕ → List (ℕ × VerifiableDecryption E)) × (ℕ → ℕ → LogEqualityProof F)))
    (q : ℕ) (hq : adv.AtMost q) :
    ProbLe (fun H => ∃ ballots verified contributions proofs, adv.run H = (ballots, contributions, proofs) ∧
        ballots.length ≤ L ∧
        List.Forall₂ (fun (b : EncryptedChoice F E .multi) cts =>
          b.verify (B.withHash H) params = some (.ok cts)) ballots verified ∧
        (∀ j ct, (tally params.optionsCount verified)[j]? = some ct →
          VerifiedShares (B.withHash H) ks ct (contributions j) (proofs j)) ∧
        ¬ ∃ votes : List (List Bool), List.Forall₂ (fun (b : EncryptedChoice F E .multi) v =>
            EncryptsBits B k b.choices v) ballots votes ∧
          ∀ j < params.optionsCount, ∃ ct d, (tally params.optionsCount verified)[j]? = some ct ∧
            ks.params.combineShares F (contributions j) = some (some d) ∧
            d.decrypt B ct table = some (some (votes.countP fun v => v[j]? = some true)))
      (L * choiceBound (Fintype.card F) q params.optionsCount .multi +
        params.optionsCount * (ks.params.threshold * hashBound (Fintype.card F) q)) := by
  have hwf : WellFormedKey B params.receiver := by
    rw [hK]
    unfold WellFormedKey
    rw [hB.deElem_serElem _ _ hks.shared.2, hks.shared.1]
  have h1 := probLe_exists (P := fun i H => ∃ ballot, (adv.run H).1[i]? = some ballot ∧
      ballot.choices.length = params.optionsCount ∧ ChoiceForged (B.withHash H) params.receiver ballot) (n := L)
    fun i _ => probLe_choiceForged hB hwf ho hq fun o => o.1[i]?
  let share (j : ℕ) (o : List (EncryptedChoice F E .multi) × (ℕ → List (ℕ × VerifiableDecryption E)) ×
      (ℕ → ℕ → LogEqualityProof F)) :
      Option (Ciphertext E × List (ℕ × VerifiableDecryption E) × (ℕ → LogEqualityProof F)) :=
    ((tally params.optionsCount (o.1.map (·.choices)))[j]?).map fun ct => (ct, o.2.1 j, o.2.2 j)
  have h2 := probLe_exists (P := fun j H => ∃ ct contributions proofs,
      share j (adv.run H) = some (ct, contributions, proofs) ∧
      ShareForged (B.withHash H) ks ct contributions proofs) (n := params.optionsCount)
    fun j _ => probLe_shareForged hB ks hq (share j)
  refine (h1.or h2).mono ?_ (le_refl _)
  rintro H ⟨ballots, verified, contributions, proofs, hrun, hl, hv, hs, hne⟩
  obtain ⟨hverified, hall⟩ := forall₂_eq_map (f := (·.choices))
    (P := fun b => b.choices.length = params.optionsCount) (fun b cts h => by
      obtain ⟨rfl, h, -⟩ := C33_choice_sound (B.withHash H) hB.gen_ne_zero p params _
        (hB.dlog_smul_gen _).symm b cts h
      exact ⟨rfl, h⟩) hv
  rcases C54_multi_tally (B.withHash H) (hB.withHash H) hu p ks hn cs
    ⟨hks.degree, hks.shared, hks.count, hks.keys⟩ params hK ballots verified hv L hL hl table ht contributions
    proofs hs k hk with ⟨b, hb, hf⟩ | ⟨j, ct, hct, hf⟩ | h
  · obtain ⟨i, hi, rfl⟩ := List.getElem_of_mem hb
    exact .inl ⟨i, by omega, _, by rw [hrun]; exact List.getElem?_eq_getElem hi, hall _ hb, hf⟩
  · refine .inr ⟨j, ?_, ct, contributions j, proofs j, ?_, hf⟩
    · obtain ⟨h, -⟩ := List.getElem?_eq_some_iff.mp hct
      simpa [tally] using h
    · simp only [share, hrun, ← hverified, hct, Option.map_some]
  · exact absurd h hne

/-- C61: quadratic voting with threshold decryption. The attacker supplies up to `L` ballots, and for every
option decryption shares with proofs. The probability that all of them are accepted by verifiers, and
yet the published result is not the sum of votes within the limits is at most the sum of bounds for the ballots
and shares used. -/
theorem C61_quadratic_bound (B : Backend F E) (hB : B.Lawful) (hu : Backend.U64Inj F) (p : ℕ) [CharP F p]
    (ks : PublicKeySet E) (hn : ks.params.shares < p) (cs : List E) (hks : KeySetFor B ks cs)
    (params : QuadraticVotingParams E) (o c m : ℕ) (hp : VotingParamsFor B params o c m)
    (hom : o * (m * m) < p) (hc : c < p) (hK : params.receiver = ks.sharedKey)
    (L : ℕ) (hL : L * m < 2 ^ 64) (table : DiscreteLogTable)
    (ht : DiscreteLogTable.new B (List.range (L * m + 1)) = some table)
    (adv : OracleAlg (List Entry) F (List (QuadraticVotingBallot F E) ×
      (ℕ → List (ℕ × VerifiableDecryption E)) × (ℕ → ℕ → LogEqualityProof F)))
    (q : ℕ) (hq : adv.AtMost q) :
    ProbLe (fun H => ∃ ballots verified contributions proofs, adv.run H = (ballots, contributions, proofs) ∧
        ballots.length ≤ L ∧
        List.Forall₂ (fun (b : QuadraticVotingBallot F E) cts =>
          b.verify (B.withHash H) params = some (.ok cts)) ballots verified ∧
        (∀ j ct, (tally o verified)[j]? = some ct →
          VerifiedShares (B.withHash H) ks ct (contributions j) (proofs j)) ∧
        ¬ ∃ votes : List (List ℕ), votes.length = ballots.length ∧
          (∀ xs ∈ votes, xs.length = o ∧ (∀ x ∈ xs, x ≤ m) ∧ cost xs ≤ c) ∧
          ∀ j < o, ∃ ct d, (tally o verified)[j]? = some ct ∧
            ks.params.combineShares F (contributions j) = some (some d) ∧
            d.decrypt B ct table = some (some (votes.map fun xs => (xs[j]?).getD 0).sum))
      (L * ballotBound (Fintype.card F) q params +
        o * (ks.params.threshold * hashBound (Fintype.card F) q)) := by
  have hwf : WellFormedKey B params.receiver := by
    rw [hK]
    unfold WellFormedKey
    rw [hB.deElem_serElem _ _ hks.shared.2, hks.shared.1]
  obtain ⟨bad, hbad⟩ := C54_quadratic_tally B hB hu p
  obtain ⟨bad', hbad'⟩ := C37_ballot_sound B hB p
  have h1 := probLe_exists (P := fun i H => ∃ ballot, (adv.run H).1[i]? = some ballot ∧
      ballot.votes.length = o ∧ BallotForged (B.withHash H) bad params ballot) (n := L)
    fun i _ => probLe_ballotForged hB bad hp hq fun o => o.1[i]?
  let share (j : ℕ) (a : List (QuadraticVotingBallot F E) × (ℕ → List (ℕ × VerifiableDecryption E)) ×
      (ℕ → ℕ → LogEqualityProof F)) :
      Option (Ciphertext E × List (ℕ × VerifiableDecryption E) × (ℕ → LogEqualityProof F)) :=
    ((tally o (a.1.map fun b => b.votes.map (·.ciphertext)))[j]?).map fun ct => (ct, a.2.1 j, a.2.2 j)
  have h2 := probLe_exists (P := fun j H => ∃ ct contributions proofs,
      share j (adv.run H) = some (ct, contributions, proofs) ∧
      ShareForged (B.withHash H) ks ct contributions proofs) (n := o)
    fun j _ => probLe_shareForged hB ks hq (share j)
  refine (h1.or h2).mono ?_ (le_refl _)
  rintro H ⟨ballots, verified, contributions, proofs, hrun, hl, hv, hs, hne⟩
  obtain ⟨hverified, hall⟩ := forall₂_eq_map (f := fun b => b.votes.map (·.ciphertext))
    (P := fun b => b.votes.length = o) (fun b cts h => by
      obtain ⟨rfl, h, -⟩ := hbad' H params o c m hp hom hc _ (hB.dlog_smul_gen _).symm hwf b cts h
      exact ⟨rfl, by simpa using h⟩) hv
  rcases hbad H ks hn cs hks params o c m hp hom hc hK ballots verified hv (L * m) hL
    (Nat.mul_le_mul_right _ hl) table ht contributions proofs hs with ⟨b, hb, hf⟩ | ⟨j, ct, hct, hf⟩ | h
  · obtain ⟨i, hi, rfl⟩ := List.getElem_of_mem hb
    exact .inl ⟨i, by omega, _, by rw [hrun]; exact List.getElem?_eq_getElem hi, hall _ hb, hf⟩
  · refine .inr ⟨j, ?_, ct, contributions j, proofs j, ?_, hf⟩
    · obtain ⟨h, -⟩ := List.getElem?_eq_some_iff.mp hct
      simpa [tally] using h
    · simp only [share, hrun, ← hverified, hct, Option.map_some]
  · exact absurd h hne

/-- The hypotheses of C61 are met by a key set of a dealer for 2 of 3 participants, and a lookup table for up
to 40. -/
theorem exampleElection : ∃ (ks : PublicKeySet (ZMod bigPrime)) (cs : List (ZMod bigPrime))
    (table : DiscreteLogTable), KeySetFor BBig ks cs ∧ ks.params = ⟨3, 2⟩ ∧ ks.params.shares < bigPrime ∧
      DiscreteLogTable.new BBig (List.range (40 + 1)) = some table := by
  obtain ⟨⟨dealer, rng'⟩, h1⟩ := C42_dealer_total BBig BBig_total ⟨3, 2⟩ (0 : ℕ)
  obtain ⟨r, hr⟩ := C50_key_set_new_total BBig BBig_total ⟨3, 2⟩ (by simp [ValidParams]) dealer.publicInfo.1
    dealer.publicInfo.2
  obtain ⟨ks, rfl, hpar, hks⟩ := C42_dealer_accepted BBig ⟨3, 2⟩ _ _ dealer h1 r hr
  obtain ⟨table, htable⟩ := C02_new_total BBig BBig_lawful bigPrime_u64 (List.range 41) (by
    intro v hv; rw [List.mem_range] at hv; omega)
  exact ⟨ks, _, table, hks, hpar, by rw [hpar]; norm_num [bigPrime, mersenne], htable⟩

section
variable (ks : PublicKeySet (ZMod bigPrime)) (cs : List (ZMod bigPrime)) (table : DiscreteLogTable)
  (hks : KeySetFor BBig ks cs) (hn : ks.params.shares < bigPrime)
  (ht : DiscreteLogTable.new BBig (List.range (40 + 1)) = some table)

example := C61_single_bound BBig BBig_lawful bigPrime_u64 bigPrime ks hn cs hks ⟨3, ks.sharedKey⟩ rfl (by norm_num)
  (by norm_num [bigPrime, mersenne]) 40 (by norm_num) table ht
  (.ask [] fun a => .done ([⟨[⟨1, 2⟩, ⟨3, 4⟩, ⟨5, 6⟩], ⟨a, List.replicate 6 1⟩, ⟨a, 1⟩⟩],
    fun _ => [(0, ⟨5⟩), (2, ⟨6⟩)], fun _ _ => ⟨a, 1⟩)) 1 fun _ => trivial

example (k : ZMod bigPrime) (hk : ks.sharedKey.element = k • BBig.gen) :=
  C61_multi_bound BBig BBig_lawful bigPrime_u64 bigPrime ks hn cs hks ⟨3, ks.sharedKey⟩ rfl (by norm_num)
    k hk 40 (by norm_num) table ht
    (.ask [] fun a => .done ([⟨[⟨1, 2⟩, ⟨3, 4⟩, ⟨5, 6⟩], ⟨a, List.replicate 6 1⟩, ()⟩],
      fun _ => [(0, ⟨5⟩), (2, ⟨6⟩)], fun _ _ => ⟨a, 1⟩)) 1 fun _ => trivial

theorem exampleElectionVoting : ∃ params : QuadraticVotingParams (ZMod bigPrime),
    VotingParamsFor BBig params 2 16 4 ∧ params.receiver = ks.sharedKey := by
  obtain ⟨params, m, h1, h2, h3, h4, h5, -⟩ := C35_params_new BBig _ C27_estimate_exact ks.sharedKey 2 16
    (by norm_num) (by norm_num) (by norm_num)
  have hm : m = 4 := by
    have : m < 5 := by by_contra h; have := Nat.mul_le_mul (not_lt.mp h) (not_lt.mp h); omega
    interval_cases m <;> omega
  subst hm
  exact ⟨params, h5, h2⟩

example (params : QuadraticVotingParams (ZMod bigPrime)) (hp : VotingParamsFor BBig params 2 16 4)
    (hK : params.receiver = ks.sharedKey) :=
  C61_quadratic_bound BBig BBig_lawful bigPrime_u64 bigPrime ks hn cs hks params 2 16 4 hp
    (by norm_num [bigPrime, mersenne]) (by norm_num [bigPrime, mersenne]) hK 10 (by norm_num) table ht
    (.ask [] fun a => .done ([⟨[⟨⟨1, 2⟩, ⟨[⟨1, 2⟩], ⟨a, [1]⟩⟩⟩], ⟨⟨1, 2⟩, ⟨[⟨1, 2⟩], ⟨a, [1]⟩⟩⟩, ⟨a, [1, 2], 3⟩⟩],
      fun _ => [(0, ⟨5⟩), (2, ⟨6⟩)], fun _ _ => ⟨0, 1⟩)) 1 fun _ => trivial

end

end ElasticElgamal
