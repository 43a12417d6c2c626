import Verif.Lemmas.SumOfSquares
import Verif.Spec.Keys
import Verif.Props.Keys
import Verif.Toy
import Mathlib.Logic.Function.Basic

/-!
# C19, C20, C16, C13, C50, C51 for sum-of-squares proofs
-/

set_option autoImplicit false
set_option linter.unusedSectionVars false

namespace ElasticElgamal

open Spec Toy SumOfSquaresProof

variable {F E : Type} [Field F] [AddCommGroup E] [Module F E] [DecidableEq F]

theorem sumSq_random_sum (B : Backend F E) (K : E) (c : F)
    (ps : List (CiphertextWithValue F E × F × F)) (h : ∀ p ∈ ps, Opened B K p.1) :
    Backend.multiMul (ps.map fun p => c * p.1.value + p.2.2) (ps.map (·.1.ciphertext.random)) =
      Backend.multiMul (ps.map (·.2.2)) (ps.map (·.1.ciphertext.random)) +
        (c * (ps.map fun p => p.1.randomness * p.1.value).sum) • B.gen := by
  induction ps with
  | nil => simp
  | cons p ps ih =>
    simp only [List.map_cons, Backend.multiMul_cons, List.sum_cons]
    rw [ih fun q hq => h q (List.mem_cons_of_mem _ hq), (h p List.mem_cons_self).1]
    module

theorem sumSq_blinded_sum (B : Backend F E) (K : E) (c : F)
    (ps : List (CiphertextWithValue F E × F × F)) (h : ∀ p ∈ ps, Opened B K p.1) :
    Backend.multiMul (ps.map fun p => c * p.1.value + p.2.2) (ps.map (·.1.ciphertext.blinded)) =
      Backend.multiMul (ps.map (·.2.2)) (ps.map (·.1.ciphertext.blinded)) +
        (c * (ps.map fun p => p.1.value * p.1.value).sum) • B.gen +
        (c * (ps.map fun p => p.1.randomness * p.1.value).sum) • K := by
  induction ps with
  | nil => simp
  | cons p ps ih =>
    simp only [List.map_cons, Backend.multiMul_cons, List.sum_cons]
    rw [ih fun q hq => h q (List.mem_cons_of_mem _ hq), (h p List.mem_cons_self).2]
    module

/-- C19: for any number of ciphertexts with openings and an opened ciphertext of the sum of the squares of
their values, the proof verifies in the same context. -/
theorem C19_sum_sq_complete (B : Backend F E) (cts : List (CiphertextWithValue F E))
    (zc : CiphertextWithValue F E) (K : PublicKey E)
    (hcts : ∀ ct ∈ cts, Opened B K.element ct) (hz : Opened B K.element zc)
    (hsum : zc.value = (cts.map fun ct => ct.value * ct.value).sum)
    (t t' : Transcript) (rng rng' : B.Rng) (proof : SumOfSquaresProof F)
    (h : SumOfSquaresProof.new B cts zc K t rng = some (proof, t', rng')) :
    proof.verify B (cts.map (·.ciphertext)) zc.ciphertext K t = some (.ok (), t') := by
  obtain ⟨ps, items, s, rz, z, u, v, rfl, hi, hrz, hz', hu, hv, rfl, hc, hr, hs⟩ := new_eq_some h
  obtain ⟨c, rs, sr⟩ := proof
  simp only at hc hr hs
  subst hr
  have hps : ∀ p ∈ ps, Opened B K.element p.1 := fun p hp =>
    hcts p.1 (List.mem_map.mpr ⟨p, hp, rfl⟩)
  simp only [List.map_map, Function.comp_def] at hs hsum ⊢
  refine (verify_eq_some (by simp)).mpr ⟨items, rz, z, u, v, ?_, hrz, hz', ?_, ?_, rfl, ?_⟩
  · clear h hcts hrz hz' hu hv hc hs hsum
    induction hi with
    | nil => exact .nil
    | @cons p i ps items hp hi ih =>
      refine .cons ?_ (ih fun q hq => hps q (List.mem_cons_of_mem _ hq))
      obtain ⟨h1, h2, h3, h4⟩ := hp
      have ho := hps p List.mem_cons_self
      refine ⟨h1, h2, ?_, ?_⟩
      · rw [← h3]; congr 1; simp only [ho.1]; module
      · rw [← h4]; congr 1; simp only [ho.2]; module
  · rw [← hu]
    congr 1
    simp only [List.map_map, Function.comp_def]
    rw [sumSq_random_sum B K.element c ps hps, hs, hz.1]
    module
  · rw [← hv]
    congr 1
    simp only [List.map_map, Function.comp_def]
    rw [sumSq_blinded_sum B K.element c ps hps, hs, hz.2, hsum]
    module
  · rw [← hc, checkChallenge_self]

/-- C19: with total encodings the prover never panics. -/
theorem C19_sum_sq_new_total (B : Backend F E) (hT : B.TotalSer)
    (cts : List (CiphertextWithValue F E)) (zc : CiphertextWithValue F E) (K : PublicKey E)
    (t : Transcript) (rng : B.Rng) : ∃ out, SumOfSquaresProof.new B cts zc K t rng = some out := by
  unfold SumOfSquaresProof.new
  obtain ⟨⟨ps, s1, t1, rng1⟩, h⟩ := commitLoop_total hT K cts zc.randomness
    (initializeTranscript t K) (SecretKey.generate B rng).2
  simp only [h, Option.bind_eq_bind, Option.bind_some]
  obtain ⟨t2, h2⟩ := Backend.appendElement_total hT t1 "R_z" zc.ciphertext.random
  simp only [h2, Option.bind_some]
  obtain ⟨t3, h3⟩ := Backend.appendElement_total hT t2 "Z" zc.ciphertext.blinded
  simp only [h3, Option.bind_some]
  generalize Backend.multiMul (ps.map (fun x => x.2.2) ++ [(SecretKey.generate B rng).1])
    (ps.map (fun x => x.1.ciphertext.random) ++ [B.gen]) = u
  obtain ⟨t4, h4⟩ := Backend.appendElement_total hT t3 "[e_x]R_x + [e_z]G" u
  simp only [h4, Option.bind_some]
  generalize Backend.multiMul (ps.map (fun x => x.2.2) ++ [(SecretKey.generate B rng).1])
    (ps.map (fun x => x.1.ciphertext.blinded) ++ [K.element]) = v
  obtain ⟨t5, h5⟩ := Backend.appendElement_total hT t4 "[e_x]X + [e_z]K" v
  simp only [h5, Option.bind_some]
  exact ⟨_, rfl⟩

/-- With a constant hash function, proofs with that challenge are accepted for any ciphertexts. -/
theorem sumSq_accepted_const (ct zc : Ciphertext (ZMod 101)) :
    ∃ t', (⟨7, [3, 4], 5⟩ : SumOfSquaresProof (ZMod 101)).verify (B101.withHash fun _ => 7) [ct] zc ⟨[42], 42⟩
      (Transcript.new "x") = some (.ok (), t') :=
  ⟨_, (verify_eq_some (ps := [(3, 4)]) rfl).mpr ⟨[⟨_, _, _, _⟩], _, _, _, _, .cons ⟨rfl, rfl, rfl, rfl⟩ .nil, rfl, rfl,
    rfl, rfl, rfl, (checkChallenge_self _).symm⟩⟩

example :
    let K : PublicKey (ZMod 101) := ⟨[42], 42⟩
    let cts := [(CiphertextWithValue.new B101 3 K (3 : ℕ)).1, (CiphertextWithValue.new B101 5 K (4 : ℕ)).1]
    let zc := (CiphertextWithValue.new B101 34 K (5 : ℕ)).1
    ∃ proof t' rng', SumOfSquaresProof.new B101 cts zc K (Transcript.new "x") (6 : ℕ)
        = some (proof, t', rng') ∧
      proof.verify B101 (cts.map (·.ciphertext)) zc.ciphertext K (Transcript.new "x")
        = some (.ok (), t') := by
  intro K cts zc
  obtain ⟨⟨proof, t', rng'⟩, h⟩ := C19_sum_sq_new_total B101 B101_total cts zc K
    (Transcript.new "x") (6 : ℕ)
  refine ⟨proof, t', rng', h, C19_sum_sq_complete B101 cts zc K ?_ ⟨rfl, rfl⟩ (by decide) _ _ _ _ _ h⟩
  intro ct hct
  simp only [cts, List.mem_cons, List.not_mem_nil, or_false] at hct
  rcases hct with rfl | rfl <;> exact ⟨rfl, rfl⟩

/-! ## C20: soundness -/

/-- The plaintext recorded in an item. -/
noncomputable def itemValue (B : Backend F E) (k : F) (i : SquareItem) : F :=
  B.dlog ((B.deElem i.x).getD 0) - k * B.dlog ((B.deElem i.r).getD 0)

/-- The nonce recorded in an item. -/
noncomputable def itemNonce (B : Backend F E) (k : F) (i : SquareItem) : F :=
  B.dlog ((B.deElem i.f).getD 0) - k * B.dlog ((B.deElem i.e).getD 0)

theorem items_sum (B : Backend F E) (hB : B.Lawful) (K : E) (c : F) (ps : List (F × F))
    (cts : List (Ciphertext E)) (items : List SquareItem) (hl : ps.length = cts.length)
    (h : List.Forall₂ (VerifierItem B K c) (ps.zip cts) items) :
    B.dlog (Backend.multiMul (ps.map (·.2)) (cts.map (·.blinded))) -
        B.dlog K * B.dlog (Backend.multiMul (ps.map (·.2)) (cts.map (·.random))) =
      c * (items.map fun i => itemValue B (B.dlog K) i * itemValue B (B.dlog K) i).sum +
        (items.map fun i => itemNonce B (B.dlog K) i * itemValue B (B.dlog K) i).sum ∧
    List.Forall₂ (fun ct x => Encrypts B (B.dlog K) ct (x • B.gen)) cts
      (items.map (itemValue B (B.dlog K))) := by
  induction ps generalizing cts items with
  | nil =>
    cases cts with
    | nil =>
      cases h
      simp [hB.dlog_zero]
    | cons ct cts => simp at hl
  | cons p ps ih =>
    cases cts with
    | nil => simp at hl
    | cons ct cts =>
      simp only [List.zip_cons_cons] at h
      cases h with
      | cons h1 h2 =>
        rename_i i items
        obtain ⟨ih1, ih2⟩ := ih cts items (by simpa using hl) h2
        obtain ⟨hr, hx, he, hf⟩ := h1
        have hv : itemValue B (B.dlog K) i = B.dlog ct.blinded - B.dlog K * B.dlog ct.random := by
          simp [itemValue, hB.deElem_serElem _ _ hr, hB.deElem_serElem _ _ hx]
        have hn : itemNonce B (B.dlog K) i = p.2 - c * itemValue B (B.dlog K) i := by
          rw [hv]
          simp only [itemNonce, hB.deElem_serElem _ _ he, hB.deElem_serElem _ _ hf, Option.getD_some,
            hB.dlog_sub, hB.dlog_add, hB.dlog_smul, hB.dlog_gen]
          ring
        constructor
        · simp only [List.map_cons, List.sum_cons, Backend.multiMul_cons, hB.dlog_add, hB.dlog_smul]
          rw [hn]
          rw [hv]
          linear_combination ih1
        · refine .cons ?_ ih2
          rw [C01_encrypts_iff_decrypts B hB, hv, SecretKey.decryptToElement]
          apply hB.dlog_inj
          simp only [hB.dlog_sub, hB.dlog_smul, hB.dlog_gen]
          ring

/-- C20: if a sum-of-squares proof is accepted, the last ciphertext encrypts the sum of the squares of the
values encrypted by the others, or the hash hit the single bad challenge determined by the hashed data. -/
theorem C20_sum_sq_sound (B : Backend F E) (hB : B.Lawful) :
    ∃ bad : List Entry → F, ∀ (H : List Entry → F) (proof : SumOfSquaresProof F)
      (cts : List (Ciphertext E)) (zc : Ciphertext E) (K : PublicKey E) (k : F) (t t' : Transcript),
      WellFormedKey B K → K.element = k • B.gen →
      proof.verify (B.withHash H) cts zc K t = some (.ok (), t') →
      EncryptsSumOfSquares B k cts zc ∨ H t'.log = bad t'.log := by
  let dl (b : Bytes) : F := B.dlog ((B.deElem b).getD 0)
  let query (d : List Entry × Bytes × List SquareItem × Bytes × Bytes × Bytes × Bytes) :=
    sumSqQuery d.1 d.2.1 d.2.2.1 d.2.2.2.1 d.2.2.2.2.1 d.2.2.2.2.2.1 d.2.2.2.2.2.2
  have hq : Function.Injective query := by
    rintro ⟨c, k, i, rz, z, u, v⟩ ⟨c', k', i', rz', z', u', v'⟩ h
    obtain ⟨rfl, rfl, rfl, rfl, rfl, rfl, rfl⟩ := sumSqQuery_inj h
    rfl
  let g (d : List Entry × Bytes × List SquareItem × Bytes × Bytes × Bytes × Bytes) : F :=
    match d with
    | (_, k, items, rz, z, u, v) =>
      (dl v - dl k * dl u - (items.map fun i => itemNonce B (dl k) i * itemValue B (dl k) i).sum) /
        ((items.map fun i => itemValue B (dl k) i * itemValue B (dl k) i).sum -
          (dl z - dl k * dl rz))
  refine ⟨Function.extend query g 0, fun H proof cts zc K k t t' hK hk h => ?_⟩
  have hkl : k = B.dlog K.element := by rw [hk, hB.dlog_gen_smul]
  obtain ⟨ps, hproof, hl⟩ := verify_ok h
  rw [hproof] at h
  obtain ⟨items, rz, z, u, v, hi, hrz, hz, hu, hv, rfl, hc⟩ := (verify_eq_some hl).mp h
  have hc := checkChallenge_ok.mp hc.symm
  change H _ = _ at hc
  change B.serElem _ = _ at hrz hz hu hv
  obtain ⟨hsum, henc⟩ := items_sum B hB K.element _ ps cts items hl hi
  have hb := hq.extend_apply g 0 (t.log, K.bytes, items, rz, z, u, v)
  simp only [query] at hb
  rw [hb, hc]
  simp only [g, dl, hB.deElem_serElem _ _ hrz, hB.deElem_serElem _ _ hz, hB.deElem_serElem _ _ hu,
    hB.deElem_serElem _ _ hv, show B.deElem K.bytes = some K.element from hK, Option.getD_some]
  by_cases hs : (items.map fun i => itemValue B (B.dlog K.element) i *
      itemValue B (B.dlog K.element) i).sum - (B.dlog zc.blinded - B.dlog K.element * B.dlog zc.random)
        = 0
  · left
    rw [hkl]
    refine ⟨_, henc, ?_⟩
    rw [C01_encrypts_iff_decrypts B hB, SecretKey.decryptToElement]
    apply hB.dlog_inj
    simp only [hB.dlog_sub, hB.dlog_smul, hB.dlog_gen, List.map_map, Function.comp_def]
    linear_combination -hs
  · right
    rw [eq_div_iff hs]
    simp only [hB.dlog_sub, hB.dlog_add, hB.dlog_smul, hB.dlog_gen]
    linear_combination -hsum

example : ∃ bad : List Entry → ZMod 101, ∃ t' : Transcript,
    EncryptsSumOfSquares B101 42 [⟨1, 43⟩] ⟨1, 44⟩ ∨ 7 = bad t'.log := by
  obtain ⟨bad, h⟩ := C20_sum_sq_sound B101 B101_lawful
  obtain ⟨t', ht⟩ := sumSq_accepted_const ⟨1, 43⟩ ⟨1, 44⟩
  exact ⟨bad, t', h (fun _ => 7) ⟨7, [3, 4], 5⟩ [⟨1, 43⟩] ⟨1, 44⟩ ⟨[42], 42⟩ 42 (Transcript.new "x") _
    (by unfold WellFormedKey; decide) (by decide) ht⟩

/-- Non-vacuity of C20: with a constant hash a false statement (1² ≠ 2) does get accepted. -/
example : ∃ (H : List Entry → ZMod 101) (proof : SumOfSquaresProof (ZMod 101)) (t' : Transcript),
    proof.verify (B101.withHash H) [⟨1, 43⟩] ⟨1, 44⟩ ⟨[42], 42⟩ (Transcript.new "x")
      = some (.ok (), t') ∧ ¬ EncryptsSumOfSquares B101 (42 : ZMod 101) [⟨1, 43⟩] ⟨1, 44⟩ := by
  refine ⟨fun _ => 0, ⟨0, unpairs [(1, 1)], 1⟩, ⟨sumSqQuery (Transcript.new "x").log [42]
    [⟨[1], [43], [1], [43]⟩] [1] [44] [2] [85]⟩, ?_, ?_⟩
  · refine (verify_eq_some (by rfl)).mpr ⟨[⟨[1], [43], [1], [43]⟩], [1], [44], [2], [85], ?_⟩
    refine ⟨.cons ⟨by decide, by decide, by decide, by decide⟩ .nil, ?_⟩
    decide
  · rintro ⟨xs, h1, h2⟩
    cases h1 with
    | cons h1 h3 =>
      cases h3
      rename_i x
      rw [C01_encrypts_iff_decrypts B101 B101_lawful] at h1 h2
      have hx : x = 1 := by
        have : x • B101.gen = x := by simp [B101, toy]
        rw [this] at h1
        rw [← h1]; decide
      subst hx
      revert h2
      decide

/-! ## C16, C13, C50 -/

/-- C16 for sum-of-squares proofs. -/
theorem C16_sum_sq_len_mismatch (B : Backend F E) (proof : SumOfSquaresProof F)
    (cts : List (Ciphertext E)) (zc : Ciphertext E) (K : PublicKey E) (t : Transcript) :
    (proof.ciphertextResponses.length ≠ cts.length * 2 → ∃ t', proof.verify B cts zc K t =
      some (.error (.LenMismatch "ciphertext responses" proof.ciphertextResponses.length
        (cts.length * 2)), t')) ∧
    (∀ s a b t', proof.verify B cts zc K t = some (.error (.LenMismatch s a b), t') →
      s = "ciphertext responses" ∧ a = proof.ciphertextResponses.length ∧ b = cts.length * 2 ∧
        a ≠ b) := by
  constructor
  · intro h
    simp [SumOfSquaresProof.verify, checkLengths_ne h]
  · intro s a b t' h
    by_cases hl : proof.ciphertextResponses.length = cts.length * 2
    · obtain ⟨ps, h1, h2⟩ := exists_unpairs _ _ hl
      have : proof = ⟨proof.challenge, unpairs ps, proof.sumResponse⟩ := by rw [h1]
      rw [this] at h
      obtain ⟨_, _, _, _, _, -, -, -, -, -, -, hr⟩ := (verify_eq_some h2).mp h
      have := checkChallenge_err.mp hr.symm
      simp at this
    · simp only [SumOfSquaresProof.verify, checkLengths_ne hl, Option.some.injEq, Prod.mk.injEq,
        Except.error.injEq, VerificationError.LenMismatch.injEq] at h
      obtain ⟨⟨rfl, rfl, rfl⟩, -⟩ := h
      exact ⟨rfl, rfl, rfl, hl⟩

example : ∃ t', (⟨1, [2, 3, 4], 5⟩ : SumOfSquaresProof (ZMod 101)).verify B101 [⟨1, 2⟩] ⟨3, 4⟩
    ⟨[42], 42⟩ (Transcript.new "x") = some (.error (.LenMismatch "ciphertext responses" 3 2), t') :=
  (C16_sum_sq_len_mismatch B101 _ _ _ _ _).1 (by decide)

/-- C13 for sum-of-squares proofs: acceptance of one proof in two settings that differ in the context,
receiver, ciphertexts or sum ciphertext is a hash collision. -/
theorem C13_sum_sq_binding (B : Backend F E) (hB : B.Lawful) (proof : SumOfSquaresProof F)
    (cts₁ cts₂ : List (Ciphertext E)) (zc₁ zc₂ : Ciphertext E) (K₁ K₂ : PublicKey E)
    (t₁ t₂ t₁' t₂' : Transcript) (hK₁ : WellFormedKey B K₁) (hK₂ : WellFormedKey B K₂)
    (h₁ : proof.verify B cts₁ zc₁ K₁ t₁ = some (.ok (), t₁'))
    (h₂ : proof.verify B cts₂ zc₂ K₂ t₂ = some (.ok (), t₂'))
    (hne : t₁ ≠ t₂ ∨ K₁.element ≠ K₂.element ∨ cts₁ ≠ cts₂ ∨ zc₁ ≠ zc₂) :
    t₁'.log ≠ t₂'.log ∧ B.challenge t₁'.log = B.challenge t₂'.log := by
  obtain ⟨ps, hp, hl⟩ := verify_ok h₁
  obtain ⟨ps', hp', hl'⟩ := verify_ok h₂
  have : ps' = ps := by
    rw [hp] at hp'
    simp only [SumOfSquaresProof.mk.injEq, true_and, and_true] at hp'
    exact (unpairs_inj hp').symm
  subst this
  rw [hp] at h₁ h₂
  obtain ⟨items, rz, z, u, v, hi, hrz, hz, hu, hv, rfl, hc⟩ := (verify_eq_some hl).mp h₁
  obtain ⟨items', rz', z', u', v', hi', hrz', hz', hu', hv', rfl, hc'⟩ := (verify_eq_some hl').mp h₂
  have hc := checkChallenge_ok.mp hc.symm
  have hc' := checkChallenge_ok.mp hc'.symm
  refine ⟨fun heq => ?_, hc.trans hc'.symm⟩
  obtain ⟨e1, e2, rfl, rfl, rfl, -, -⟩ := sumSqQuery_inj heq
  rcases hne with h | h | h | h
  · exact h (transcript_ext e1)
  · unfold WellFormedKey at hK₁ hK₂
    rw [e2, hK₂] at hK₁
    exact h (Option.some.inj hK₁).symm
  · rw [forall₂_zip hl] at hi
    rw [forall₂_zip hl'] at hi'
    refine h (List.ext_getElem (by omega) fun i h1 h2 => ?_)
    obtain ⟨a1, a2, -, -⟩ := hi.2 i (by omega) h1 (by omega)
    obtain ⟨b1, b2, -, -⟩ := hi'.2 i (by omega) h2 (by omega)
    exact Ciphertext.ext (hB.serElem_inj a1 b1) (hB.serElem_inj a2 b2)
  · exact h (Ciphertext.ext (hB.serElem_inj hrz hrz') (hB.serElem_inj hz hz'))

/-- With a constant hash function a proof is accepted for another sum: a hash collision. -/
example : ∃ t₁ t₂ : Transcript, t₁.log ≠ t₂.log := by
  obtain ⟨t₁, h₁⟩ := sumSq_accepted_const ⟨1, 43⟩ ⟨1, 43⟩
  obtain ⟨t₂, h₂⟩ := sumSq_accepted_const ⟨1, 43⟩ ⟨1, 44⟩
  exact ⟨t₁, t₂, (C13_sum_sq_binding (B101.withHash fun _ => 7) (B101_lawful.withHash _) ⟨7, [3, 4], 5⟩ [⟨1, 43⟩]
    [⟨1, 43⟩] ⟨1, 43⟩ ⟨1, 44⟩ ⟨[42], 42⟩ ⟨[42], 42⟩ (Transcript.new "x") (Transcript.new "x") _ _
    (by unfold WellFormedKey; decide) (by unfold WellFormedKey; decide) h₁ h₂
    (.inr (.inr (.inr (by decide))))).1⟩

/-- C50 for sum-of-squares proofs: arbitrary proofs, ciphertexts and lengths never make the verifier
panic when encodings are total. -/
theorem C50_sum_sq_verify_total (B : Backend F E) (hT : B.TotalSer) (proof : SumOfSquaresProof F)
    (cts : List (Ciphertext E)) (zc : Ciphertext E) (K : PublicKey E) (t : Transcript) :
    ∃ out, proof.verify B cts zc K t = some out := by
  by_cases hl : proof.ciphertextResponses.length = cts.length * 2
  · obtain ⟨ps, h1, h2⟩ := exists_unpairs _ _ hl
    have : proof = ⟨proof.challenge, unpairs ps, proof.sumResponse⟩ := by rw [h1]
    rw [this]
    have : ∃ items, List.Forall₂ (VerifierItem B K.element proof.challenge) (ps.zip cts) items := by
      generalize ps.zip cts = l
      induction l with
      | nil => exact ⟨[], .nil⟩
      | cons p l ih =>
        obtain ⟨items, hi⟩ := ih
        obtain ⟨r, hr⟩ := hT p.2.random
        obtain ⟨x, hx⟩ := hT p.2.blinded
        obtain ⟨e, he⟩ := hT (p.1.1 • B.gen - proof.challenge • p.2.random)
        obtain ⟨f, hf⟩ := hT (p.1.2 • B.gen + p.1.1 • K.element - proof.challenge • p.2.blinded)
        exact ⟨⟨r, x, e, f⟩ :: items, .cons ⟨hr, hx, he, hf⟩ hi⟩
    obtain ⟨items, hi⟩ := this
    obtain ⟨rz, hrz⟩ := hT zc.random
    obtain ⟨z, hz⟩ := hT zc.blinded
    obtain ⟨u, hu⟩ := hT (Backend.multiMul (ps.map (·.2)) (cts.map (·.random)) +
      proof.sumResponse • B.gen - proof.challenge • zc.random)
    obtain ⟨v, hv⟩ := hT (Backend.multiMul (ps.map (·.2)) (cts.map (·.blinded)) +
      proof.sumResponse • K.element - proof.challenge • zc.blinded)
    exact ⟨(_, _), (verify_eq_some h2).mpr ⟨items, rz, z, u, v, hi, hrz, hz, hu, hv, rfl, rfl⟩⟩
  · simp [SumOfSquaresProof.verify, checkLengths_ne hl]

example : ∃ out, (⟨0, [0], 0⟩ : SumOfSquaresProof (ZMod 101)).verify B101 [⟨0, 0⟩, ⟨0, 0⟩] ⟨0, 0⟩ ⟨[0], 0⟩
    (Transcript.new "x") = some out :=
  C50_sum_sq_verify_total B101 B101_total ⟨0, [0], 0⟩ [⟨0, 0⟩, ⟨0, 0⟩] ⟨0, 0⟩ ⟨[0], 0⟩ (Transcript.new "x")

/-! ## C51: zero knowledge -/

/-- C51 for sum-of-squares proofs: for a true statement and any hash function, every accepted proof is the
prover's output for exactly one choice of its nonces, with the transcript the verifier computes. -/
theorem C51_sum_sq_zk (B : Backend F E) (cts : List (CiphertextWithValue F E))
    (zc : CiphertextWithValue F E) (K : PublicKey E)
    (hcts : ∀ ct ∈ cts, Opened B K.element ct) (hz : Opened B K.element zc)
    (hsum : zc.value = (cts.map fun ct => ct.value * ct.value).sum)
    (proof : SumOfSquaresProof F) (t t' : Transcript)
    (ht' : proof.verify B (cts.map (·.ciphertext)) zc.ciphertext K t
      = some (.ok (), t')) :
    ∃! tape : List F, tape.length = cts.length * 2 + 1 ∧
      SumOfSquaresProof.new B.withTape cts zc K t tape
        = some (proof, t', []) := by
  obtain ⟨rs, hproof, hl⟩ := verify_ok ht'
  obtain ⟨c, resp, s⟩ := proof
  simp only [SumOfSquaresProof.mk.injEq, true_and, and_true] at hproof
  subst hproof
  simp only [List.length_map] at hl
  obtain ⟨items, rz, z, u, v, hi, hrz, hz', hu, hv, rfl, hc⟩ := (verify_eq_some (by simpa using hl)).mp ht'
  have hc := checkChallenge_ok.mp hc.symm
  change B.serElem _ = _ at hrz hz' hu hv
  let ns : List (F × F) := List.zipWith
    (fun (ct : CiphertextWithValue F E) (r : F × F) => (r.1 - c * ct.randomness, r.2 - c * ct.value)) cts rs
  have hln : cts.length = ns.length := by simp [ns, hl]
  let s0 := s - c * (zc.randomness - (cts.map fun ct => ct.randomness * ct.value).sum)
  have hlen : (unpairs ns).length = cts.length * 2 := by rw [unpairs_length, ← hln]
  have hps : ∀ p ∈ cts.zip ns, Opened B K.element p.1 := fun p hp =>
    hcts p.1 (List.of_mem_zip hp).1
  have hresp : (cts.zip ns).map (fun p => (c * p.1.randomness + p.2.1, c * p.1.value + p.2.2)) = rs := by
    refine List.ext_getElem (by rw [List.length_map, List.length_zip]; omega) fun i h1 h2 => ?_
    simp [ns]
  have hresp2 : (cts.zip ns).map (fun p => c * p.1.value + p.2.2) = rs.map (·.2) := by
    conv_rhs => rw [← hresp]
    simp
  have hfst : (cts.zip ns).map (·.1) = cts := List.map_fst_zip (by omega)
  have hct1 : (cts.zip ns).map (·.1.ciphertext.random) = cts.map (·.ciphertext.random) := by
    conv_rhs => rw [← hfst]
    simp
  have hct2 : (cts.zip ns).map (·.1.ciphertext.blinded) = cts.map (·.ciphertext.blinded) := by
    conv_rhs => rw [← hfst]
    simp
  have hrv : (cts.zip ns).map (fun p => p.1.randomness * p.1.value) =
      cts.map fun ct => ct.randomness * ct.value := by
    conv_rhs => rw [← hfst]
    simp
  have hvv : (cts.zip ns).map (fun p => p.1.value * p.1.value) =
      cts.map fun ct => ct.value * ct.value := by
    conv_rhs => rw [← hfst]
    simp
  have hitems : List.Forall₂ (ProverItem B K.element) (cts.zip ns) items := by
    rw [forall₂_zip hln]
    rw [forall₂_zip (by simpa using hl)] at hi
    refine ⟨by rw [hi.1, hl], fun i h1 h2 h3 => ?_⟩
    obtain ⟨a1, a2, a3, a4⟩ := hi.2 i (by omega) (by simpa using h1) h3
    have ho := hcts _ (List.getElem_mem h1)
    simp only [List.getElem_map] at a1 a2 a3 a4
    refine ⟨a1, a2, ?_, ?_⟩
    · rw [← a3]
      show B.serElem _ = B.serElem _
      congr 1
      simp only [ns, List.getElem_zipWith, ho.1]
      module
    · rw [← a4]
      show B.serElem _ = B.serElem _
      congr 1
      simp only [ns, List.getElem_zipWith, ho.2]
      module
  refine ⟨s0 :: unpairs ns, ⟨by simp [hlen], ?_⟩, ?_⟩
  · have hloop := commitLoop_tape (B := B) hln hitems zc.randomness
      (initializeTranscript t K)
    have hu' : B.serElem (Backend.multiMul ((cts.zip ns).map (fun x => x.2.2) ++ [s0])
        ((cts.zip ns).map (fun x => x.1.ciphertext.random) ++ [B.gen])) = some u := by
      rw [Backend.multiMul_append _ _ _ _ (by simp), ← hu]
      congr 1
      simp only [List.map_map, Function.comp_def]
      rw [← hresp2, ← hct1, sumSq_random_sum B K.element c _ hps, hz.1, hrv]
      simp only [Backend.multiMul_cons, Backend.multiMul_nil, s0]
      module
    have hv' : B.serElem (Backend.multiMul ((cts.zip ns).map (fun x => x.2.2) ++ [s0])
        ((cts.zip ns).map (fun x => x.1.ciphertext.blinded) ++ [K.element])) = some v := by
      rw [Backend.multiMul_append _ _ _ _ (by simp), ← hv]
      congr 1
      simp only [List.map_map, Function.comp_def]
      rw [← hresp2, ← hct2, sumSq_blinded_sum B K.element c _ hps, hz.2, hrv, hvv, hsum]
      simp only [Backend.multiMul_cons, Backend.multiMul_nil, s0]
      module
    have app : ∀ {l : String} {e : E} {b : Bytes} (t : Transcript), B.serElem e = some b →
        B.withTape.appendElement t l e = some (t.appendElementBytes l b) :=
      fun t hb => Backend.appendElement_eq_some.mpr ⟨_, hb, rfl⟩
    simp only [SumOfSquaresProof.new, SecretKey.generate, List.headD_cons, List.tail_cons, hloop,
      Option.bind_eq_bind, Option.bind_some, app _ hrz, app _ hz', app _ hu', app _ hv',
      Option.pure_def, Option.some.injEq, Prod.mk.injEq, SumOfSquaresProof.mk.injEq,
      Backend.challengeScalar, true_and, and_true]
    have ht : (initializeTranscript t K).log = t.log ++
        [.msg "dom-sep" (asciiBytes "sum_of_squares"), .msg "K" K.bytes] := by
      simp [initializeTranscript, Transcript.appendElementBytes, Transcript.appendMessage,
        Transcript.startProof]
    have hc' : B.challenge (((((((⟨(initializeTranscript t K).log ++
        items.flatMap SquareItem.entries⟩ : Transcript).appendElementBytes "R_z" rz).appendElementBytes
        "Z" z).appendElementBytes "[e_x]R_x + [e_z]G" u).appendElementBytes
        "[e_x]X + [e_z]K" v).log) ++ [.chal "c"]) = c := by
      rw [← hc]
      congr 1
      simp [sumSqQuery, ht, Transcript.appendElementBytes, Transcript.appendMessage]
    rw [hc']
    refine ⟨⟨rfl, ?_, ?_⟩, ?_⟩
    · conv_rhs => rw [← hresp]
      simp [unpairs, List.flatMap_map]
    · simp only [s0]; ring
    · simp [sumSqQuery, initializeTranscript, Transcript.appendElementBytes, Transcript.appendMessage,
        Transcript.startProof]
  · rintro tape ⟨htl, hnew⟩
    cases tape with
    | nil => simp at htl
    | cons s1 tape =>
      obtain ⟨ms, rfl, hml⟩ := exists_unpairs cts.length tape (by simpa using htl)
      simp only [SumOfSquaresProof.new, SecretKey.generate, List.headD_cons, List.tail_cons,
        Option.bind_eq_bind, Option.bind_eq_some_iff, Option.pure_def, Option.some.injEq,
        Prod.mk.injEq, Prod.exists, SumOfSquaresProof.mk.injEq, Backend.challengeScalar] at hnew
      obtain ⟨ps, s2, t1, u1, hloop, _, -, _, -, _, -, _, -, ⟨hc1, hr, hs⟩, -, -⟩ := hnew
      rw [hc1] at hr hs
      have h1 := commitLoop_tape_inv (B := B) hml.symm hloop
      have h2 := (commitLoop_eq_some hloop).2.1
      subst h1
      have h3 : (cts.zip ms).map (fun p => (c * p.1.randomness + p.2.1, c * p.1.value + p.2.2)) = rs := by
        apply unpairs_inj
        rw [← hr]
        simp [unpairs, List.flatMap_map]
      have h4 : ms = ns := by
        refine List.ext_getElem (by omega) fun i a1 a2 => ?_
        have hi : i < cts.length := by omega
        have : rs[i]'(by omega) = (c * cts[i].randomness + ms[i].1, c * cts[i].value + ms[i].2) := by
          simp only [← h3, List.getElem_map, List.getElem_zip]
        simp only [ns, List.getElem_zipWith, this]
        ext <;> simp
      rw [h4]
      congr 1
      simp only [s0, ← hs, h2]
      ring

/-- The values 3 and 9, with randomness 1 and 2. -/
example : ∃ t', ∃! tape : List (ZMod 101), tape.length = 3 ∧
    SumOfSquaresProof.new (B101.withHash fun _ => 7).withTape [⟨⟨⟨1, 45⟩, 1⟩, 3⟩] ⟨⟨⟨2, 93⟩, 2⟩, 9⟩ ⟨[42], 42⟩
      (Transcript.new "x") tape = some (⟨7, [3, 4], 5⟩, t', []) := by
  obtain ⟨t', ht⟩ := sumSq_accepted_const ⟨1, 45⟩ ⟨2, 93⟩
  exact ⟨t', C51_sum_sq_zk (B101.withHash fun _ => 7) [⟨⟨⟨1, 45⟩, 1⟩, 3⟩] ⟨⟨⟨2, 93⟩, 2⟩, 9⟩ ⟨[42], 42⟩
    (by simp only [List.mem_singleton, forall_eq]; constructor <;> decide) (by constructor <;> decide) (by decide)
    ⟨7, [3, 4], 5⟩ (Transcript.new "x") _ ht⟩

end ElasticElgamal
