import Verif.Lemmas.Range
import Verif.Props.Ring
import Verif.Props.RangeDecomposition

/-!
# C30, C31 and the range parts of C13, C16, C26, C50
-/

set_option autoImplicit false
set_option linter.unusedSectionVars false

namespace ElasticElgamal

open Spec Toy

variable {F E : Type} [Field F] [AddCommGroup E] [Module F E] [DecidableEq F] [DecidableEq E]

/-- C26: `PreparedRange::new` never panics for decompositions returned by `optimal`, so that every upper
bound in `2..=2^64 - 3` has a prepared range; its admissible values are the multiples of ring steps. -/
theorem C26_prepared_total (B : Backend F E) (est : ℕ → ℕ) (he : EstimateOk est) (n : ℕ) (h2 : 2 ≤ n)
    (hn : n ≤ 2 ^ 64 - 3) : ∃ d range, RangeDecomposition.optimal B.debug est n = some d ∧
      PreparedRange.new B d = some range ∧ PreparedFor B n range ∧
      range.admissibleValues = d.rings.map (ringValues B) := by
  obtain ⟨o, h1, h3⟩ := optimal_spec (dbg := B.debug) he h2 hn
  have h4 := PreparedRange.new_nested (B := B) h3.nested (by omega)
  exact ⟨_, _, h1, h4, ⟨est, he, h2, hn, _, h1, h4⟩, rfl⟩

/-- C26: `PreparedRange::decompose` panics exactly for values at or above the upper bound, in any build
profile; otherwise it returns indexes representing the value. -/
theorem C26_prepared_decompose (B : Backend F E) (n : ℕ) (range : PreparedRange E)
    (h : PreparedFor B n range) (dbg : Bool) (v : ℕ) :
    (n ≤ v → range.decompose dbg v = none) ∧
    (v < n → ∃ idx, range.decompose dbg v = some idx ∧ Represents range.inner.rings idx v) :=
  ⟨h.facts.decompose_none, h.facts.decompose⟩

/-- C30: `RangeProof::from_ciphertext` for a correctly opened ciphertext yields a proof accepted by
`verify` for the same receiver, range, ciphertext and context. -/
theorem C30_range_complete (B : Backend F E) (n : ℕ) (range : PreparedRange E)
    (hr : PreparedFor B n range) (K : PublicKey E) (ct : CiphertextWithValue F E ℕ)
    (hct : OpenedNat B K.element ct) (t t' : Transcript) (rng rng' : B.Rng) (proof : RangeProof F E)
    (h : RangeProof.fromCiphertext B K range ct t rng = some (proof, t', rng')) :
    proof.verify B K range ct.ciphertext t = some (.ok (), t') := by
  obtain ⟨-, hl, steps, builder, hvals, hrun, hbuild, hon⟩ :=
    RangeProof.fromCiphertext_spec hr.facts h
  rw [RangeProof.verify_eq hl, ← hvals]
  exact C22_ring_complete B K steps (hon hct) _ (by simp) _ _ _ _ _ _ hrun _ _ hbuild

/-- C30: with total encodings `from_ciphertext` does not panic for values in the range. -/
theorem C30_range_total (B : Backend F E) (hT : B.TotalSer) (n : ℕ) (range : PreparedRange E)
    (hr : PreparedFor B n range) (K : PublicKey E) (ct : CiphertextWithValue F E ℕ)
    (hct : OpenedNat B K.element ct) (hv : ct.value < n) (t : Transcript) (rng : B.Rng) :
    ∃ out, RangeProof.fromCiphertext B K range ct t rng = some out :=
  RangeProof.fromCiphertext_total hT hr.facts hv hct t rng

/-- C30: values out of range are never proved (the prover panics). -/
theorem C30_range_panics (B : Backend F E) (n : ℕ) (range : PreparedRange E)
    (hr : PreparedFor B n range) (K : PublicKey E) (ct : CiphertextWithValue F E ℕ)
    (hv : n ≤ ct.value) (t : Transcript) (rng : B.Rng) :
    RangeProof.fromCiphertext B K range ct t rng = none := by
  simp [RangeProof.fromCiphertext, hr.facts.decompose_none hv]

/-- C30 for `encrypt_range`: the result is accepted by `verify_range` and the ciphertext encrypts the
value. -/
theorem C30_encrypt_range (B : Backend F E) (n : ℕ) (range : PreparedRange E)
    (hr : PreparedFor B n range) (K : PublicKey E) (k : F) (hK : K.element = k • B.gen) (value : ℕ)
    (rng rng' : B.Rng) (ct : Ciphertext E) (proof : RangeProof F E)
    (h : K.encryptRange B range value rng = some ((ct, proof), rng')) :
    K.verifyRange B range ct proof = some (.ok ()) ∧
      SecretKey.decryptToElement k ct = (value : F) • B.gen := by
  simp only [PublicKey.encryptRange, RangeProof.new, Option.bind_eq_bind, Option.bind_eq_some_iff,
    Option.pure_def, Option.some.injEq, Prod.mk.injEq, Prod.exists] at h
  obtain ⟨ctv, proof', t', rng1, ⟨p, t1, rng2, hp, ⟨rfl, rfl⟩, rfl, rfl⟩, ⟨rfl, rfl⟩, rfl⟩ := h
  constructor
  · have := C30_range_complete B n range hr K _ ⟨rfl, rfl⟩ _ _ _ _ _ hp
    simp [PublicKey.verifyRange, this]
  · simp only [SecretKey.decryptToElement, CiphertextWithValue.newU64, ExtendedCiphertext.new,
      ExtendedCiphertext.withValue, CiphertextWithValue.ciphertext, Backend.mulGen, hK]
    module

/-- C30: with total encodings `encrypt_range` succeeds exactly for values below the upper bound. -/
theorem C30_encrypt_range_total (B : Backend F E) (hT : B.TotalSer) (n : ℕ) (range : PreparedRange E)
    (hr : PreparedFor B n range) (K : PublicKey E) (value : ℕ) (rng : B.Rng) :
    (∃ out, K.encryptRange B range value rng = some out) ↔ value < n := by
  constructor
  · rintro ⟨out, h⟩
    by_contra hv
    have := C30_range_panics B n range hr K (CiphertextWithValue.newU64 B value K rng).1
      (not_lt.mp hv) (Transcript.new "ciphertext_range") (CiphertextWithValue.newU64 B value K rng).2
    simp [PublicKey.encryptRange, RangeProof.new, this] at h
  · intro hv
    obtain ⟨⟨p, t', rng'⟩, hp⟩ := C30_range_total B hT n range hr K
      (CiphertextWithValue.newU64 B value K rng).1 ⟨rfl, rfl⟩ hv (Transcript.new "ciphertext_range")
      (CiphertextWithValue.newU64 B value K rng).2
    exact ⟨(((CiphertextWithValue.newU64 B value K rng).1.ciphertext, p), rng'), by
      simp only [PublicKey.encryptRange, RangeProof.new, hp, Option.bind_eq_bind,
      Option.bind_some, Option.pure_def]⟩

/-- C31: if a range proof is accepted, the ciphertext encrypts `[x]G` for an integer `x` below the upper
bound, or one of the rings was forged (see `RingForged`; every step of a forged ring requires a hash
value to be equal to a single exceptional challenge, `C23_forgeable_unique`). -/
theorem C31_range_sound (B : Backend F E) (n : ℕ) (range : PreparedRange E)
    (hr : PreparedFor B n range) (K : PublicKey E) (k : F) (hK : K.element = k • B.gen)
    (ct : Ciphertext E) (proof : RangeProof F E) (t t' : Transcript)
    (h : proof.verify B K range ct t = some (.ok (), t')) :
    (∃ x < n, Encrypts B k ct ((x : F) • B.gen)) ∨
    ∃ (i : ℕ) (ring : RingSpec) (c : Ciphertext E) (enc : Bytes) (terms : List (Bytes × Bytes))
      (last : Bytes × Bytes),
      range.inner.rings[i]? = some ring ∧
      (rangeCiphertexts proof.partialCiphertexts ct)[i]? = some c ∧ c.toBytes B = some enc ∧
      t'.log = commonQuery (rangeContext t.log range.inner.display) K.bytes terms ∧
      terms[i]? = some last ∧
      RingForged B K.element (ringBase (rangeContext t.log range.inner.display) K.bytes enc i)
        (ringValues B ring) (responsesOf (range.inner.rings.map (ringValues B)) proof.inner.ringResponses i
          (ringValues B ring).length) c (B.challenge t'.log) last := by
  have hf := hr.facts
  have hl := RangeProof.verify_ok_length h
  rw [RangeProof.verify_eq hl] at h
  by_cases hgood : ∀ (i : ℕ) s c, range.inner.rings[i]? = some s →
      (rangeCiphertexts proof.partialCiphertexts ct)[i]? = some c →
      ∃ v ∈ ringValues B s, Encrypts B k c v
  · left
    rw [hf.values, List.length_map] at hl
    obtain ⟨idx, x, hrep, he⟩ := encrypts_sum range.inner.rings
      (rangeCiphertexts proof.partialCiphertexts ct) (by simp [rangeCiphertexts, hl]) hgood
    refine ⟨x, hf.nested.represents_lt hrep, ?_⟩
    simpa [rangeCiphertexts] using he
  · right
    push Not at hgood
    obtain ⟨i, s, c, hs, hc, hbad⟩ := hgood
    have hvs : range.admissibleValues[i]? = some (ringValues B s) := by
      rw [hf.values, List.getElem?_map, hs]; rfl
    have hne : ringValues B s ≠ [] := by
      have := (hf.nested.size_step s (List.mem_of_getElem? hs)).1
      rw [← List.length_pos_iff, ringValues, List.length_map, List.length_range]
      omega
    rcases C23_ring_sound B K k hK proof.inner _ _ _ _ h i _ c hvs hc hne with
      ⟨v, hv, he⟩ | ⟨enc, terms, last, henc, hlog, hterm, hforged⟩
    · exact absurd he (hbad v hv)
    · rw [RangeProof.context_log] at hlog hforged
      rw [hf.values] at hforged
      exact ⟨i, s, c, enc, terms, last, hs, hc, henc, hlog, hterm, hforged⟩

/-- C16 for range proofs: the number of partial ciphertexts is checked first, then the number of
responses; `LenMismatch` is returned exactly in these cases. -/
theorem C16_range_len_mismatch (B : Backend F E) (proof : RangeProof F E) (K : PublicKey E)
    (range : PreparedRange E) (ct : Ciphertext E) (t : Transcript) :
    (proof.partialCiphertexts.length + 1 ≠ range.admissibleValues.length → ∃ t',
      proof.verify B K range ct t = some (.error (.LenMismatch "admissible values"
        (proof.partialCiphertexts.length + 1) range.admissibleValues.length), t')) ∧
    (proof.partialCiphertexts.length + 1 = range.admissibleValues.length →
      proof.inner.ringResponses.length ≠ (range.admissibleValues.map List.length).sum → ∃ t',
      proof.verify B K range ct t = some (.error (.LenMismatch "items in all rings"
        proof.inner.ringResponses.length (range.admissibleValues.map List.length).sum), t')) ∧
    (∀ s a b t', proof.verify B K range ct t = some (.error (.LenMismatch s a b), t') →
      a ≠ b ∧ ((s = "admissible values" ∧ a = proof.partialCiphertexts.length + 1 ∧
          b = range.admissibleValues.length) ∨
        (s = "items in all rings" ∧ a = proof.inner.ringResponses.length ∧
          b = (range.admissibleValues.map List.length).sum))) := by
  refine ⟨fun h => ?_, fun h h2 => ?_, fun s a b t' h => ?_⟩
  · simp [RangeProof.verify, checkLengths_ne h]
  · rw [RangeProof.verify_eq h]
    exact (C16_ring_len_mismatch B proof.inner K _ _ _).1 h2
  · by_cases hl : proof.partialCiphertexts.length + 1 = range.admissibleValues.length
    · rw [RangeProof.verify_eq hl] at h
      obtain ⟨h1, h2, h3, h4⟩ := (C16_ring_len_mismatch B proof.inner K _ _ _).2 s a b t' h
      exact ⟨h4, .inr ⟨h1, h2, h3⟩⟩
    · simp only [RangeProof.verify, checkLengths_ne hl, Option.some.injEq, Prod.mk.injEq,
        Except.error.injEq, VerificationError.LenMismatch.injEq] at h
      obtain ⟨⟨rfl, rfl, rfl⟩, -⟩ := h
      exact ⟨hl, .inl ⟨rfl, rfl, rfl⟩⟩

/-- C50 for range proofs: with total encodings `verify` never panics. -/
theorem C50_range_verify_total (B : Backend F E) (hT : B.TotalSer) (proof : RangeProof F E)
    (K : PublicKey E) (range : PreparedRange E) (ct : Ciphertext E) (t : Transcript) :
    ∃ out, proof.verify B K range ct t = some out := by
  by_cases hl : proof.partialCiphertexts.length + 1 = range.admissibleValues.length
  · rw [RangeProof.verify_eq hl]
    exact C50_ring_verify_total B hT proof.inner K _ _ _
  · simp [RangeProof.verify, checkLengths_ne hl]

/-- C50, finding: for SEC1 backends a range proof with zero challenge and responses (and any partial
ciphertexts) makes the verifier panic. -/
theorem C50_range_verify_panics_sec1 (B : Backend F E) (hS : B.Sec1Ser) (n : ℕ)
    (range : PreparedRange E) (hr : PreparedFor B n range) (K : PublicKey E) (ct : Ciphertext E)
    (partials : List (Ciphertext E)) (hl : partials.length + 1 = range.admissibleValues.length)
    (t : Transcript) :
    (⟨partials, ⟨0, List.replicate (range.admissibleValues.map List.length).sum 0⟩⟩ :
      RangeProof F E).verify B K range ct t = none := by
  rw [RangeProof.verify_eq hl, Option.eq_none_iff_forall_ne_some]
  rintro ⟨r, t'⟩ hv
  obtain ⟨t1, hloop, -, -⟩ := (RingProof.verify_eq_some (by simp)).mp hv
  obtain ⟨terms, -, -, hk⟩ := RingProof.verifyLoop_spec _ hloop
  have hf := hr.facts
  obtain ⟨s, rings, hrings⟩ := List.exists_cons_of_ne_nil hf.nested.ne_nil
  have hs := (hf.nested.size_step s (by simp [hrings])).1
  obtain ⟨v, v', vs, hvs⟩ : ∃ v v' vs, ringValues B s = v :: v' :: vs := by
    have : 2 ≤ (ringValues B s).length := by simpa [ringValues] using hs
    match h : ringValues B s with
    | [] => simp [h] at this
    | [_] => simp [h] at this
    | v :: v' :: vs => exact ⟨v, v', vs, rfl⟩
  have hval : range.admissibleValues = (v :: v' :: vs) :: rings.map (ringValues B) := by
    rw [hf.values, hrings, List.map_cons, hvs]
  obtain ⟨c, cts, hcts⟩ : ∃ c cts, rangeCiphertexts partials ct = c :: cts := by
    cases h : rangeCiphertexts partials ct with
    | nil => simp [rangeCiphertexts] at h
    | cons c cts => exact ⟨c, cts, rfl⟩
  simp only at hk
  rw [hcts, hval] at hk
  obtain ⟨enc, m, term, -, -, -, -, hver⟩ := hk 0 (v :: v' :: vs) c rfl
  obtain ⟨N, hN⟩ : ∃ N, (((v :: v' :: vs) :: rings.map (ringValues B)).map List.length).sum =
      N + 1 := Nat.exists_eq_succ_of_ne_zero (by simp)
  simp only [List.take_zero, List.map_nil, List.sum_nil, Nat.add_zero, List.drop_zero, hN,
    List.replicate_succ, List.zip_cons_cons] at hver
  rw [RingProof.verifyRingLoop_cons_lt (by simp), Option.bind_eq_some_iff] at hver
  obtain ⟨c, hc, -⟩ := hver
  obtain ⟨x, y, hx, -, -⟩ := ringChal_eq_some.mp hc
  simp only [ringComm, zero_smul, sub_zero] at hx
  rw [(hS 0).mpr rfl] at hx
  cases hx

/-- C13 for range proofs: one proof accepted in two different contexts, for two different receivers or
for two ranges with different upper bounds yields a hash collision. -/
theorem C13_range_binding (B : Backend F E) (proof : RangeProof F E) (K₁ K₂ : PublicKey E)
    (hK₁ : WellFormedKey B K₁) (hK₂ : WellFormedKey B K₂) (n₁ n₂ : ℕ) (range₁ range₂ : PreparedRange E)
    (hr₁ : PreparedFor B n₁ range₁) (hr₂ : PreparedFor B n₂ range₂) (ct₁ ct₂ : Ciphertext E)
    (t₁ t₂ t₁' t₂' : Transcript)
    (h₁ : proof.verify B K₁ range₁ ct₁ t₁ = some (.ok (), t₁'))
    (h₂ : proof.verify B K₂ range₂ ct₂ t₂ = some (.ok (), t₂'))
    (hne : t₁ ≠ t₂ ∨ K₁.element ≠ K₂.element ∨ n₁ ≠ n₂) :
    t₁'.log ≠ t₂'.log ∧ B.challenge t₁'.log = B.challenge t₂'.log := by
  have hl₁ := RangeProof.verify_ok_length h₁
  have hl₂ := RangeProof.verify_ok_length h₂
  rw [RangeProof.verify_eq hl₁] at h₁
  rw [RangeProof.verify_eq hl₂] at h₂
  refine C13_ring_binding B proof.inner K₁ K₂ hK₁ hK₂ _ _ _ _ _ _ _ _ h₁ h₂
    (by simp [rangeCiphertexts]; omega) ?_
  by_contra hc
  push Not at hc
  obtain ⟨hc1, hc2⟩ := hc
  have hlog := congrArg Transcript.log hc1
  rw [RangeProof.context_log, RangeProof.context_log] at hlog
  simp only [rangeContext] at hlog
  obtain ⟨hlog1, hlog2⟩ := List.append_inj' hlog rfl
  simp only [List.cons.injEq, Entry.msg.injEq, true_and, and_true] at hlog2
  have hf₁ := hr₁.facts
  have hf₂ := hr₂.facts
  have hd := C29_display_injective _ _ (fun s hs => (hf₁.nested.size_step s hs).2.1)
    (fun s hs => (hf₂.nested.size_step s hs).2.1) hlog2
  have hn : n₁ = n₂ := by
    rw [← hf₁.nested.upper, ← hf₂.nested.upper, hd]
  rcases hne with h | h | h
  · exact h (transcript_ext hlog1)
  · exact h hc2
  · exact h hn

/-- The prover's randomness as a function of the proof. -/
theorem range_tape (B : Backend F E) (hgen : B.gen ≠ 0) (n : ℕ) (range : PreparedRange E)
    (hr : PreparedFor B n range) (K : PublicKey E) (k : F) (hK : K.element = k • B.gen)
    (ct : CiphertextWithValue F E ℕ) (hct : OpenedNat B K.element ct) (idx : List ℕ)
    (hidx : range.decompose B.debug ct.value = some idx) (proof : RangeProof F E) (t t' : Transcript)
    (h : proof.verify B K range ct.ciphertext t = some (.ok (), t'))
    (hpart : ∀ (i : ℕ) c j s, proof.partialCiphertexts[i]? = some c → idx[i]? = some j →
      range.inner.rings[i]? = some s → Encrypts B k c (((j * s.step : ℕ) : F) • B.gen)) :
    ∃ T : List F, T.length = (range.inner.rings.map (·.size)).sum + proof.partialCiphertexts.length ∧
      (∀ xs, RangeProof.fromCiphertext B.withTape K range ct t (T ++ xs) = some (proof, t', xs)) ∧
      ∀ tape t'' xs, T.length ≤ tape.length →
        RangeProof.fromCiphertext B.withTape K range ct t tape = some (proof, t'', xs) → tape = T ++ xs := by
  classical
  have hf := hr.facts
  have hf' : RangeFacts B.withTape n range := ⟨hf.nested, hf.lt, hf.size_le, hf.values⟩
  have hv : ct.value < n := by
    by_contra hv
    rw [hf.decompose_none (not_lt.mp hv)] at hidx
    cases hidx
  obtain ⟨idx', hd, hrep⟩ := hf.decompose (dbg := B.debug) hv
  rw [hidx] at hd
  cases hd
  obtain ⟨hne, init, i, vs, heq, htake, hdrop, hlen, hvals, hin, hsum⟩ := hf.items hrep
  obtain ⟨partials, π⟩ := proof
  have hl := RangeProof.verify_ok_length h
  rw [RangeProof.verify_eq hl] at h
  simp only at h hl hpart ⊢
  have hpl : partials.length = init.length := by omega
  let ρ : Ciphertext E → F := fun c => if h : ∃ r : F, c.random = r • B.gen then h.choose else 0
  have hopen : ∀ q ∈ partials.zip init, ∃ v, q.2.2[q.2.1]? = some v ∧
      q.1.random = ρ q.1 • B.gen ∧ q.1.blinded = v + ρ q.1 • K.element := by
    rintro ⟨c, j, vals⟩ hq
    obtain ⟨m, hm⟩ := List.mem_iff_getElem?.mp hq
    rw [List.getElem?_zip_eq_some] at hm
    obtain ⟨hm1, hm2⟩ := hm
    have hm3 : (idx.zip range.admissibleValues)[m]? = some (j, vals) := by
      rw [heq, List.getElem?_append_left (List.getElem?_eq_some_iff.mp hm2).1]; exact hm2
    rw [List.getElem?_zip_eq_some, hf.values, List.getElem?_map, Option.map_eq_some_iff] at hm3
    obtain ⟨hj, s, hs, hvs⟩ := hm3
    have hlt : j < vals.length := hin (j, vals) (List.mem_append_left _ (List.mem_of_getElem? hm2))
    obtain ⟨r, e1, e2⟩ := hpart m c j s hm1 hj hs
    have hex : ∃ r : F, c.random = r • B.gen := ⟨r, e1⟩
    have hρ : ρ c = hex.choose := by simp only [ρ, dif_pos hex]
    have e3 : c.random = ρ c • B.gen := by rw [hρ]; exact hex.choose_spec
    have e4 : r = ρ c := smul_left_injective F hgen (e1.symm.trans e3)
    refine ⟨((j * s.step : ℕ) : F) • B.gen, ?_, e3, ?_⟩
    · subst hvs
      simp only [ringValues, List.length_map, List.length_range] at hlt
      simp [ringValues, hlt]
    · rw [e2, hK, e4]
  obtain ⟨o1, o2⟩ := zip_opened ρ partials init hpl hopen
  let cum : ExtendedCiphertext F E :=
    ⟨partials.foldl (fun acc c => acc.add c) Ciphertext.zero, (partials.map ρ).sum⟩
  have hcr : cum.inner.random = cum.randomScalar • B.gen := by
    simp only [cum, foldl_add_eq, Ciphertext.zero, zero_add, o1]
  let rings : List (RingInput F E) :=
    (partials.zip init).map (fun q => ⟨⟨q.1, ρ q.1⟩, q.2.2, q.2.1, true⟩) ++
      [⟨ct.inner.sub cum, vs, i, false⟩]
  have hsteps : rings.map (·.step) =
      valueSteps init ++ [⟨some (ct.inner.sub cum), vs, i⟩] := by
    have : ((partials.zip init).map Prod.snd) = init := List.map_snd_zip (by omega)
    simp only [rings, List.map_append, List.map_map, List.map_cons, List.map_nil, RingInput.step,
      valueSteps, Function.comp_def, if_true, Bool.false_eq_true, if_false]
    congr 1
    conv_rhs => rw [← this]
    rw [List.map_map]
    rfl
  have hvalues : rings.map (·.values) = range.admissibleValues := by
    have : ((partials.zip init).map Prod.snd) = init := List.map_snd_zip (by omega)
    rw [← hvals, ← this]
    simp [rings, Function.comp_def]
  have hcts : rings.map (·.ct.inner) = rangeCiphertexts partials ct.ciphertext := by
    rw [← rangeCiphertexts_eq]
    have : ((partials.zip init).map Prod.fst) = partials := List.map_fst_zip (by omega)
    simp only [rings, List.map_append, List.map_map, List.map_cons, List.map_nil,
      Function.comp_def]
    congr 1
  have hhon : ∀ r ∈ rings, r.Honest B K.element := by
    intro r hr
    rw [List.mem_append] at hr
    rcases hr with hr | hr
    · obtain ⟨q, hq, rfl⟩ := List.mem_map.mp hr
      exact hopen q hq
    · simp only [List.mem_singleton] at hr
      subst hr
      have hi := hin (i, vs) (by simp)
      simp only at hi
      obtain ⟨v, hv'⟩ : ∃ v, vs[i]? = some v := ⟨vs[i], by simp [hi]⟩
      obtain ⟨c1, c2⟩ := hct
      simp only [CiphertextWithValue.ciphertext, CiphertextWithValue.randomness] at c1 c2
      simp only [hv', Option.getD_some] at hsum
      refine ⟨v, hv', ?_, ?_⟩
      · simp only [ExtendedCiphertext.sub, Ciphertext.sub, SecretKey.sub, c1, hcr]
        module
      · have : cum.inner.blinded = selectedSum init + cum.randomScalar • K.element := by
          simp only [cum, foldl_add_eq, Ciphertext.zero, zero_add, o2]
        simp only [ExtendedCiphertext.sub, Ciphertext.sub, SecretKey.sub, c2, this, ← hsum]
        module
  have hsz : (rings.map (·.values.length)).sum = (range.inner.rings.map (·.size)).sum := by
    rw [← hf.sizes, ← hvalues, List.map_map]
    rfl
  have hdraws : (rings.map (·.draws)).sum =
      (range.inner.rings.map (·.size)).sum + partials.length := by
    rw [← hsz]
    simp only [rings, List.map_append, List.sum_append, List.map_map, List.map_cons, List.map_nil,
      List.sum_cons, List.sum_nil, RingInput.draws, Function.comp_def, if_true, Bool.false_eq_true,
      if_false]
    rw [show (fun q : Ciphertext E × ℕ × List E => q.2.2.length + 1) =
      fun q => q.2.2.length + (fun _ => 1) q from rfl, List.sum_map_add]
    simp only [List.map_const', List.sum_replicate, List.length_zip]
    simp
    omega
  have hiff : ∀ (tape xs : List F) (t' : Transcript), proveRings B.withTape K rings (RangeProof.context range t) tape =
        some ((rings.map (·.ct.inner), π), t', xs) ↔
      RangeProof.fromCiphertext B.withTape K range ct t tape = some (⟨partials, π⟩, t', xs) := by
    intro tape xs t'
    rw [RangeProof.fromCiphertext_iff (B := B.withTape) hgen hf' hidx hrep hne htake hdrop hpl
      (cum := cum) rfl hcr, hcts, ← hsteps, ← hsz]
    simp only [proveRings, Option.bind_eq_bind, Option.bind_eq_some_iff, Option.pure_def,
      Option.some.injEq, Prod.mk.injEq, Prod.exists]
    constructor
    · rintro ⟨cts, b, h1, c, rs, t1, rng1, h2, ⟨rfl, rfl⟩, rfl, rfl⟩
      exact ⟨b, h1, h2⟩
    · rintro ⟨b, h1, h2⟩
      exact ⟨_, b, h1, _, _, _, _, h2, ⟨rfl, rfl⟩, rfl, rfl⟩
  obtain ⟨c, rs⟩ := π
  obtain ⟨htl, htape⟩ := proveRings_tape B K rings hhon c rs (RangeProof.context range t) t'
    (by rw [hvalues, hcts]; exact h)
  refine ⟨_, by rw [htl, hdraws], fun xs => (hiff _ xs t').mp (htape xs), fun tape t'' xs hl h' => ?_⟩
  exact proveRings_tape_inv B hgen K rings hhon c rs _ t'' tape xs (by rw [htl] at hl; exact hl)
    ((hiff tape xs t'').mpr h')

/-- C51 for range proofs: take a ciphertext with its opening, a value in the range, and any hash function.
Every accepted proof whose partial ciphertexts encrypt the decomposition of the value is the prover's
output for exactly one choice of its randomness: one scalar per partial ciphertext and one per ring item.
So with uniform randomness, given the partial ciphertexts (which are ElGamal encryptions with uniform
randomness), the prover's output is uniform among accepted proofs. -/
theorem C51_range_zk (B : Backend F E) (hgen : B.gen ≠ 0) (n : ℕ) (range : PreparedRange E)
    (hr : PreparedFor B n range) (K : PublicKey E) (k : F) (hK : K.element = k • B.gen)
    (ct : CiphertextWithValue F E ℕ) (hct : OpenedNat B K.element ct) (idx : List ℕ)
    (hidx : range.decompose B.debug ct.value = some idx) (proof : RangeProof F E) (t t' : Transcript)
    (h : proof.verify B K range ct.ciphertext t = some (.ok (), t'))
    (hpart : ∀ (i : ℕ) c j s, proof.partialCiphertexts[i]? = some c → idx[i]? = some j →
      range.inner.rings[i]? = some s → Encrypts B k c (((j * s.step : ℕ) : F) • B.gen)) :
    ∃! tape : List F,
      tape.length = (range.inner.rings.map (·.size)).sum + proof.partialCiphertexts.length ∧
      RangeProof.fromCiphertext B.withTape K range ct t tape = some (proof, t', []) := by
  obtain ⟨T, h1, h2, h3⟩ := range_tape B hgen n range hr K k hK ct hct idx hidx proof t t' h hpart
  refine ⟨T, ⟨h1, by simpa using h2 []⟩, fun tape h' => ?_⟩
  simpa using h3 tape t' [] (by rw [h1, h'.1]) h'.2

/-- Range 0..17 with two rings. -/
def exampleRange : PreparedRange (ZMod 101) :=
  ⟨⟨[⟨4, 4⟩, ⟨5, 1⟩]⟩, [[0, 4, 8, 12], [0, 1, 2, 3, 4]]⟩

/-- It is what the crate computes, so all theorems above apply. -/
theorem exampleRange_prepared : PreparedFor B101 17 exampleRange :=
  ⟨RangeDecomposition.exactLowerLenEstimate, C27_estimate_exact, by norm_num, by norm_num,
    ⟨[⟨4, 4⟩, ⟨5, 1⟩]⟩, by decide +kernel, rfl⟩

/-- Encrypting 16 with a proof; the proof is accepted. -/
example : ∃ ct proof rng', (⟨[42], 42⟩ : PublicKey (ZMod 101)).encryptRange B101 exampleRange 16 (3 : ℕ) =
      some ((ct, proof), rng') ∧
    (⟨[42], 42⟩ : PublicKey (ZMod 101)).verifyRange B101 exampleRange ct proof = some (.ok ()) ∧
    SecretKey.decryptToElement (42 : ZMod 101) ct = 16 := by
  obtain ⟨⟨⟨ct, proof⟩, rng'⟩, h⟩ := (C30_encrypt_range_total B101 B101_total 17 exampleRange
    exampleRange_prepared ⟨[42], 42⟩ 16 (3 : ℕ)).mpr (by norm_num)
  obtain ⟨h1, h2⟩ := C30_encrypt_range B101 17 exampleRange exampleRange_prepared ⟨[42], 42⟩ 42
    (by decide) 16 _ _ ct proof h
  exact ⟨ct, proof, rng', h, h1, h2.trans (by decide)⟩

/-- For a hash function that always answers 7, any data of the right lengths are an accepted proof. -/
theorem exampleRange_accepted (proof : RangeProof (ZMod 101) (ZMod 101)) (h1 : proof.partialCiphertexts.length = 1)
    (h2 : proof.inner.commonChallenge = 7) (h3 : proof.inner.ringResponses.length = 9) (ct : Ciphertext (ZMod 101))
    (t : Transcript) : ∃ t', proof.verify (B101.withHash fun _ => 7) ⟨[42], 42⟩ exampleRange ct t =
      some (.ok (), t') := by
  obtain ⟨⟨r, t'⟩, h⟩ := C50_range_verify_total (B101.withHash fun _ => 7) B101_total proof ⟨[42], 42⟩
    exampleRange ct t
  have h' := h
  rw [RangeProof.verify_eq (by rw [h1]; rfl)] at h'
  obtain ⟨t1, -, -, hr⟩ := (RingProof.verify_eq_some (by rw [h3]; rfl)).mp h'
  rw [h2, checkChallenge_self] at hr
  subst hr
  exact ⟨t', h⟩

/-- The exceptional case of C31 is real: for a hash function that always answers 7, a proof for a
ciphertext of 50 is accepted; the same proof is accepted in two contexts (C13). -/
example (t : Transcript) : ∃ t', (⟨[⟨1, 2⟩], ⟨7, [1, 2, 3, 4, 5, 6, 7, 8, 9]⟩⟩ :
      RangeProof (ZMod 101) (ZMod 101)).verify (B101.withHash fun _ => 7) ⟨[42], 42⟩ exampleRange
        ⟨1, 92⟩ t = some (.ok (), t') ∧
    SecretKey.decryptToElement (42 : ZMod 101) (⟨1, 92⟩ : Ciphertext (ZMod 101)) = 50 := by
  obtain ⟨⟨r, t'⟩, h⟩ := C50_range_verify_total (B101.withHash fun _ => 7) B101_total
    (⟨[⟨1, 2⟩], ⟨7, [1, 2, 3, 4, 5, 6, 7, 8, 9]⟩⟩ : RangeProof (ZMod 101) (ZMod 101)) ⟨[42], 42⟩
    exampleRange ⟨1, 92⟩ t
  have h' := h
  rw [RangeProof.verify_eq rfl] at h'
  obtain ⟨t1, -, -, hr⟩ := (RingProof.verify_eq_some (by rfl)).mp h'
  rw [checkChallenge_self] at hr
  subst hr
  exact ⟨t', h, by decide⟩

/-- Hypotheses of C51: an accepted proof for the value 16 = 3 * 4 + 4 with a partial ciphertext of 12. -/
example (t : Transcript) : ∃ t', (⟨[⟨1, 54⟩], ⟨7, [1, 2, 3, 4, 5, 6, 7, 8, 9]⟩⟩ :
      RangeProof (ZMod 101) (ZMod 101)).verify (B101.withHash fun _ => 7) ⟨[42], 42⟩ exampleRange
        ⟨2, 100⟩ t = some (.ok (), t') ∧
    ∃! tape : List (ZMod 101), tape.length = 10 ∧
      RangeProof.fromCiphertext (B101.withHash fun _ => 7).withTape ⟨[42], 42⟩ exampleRange
        ⟨⟨⟨2, 100⟩, 2⟩, 16⟩ t tape =
          some (⟨[⟨1, 54⟩], ⟨7, [1, 2, 3, 4, 5, 6, 7, 8, 9]⟩⟩, t', []) := by
  obtain ⟨⟨r, t'⟩, h⟩ := C50_range_verify_total (B101.withHash fun _ => 7) B101_total
    (⟨[⟨1, 54⟩], ⟨7, [1, 2, 3, 4, 5, 6, 7, 8, 9]⟩⟩ : RangeProof (ZMod 101) (ZMod 101)) ⟨[42], 42⟩
    exampleRange ⟨2, 100⟩ t
  have h' := h
  rw [RangeProof.verify_eq rfl] at h'
  obtain ⟨t1, -, -, hr⟩ := (RingProof.verify_eq_some (by rfl)).mp h'
  rw [checkChallenge_self] at hr
  subst hr
  refine ⟨t', h, C51_range_zk (B101.withHash fun _ => 7) (by decide) 17 exampleRange
    exampleRange_prepared ⟨[42], 42⟩ 42 (by decide) ⟨⟨⟨2, 100⟩, 2⟩, 16⟩ ⟨by decide, by decide⟩ [3, 4]
    (by decide +kernel) _ t t' h ?_⟩
  intro i c j s h1 h2 h3
  match i with
  | 0 =>
    cases h1; cases h2; cases h3
    exact ⟨1, by decide, by decide⟩
  | i + 1 => cases h1

/-! ## More examples -/

/-- Ranges up to the largest possible. -/
example : ∃ (d : RangeDecomposition) (range : PreparedRange (ZMod 101)), PreparedRange.new B101 d = some range ∧
    PreparedFor B101 (2 ^ 64 - 3) range := by
  obtain ⟨d, range, -, h1, h2, -⟩ := C26_prepared_total B101 _ C27_estimate_exact (2 ^ 64 - 3) (by norm_num) le_rfl
  exact ⟨d, range, h1, h2⟩

example : exampleRange.decompose false 17 = none ∧
    ∃ idx, exampleRange.decompose false 11 = some idx ∧ Represents [⟨4, 4⟩, ⟨5, 1⟩] idx 11 :=
  ⟨(C26_prepared_decompose B101 17 exampleRange exampleRange_prepared false 17).1 le_rfl,
    (C26_prepared_decompose B101 17 exampleRange exampleRange_prepared false 11).2 (by norm_num)⟩

/-- The ciphertext `(2, 100)` of 16 with randomness 2. -/
example (t : Transcript) : ∃ proof t', (proof : RangeProof (ZMod 101) (ZMod 101)).verify B101 ⟨[42], 42⟩ exampleRange
    ⟨2, 100⟩ t = some (.ok (), t') := by
  obtain ⟨⟨proof, t', rng'⟩, h⟩ := C30_range_total B101 B101_total 17 exampleRange exampleRange_prepared ⟨[42], 42⟩
    ⟨⟨⟨2, 100⟩, 2⟩, 16⟩ ⟨by decide, by decide⟩ (by norm_num) t (3 : ℕ)
  exact ⟨proof, t', C30_range_complete B101 17 exampleRange exampleRange_prepared ⟨[42], 42⟩ ⟨⟨⟨2, 100⟩, 2⟩, 16⟩
    ⟨by decide, by decide⟩ t t' _ _ proof h⟩

example (t : Transcript) : RangeProof.fromCiphertext B101 ⟨[42], 42⟩ exampleRange ⟨⟨⟨2, 0⟩, 2⟩, 17⟩ t (3 : ℕ) = none :=
  C30_range_panics B101 17 exampleRange exampleRange_prepared ⟨[42], 42⟩ ⟨⟨⟨2, 0⟩, 2⟩, 17⟩ le_rfl t (3 : ℕ)

/-- A proof for a ciphertext of 50, accepted for a constant hash function: a ring is forged. -/
example (t : Transcript) : ∃ (i : ℕ) (values responses : List (ZMod 101)) (c : Ciphertext (ZMod 101)) (base : List Entry)
    (last : Bytes × Bytes), RingForged (B101.withHash fun _ => 7) 42 base values responses c 7 last := by
  obtain ⟨t', h⟩ := exampleRange_accepted ⟨[⟨1, 2⟩], ⟨7, [1, 2, 3, 4, 5, 6, 7, 8, 9]⟩⟩ rfl rfl rfl ⟨1, 92⟩ t
  obtain ⟨x, hx, h⟩ | ⟨i, ring, c, enc, terms, last, -, -, -, -, -, h⟩ := C31_range_sound (B101.withHash fun _ => 7) 17
    exampleRange exampleRange_prepared ⟨[42], 42⟩ 42 (by decide) _ _ t t' h
  · obtain ⟨r, h1, h2⟩ := h
    obtain rfl : r = 1 := by simpa [B101, toy] using h1.symm
    interval_cases x <;> exact absurd h2 (by decide)
  · exact ⟨i, _, _, c, _, last, h⟩

example (t : Transcript) : ∃ t', (⟨[], ⟨7, []⟩⟩ : RangeProof (ZMod 101) (ZMod 101)).verify B101 ⟨[42], 42⟩ exampleRange
    ⟨1, 92⟩ t = some (.error (.LenMismatch "admissible values" 1 2), t') :=
  (C16_range_len_mismatch B101 _ ⟨[42], 42⟩ exampleRange ⟨1, 92⟩ t).1 (by decide)

/-- With SEC1-like encoding, a proof of zeros makes the verifier panic. -/
example (t : Transcript) : (⟨[⟨1, 2⟩], ⟨0, List.replicate 9 0⟩⟩ : RangeProof (ZMod 101) (ZMod 101)).verify S101
    ⟨[2, 42], 42⟩ exampleRange ⟨1, 92⟩ t = none :=
  C50_range_verify_panics_sec1 S101 S101_sec1 17 exampleRange
    ⟨RangeDecomposition.exactLowerLenEstimate, C27_estimate_exact, by norm_num, by norm_num,
      ⟨[⟨4, 4⟩, ⟨5, 1⟩]⟩, by decide +kernel, rfl⟩ ⟨[2, 42], 42⟩ ⟨1, 92⟩ [⟨1, 2⟩] rfl t

/-- A proof accepted for two ciphertexts in two contexts, for a constant hash function. -/
example : ∃ t₁' t₂' : Transcript, t₁'.log ≠ t₂'.log ∧ (B101.withHash fun _ => 7).challenge t₁'.log = 7 := by
  obtain ⟨t₁', h₁⟩ := exampleRange_accepted ⟨[⟨1, 2⟩], ⟨7, [1, 2, 3, 4, 5, 6, 7, 8, 9]⟩⟩ rfl rfl rfl ⟨1, 92⟩
    (Transcript.new "a")
  obtain ⟨t₂', h₂⟩ := exampleRange_accepted ⟨[⟨1, 2⟩], ⟨7, [1, 2, 3, 4, 5, 6, 7, 8, 9]⟩⟩ rfl rfl rfl ⟨1, 93⟩
    (Transcript.new "b")
  exact ⟨t₁', t₂', (C13_range_binding (B101.withHash fun _ => 7) _ ⟨[42], 42⟩ ⟨[42], 42⟩ (by unfold WellFormedKey; decide)
    (by unfold WellFormedKey; decide) 17 17 exampleRange exampleRange exampleRange_prepared exampleRange_prepared
    _ _ _ _ _ _ h₁ h₂ (.inl (by decide))).1, rfl⟩

end ElasticElgamal
