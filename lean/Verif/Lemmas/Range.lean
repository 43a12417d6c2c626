import Verif.Model.Proofs.Range
import Verif.Lemmas.RangeDecomp
import Verif.Lemmas.RingSound
import Verif.Spec.Prepared

/-!
# Lemmas about range proofs
-/

set_option autoImplicit false
set_option linter.unusedSectionVars false

namespace ElasticElgamal

open Spec

variable {F E : Type} [Field F] [AddCommGroup E] [Module F E]

theorem PreparedRange.new_nested {B : Backend F E} {n : ℕ} {d : RangeDecomposition}
    (h : Nested n d.rings) (hn : n < 2 ^ 64) :
    PreparedRange.new B d = some ⟨d, d.rings.map (ringValues B)⟩ := by
  have h1 : ∀ s ∈ d.rings, ((List.range s.size).mapM fun i =>
      (mulU64 B.debug i s.step).bind fun value => some (B.mulGen (value : F))) =
        some (ringValues B s) := by
    intro s hs
    apply mapM_option_pure
    intro i hi
    rw [List.mem_range] at hi
    have hu := h.upper
    have hle : (s.size - 1) * s.step ≤ (d.rings.map fun s => (s.size - 1) * s.step).sum :=
      List.single_le_sum (by simp) _ (List.mem_map_of_mem hs)
    have : i * s.step ≤ (s.size - 1) * s.step := Nat.mul_le_mul_right _ (by omega)
    rw [mulU64_of_lt (by omega), Option.bind_some, Backend.mulGen]
  have h2 := mapM_option_pure (f := fun s : RingSpec => (List.range s.size).mapM fun i =>
      (mulU64 B.debug i s.step).bind fun value => some (B.mulGen (value : F)))
      (g := ringValues B) h1
  simp only [PreparedRange.new, Option.bind_eq_bind, Option.pure_def, h2, Option.bind_some]

/-- What is used about prepared ranges. -/
structure RangeFacts (B : Backend F E) (n : ℕ) (range : PreparedRange E) : Prop where
  nested : Nested n range.inner.rings
  lt : n < 2 ^ 64
  size_le : (range.inner.rings.map (·.size)).sum ≤ n
  values : range.admissibleValues = range.inner.rings.map (ringValues B)

theorem Spec.PreparedFor.facts {B : Backend F E} {n : ℕ} {range : PreparedRange E}
    (h : PreparedFor B n range) : RangeFacts B n range := by
  obtain ⟨est, he, h2, hn, d, hd, hr⟩ := h
  obtain ⟨o, h1, h3⟩ := optimal_spec (dbg := B.debug) he h2 hn
  rw [h1] at hd
  cases hd
  rw [PreparedRange.new_nested h3.nested (by omega)] at hr
  cases hr
  refine ⟨h3.nested, by omega, ?_, rfl⟩
  have := h3.best _ (Nested.just n h2)
  have h4 := decLen_eq o.decomposition.rings
  have h5 := List.length_pos_iff.mpr h3.nested.ne_nil
  simp only [Beats, lexLe, h3.len] at this
  have h6 : decLen [⟨n, 1⟩] = n + 2 := by simp [decLen]
  simp only
  omega

theorem RangeFacts.decompose {B : Backend F E} {n : ℕ} {range : PreparedRange E}
    (h : RangeFacts B n range) {dbg : Bool} {v : ℕ} (hv : v < n) :
    ∃ idx, range.decompose dbg v = some idx ∧ Represents range.inner.rings idx v := by
  have := h.lt
  obtain ⟨idx, h4, hi⟩ := h.nested.decomposeLoop dbg (m := 1) (v := v) (by omega) (by omega)
  rw [Nat.div_one, Nat.min_eq_left (by omega)] at hi h4
  rw [scale_one] at h4
  refine ⟨idx, ?_, hi⟩
  simp [PreparedRange.decompose, RangeDecomposition.decompose, h4, guard,
    upperBound_nested dbg h.lt h.nested, hv]

theorem RangeFacts.decompose_none {B : Backend F E} {n : ℕ} {range : PreparedRange E}
    (h : RangeFacts B n range) {dbg : Bool} {v : ℕ} (hv : n ≤ v) :
    range.decompose dbg v = none := by
  have : ¬ v < n := by omega
  simp [PreparedRange.decompose, guard, upperBound_nested dbg h.lt h.nested, this]

theorem RangeFacts.sizes {B : Backend F E} {n : ℕ} {range : PreparedRange E}
    (h : RangeFacts B n range) :
    (range.admissibleValues.map List.length).sum = (range.inner.rings.map (·.size)).sum := by
  rw [h.values, List.map_map]
  simp [Function.comp_def, ringValues]

/-! ## Ring steps -/

theorem runRingSteps_append [DecidableEq E] {B : Backend F E} (s₁ s₂ : List (RingStep F E)) :
    ∀ (b : RingProofBuilder B), runRingSteps B (s₁ ++ s₂) b =
      (runRingSteps B s₁ b).bind fun p => (runRingSteps B s₂ p.2).map fun q => (p.1 ++ q.1, q.2) := by
  induction s₁ with
  | nil => intro b; simp [runRingSteps]
  | cons s s₁ ih =>
    intro b
    simp only [List.cons_append, runRingSteps, ih, Option.bind_eq_bind]
    cases runRingStep B s b with
    | none => rfl
    | some p =>
      simp only [Option.bind_some]
      cases runRingSteps B s₁ p.2 with
      | none => rfl
      | some q =>
        simp only [Option.bind_some, Option.pure_def]
        cases runRingSteps B s₂ q.2 with
        | none => rfl
        | some r => rfl

theorem addPrecomputedValue_receiver [DecidableEq E] {B : Backend F E} {b b' : RingProofBuilder B}
    {ct : ExtendedCiphertext F E} {values : List E} {i : ℕ}
    (h : b.addPrecomputedValue B ct values i = some b') : b'.receiver = b.receiver := by
  simp only [RingProofBuilder.addPrecomputedValue, Option.bind_eq_bind, Option.bind_eq_some_iff,
    Option.pure_def, Option.some.injEq] at h
  obtain ⟨-, -, -, -, rfl⟩ := h
  rfl

theorem addValue_spec [DecidableEq E] {B : Backend F E} {b b' : RingProofBuilder B}
    {ct : ExtendedCiphertext F E} {values : List E} {i : ℕ}
    (h : b.addValue B values i = some (ct, b')) :
    b'.receiver = b.receiver ∧ ct.inner.random = ct.randomScalar • B.gen ∧
    ∃ v, values[i]? = some v ∧ ct.inner.blinded = v + ct.randomScalar • b.receiver.element := by
  simp only [RingProofBuilder.addValue, Option.bind_eq_bind, Option.bind_eq_some_iff,
    Option.pure_def, Option.some.injEq, Prod.mk.injEq] at h
  obtain ⟨v, hv, b1, h1, rfl, rfl⟩ := h
  have hr := addPrecomputedValue_receiver h1
  simp only at hr
  exact ⟨hr, by simp only [ExtendedCiphertext.new, Backend.mulGen], v, hv,
    by simp only [ExtendedCiphertext.new]⟩

/-- `add_value` steps for the given items. -/
def valueSteps (items : List (ℕ × List E)) : List (RingStep F E) :=
  items.map fun p => ⟨none, p.2, p.1⟩

/-- Sum of the selected values. -/
def selectedSum (items : List (ℕ × List E)) : E :=
  (items.map fun p => (p.2[p.1]?).getD 0).sum

theorem addValues_spec [DecidableEq E] {B : Backend F E} (items : List (ℕ × List E)) :
    ∀ {cum cum' : ExtendedCiphertext F E} {b b' : RingProofBuilder B} {cts : List (Ciphertext E)},
    RangeProof.addValues B items cum b = some (cts, cum', b') →
    runRingSteps B (valueSteps items) b = some (cts, b') ∧ b'.receiver = b.receiver ∧
    cts.length = items.length ∧
    cum'.inner = cts.foldl (fun acc c => acc.add c) cum.inner ∧
    ∀ x : E, cum.inner.random = cum.randomScalar • B.gen →
      cum.inner.blinded = x + cum.randomScalar • b.receiver.element →
      cum'.inner.random = cum'.randomScalar • B.gen ∧
      cum'.inner.blinded = x + selectedSum items + cum'.randomScalar • b.receiver.element := by
  induction items with
  | nil =>
    intro cum cum' b b' cts h
    simp only [RangeProof.addValues, Option.some.injEq, Prod.mk.injEq] at h
    obtain ⟨rfl, rfl, rfl⟩ := h
    exact ⟨rfl, rfl, rfl, rfl, fun x h1 h2 => ⟨h1, by simpa [selectedSum] using h2⟩⟩
  | cons p items ih =>
    intro cum cum' b b' cts h
    simp only [RangeProof.addValues, Option.bind_eq_bind, Option.bind_eq_some_iff, Option.pure_def,
      Option.some.injEq, Prod.mk.injEq, Prod.exists] at h
    obtain ⟨ct, b1, h1, cts2, cum2, b2, h2, rfl, rfl, rfl⟩ := h
    obtain ⟨hr, hrand, v, hv, hbl⟩ := addValue_spec h1
    obtain ⟨i1, i2, i3, i4, i5⟩ := ih h2
    refine ⟨?_, i2.trans hr, by simp [i3], i4, fun x hx1 hx2 => ?_⟩
    · show runRingSteps B (⟨none, p.2, p.1⟩ :: valueSteps items) b = _
      simp only [runRingSteps, runRingStep, h1, Option.bind_eq_bind, Option.bind_some, i1,
        Option.pure_def]
    · obtain ⟨j1, j2⟩ := i5 (x + v) (by
        simp only [ExtendedCiphertext.add, Ciphertext.add, SecretKey.add, hrand, hx1]
        module) (by
        simp only [ExtendedCiphertext.add, Ciphertext.add, SecretKey.add, hbl, hx2, hr]
        module)
      refine ⟨j1, ?_⟩
      rw [j2, hr]
      simp only [selectedSum, List.map_cons, List.sum_cons, hv, Option.getD_some]
      rw [add_assoc x]

theorem addValues_of_run [DecidableEq E] {B : Backend F E} (items : List (ℕ × List E)) :
    ∀ (cum : ExtendedCiphertext F E) {b b' : RingProofBuilder B} {cts : List (Ciphertext E)},
    runRingSteps B (valueSteps items) b = some (cts, b') →
    ∃ cum', RangeProof.addValues B items cum b = some (cts, cum', b') := by
  induction items with
  | nil =>
    intro cum b b' cts h
    simp only [valueSteps, List.map_nil, runRingSteps, Option.some.injEq, Prod.mk.injEq] at h
    obtain ⟨rfl, rfl⟩ := h
    exact ⟨cum, rfl⟩
  | cons p items ih =>
    intro cum b b' cts h
    change runRingSteps B (⟨none, p.2, p.1⟩ :: valueSteps items) b = _ at h
    simp only [runRingSteps, runRingStep, Option.bind_eq_bind, Option.bind_eq_some_iff,
      Option.pure_def, Option.some.injEq, Prod.mk.injEq, Prod.exists] at h
    obtain ⟨ct, b1, h1, cts2, b2, h2, rfl, rfl⟩ := h
    obtain ⟨cum', hc⟩ := ih (cum.add ct) h2
    exact ⟨cum', by simp [RangeProof.addValues, h1, hc]⟩

/-! ## Creating and verifying range proofs -/

theorem foldl_add_eq (cts : List (Ciphertext E)) : ∀ (acc : Ciphertext E),
    cts.foldl (fun acc c => acc.add c) acc =
      ⟨acc.random + (cts.map (·.random)).sum, acc.blinded + (cts.map (·.blinded)).sum⟩ := by
  induction cts with
  | nil => intro acc; simp
  | cons c cts ih =>
    intro acc
    rw [List.foldl_cons, ih]
    simp [Ciphertext.add, add_assoc]

theorem rangeCiphertexts_eq (partials : List (Ciphertext E)) (ct : Ciphertext E) :
    partials ++ [ct.sub (partials.foldl (fun acc c => acc.add c) Ciphertext.zero)] =
      rangeCiphertexts partials ct := by
  simp [foldl_add_eq, rangeCiphertexts, Ciphertext.sub, Ciphertext.zero]

theorem Spec.Encrypts.add {B : Backend F E} {k : F} {a b : Ciphertext E} {x y : E}
    (ha : Encrypts B k a x) (hb : Encrypts B k b y) : Encrypts B k (a.add b) (x + y) := by
  obtain ⟨r, h1, h2⟩ := ha
  obtain ⟨s, h3, h4⟩ := hb
  refine ⟨r + s, ?_, ?_⟩
  · simp only [Ciphertext.add, h1, h3]; module
  · simp only [Ciphertext.add, h2, h4]; module

theorem encrypts_sum {B : Backend F E} {k : F} (rings : List RingSpec) :
    ∀ (cts : List (Ciphertext E)), cts.length = rings.length →
    (∀ (i : ℕ) s c, rings[i]? = some s → cts[i]? = some c →
      ∃ v ∈ ringValues B s, Encrypts B k c v) →
    ∃ idx x, Represents rings idx x ∧
      Encrypts B k ⟨(cts.map (·.random)).sum, (cts.map (·.blinded)).sum⟩ ((x : F) • B.gen) := by
  induction rings with
  | nil =>
    intro cts hl _
    obtain rfl := List.length_eq_zero_iff.mp hl
    exact ⟨[], 0, ⟨.nil, rfl⟩, 0, by simp, by simp⟩
  | cons s rings ih =>
    intro cts hl h
    obtain ⟨c, cts, rfl⟩ := List.exists_cons_of_length_eq_add_one hl
    obtain ⟨idx, x, ⟨hr1, hr2⟩, he⟩ := ih cts (by simpa using hl) fun i s' c' h1 h2 =>
      h (i + 1) s' c' (by simpa using h1) (by simpa using h2)
    obtain ⟨v, hv, hc⟩ := h 0 s c (by simp) (by simp)
    obtain ⟨j, hj, rfl⟩ := List.mem_map.mp hv
    refine ⟨j :: idx, j * s.step + x, ⟨.cons (List.mem_range.mp hj) hr1, by simp [hr2]⟩, ?_⟩
    have := hc.add he
    rw [← add_smul, ← Nat.cast_add] at this
    simpa [Ciphertext.add] using this

namespace RangeProof

/-- Context of the inner ring proof. -/
def context (range : PreparedRange E) (t : Transcript) : Transcript :=
  (t.startProof "encryption_range_proof").appendMessage "range" range.inner.display

theorem context_log (range : PreparedRange E) (t : Transcript) :
    (context range t).log = rangeContext t.log range.inner.display := by
  simp [context, rangeContext, Transcript.startProof, Transcript.appendMessage]

variable [DecidableEq F]

theorem verify_eq {B : Backend F E} {proof : RangeProof F E} {K : PublicKey E}
    {range : PreparedRange E} {ct : Ciphertext E} {t : Transcript}
    (hl : proof.partialCiphertexts.length + 1 = range.admissibleValues.length) :
    proof.verify B K range ct t = proof.inner.verify B K range.admissibleValues
      (rangeCiphertexts proof.partialCiphertexts ct) (context range t) := by
  simp only [verify, checkLengths_ok.mpr hl, ← rangeCiphertexts_eq]
  rfl

theorem verify_ok_length {B : Backend F E} {proof : RangeProof F E} {K : PublicKey E}
    {range : PreparedRange E} {ct : Ciphertext E} {t t' : Transcript}
    (h : proof.verify B K range ct t = some (.ok (), t')) :
    proof.partialCiphertexts.length + 1 = range.admissibleValues.length := by
  by_contra hl
  simp [verify, checkLengths_ne hl] at h

end RangeProof

/-- Values selected by a representation of `x` sum up to `[x]G`. -/
theorem Spec.Represents.selectedSum {B : Backend F E} {rings : List RingSpec} {idx : List ℕ} {x : ℕ}
    (h : Represents rings idx x) :
    selectedSum (idx.zip (rings.map (ringValues B))) = (x : F) • B.gen := by
  obtain ⟨h1, rfl⟩ := h
  induction h1 with
  | nil => simp [ElasticElgamal.selectedSum]
  | cons hi _ ih =>
    rename_i i s idx rings _
    simp only [List.map_cons, List.zip_cons_cons, ElasticElgamal.selectedSum, List.map_cons,
      List.sum_cons, List.zipWith_cons_cons, Nat.cast_add, add_smul] at ih ⊢
    rw [ih]
    congr 1
    simp [ringValues, hi]

theorem selectedSum_append (a b : List (ℕ × List E)) :
    selectedSum (a ++ b) = selectedSum a + selectedSum b := by
  simp [selectedSum]

theorem Represents_length {rings : List RingSpec} {idx : List ℕ} {x : ℕ} (h : Represents rings idx x) :
    idx.length = rings.length := h.1.length_eq

/-- Split of the zipped items into the last one and the others. -/
theorem RangeFacts.items {B : Backend F E} {n : ℕ} {range : PreparedRange E}
    (hf : RangeFacts B n range) {idx : List ℕ} {x : ℕ} (hr : Represents range.inner.rings idx x) :
    idx ≠ [] ∧ ∃ init i vs, idx.zip range.admissibleValues = init ++ [(i, vs)] ∧
      (idx.zip range.admissibleValues).take (idx.length - 1) = init ∧
      ((idx.zip range.admissibleValues).drop (idx.length - 1)).head? = some (i, vs) ∧
      init.length + 1 = range.admissibleValues.length ∧
      (init.map (·.2)) ++ [vs] = range.admissibleValues ∧
      (∀ p ∈ init ++ [(i, vs)], p.1 < p.2.length) ∧
      selectedSum init + (vs[i]?).getD 0 = (x : F) • B.gen := by
  have hl := Represents_length hr
  have hlv : range.admissibleValues.length = idx.length := by rw [hf.values, List.length_map, hl]
  have hpos := List.length_pos_iff.mpr hf.nested.ne_nil
  have hne : idx ≠ [] := List.length_pos_iff.mp (by omega)
  have hzl : (idx.zip range.admissibleValues).length = idx.length := by
    rw [List.length_zip]; omega
  have hzne : idx.zip range.admissibleValues ≠ [] := List.length_pos_iff.mp (by omega)
  obtain ⟨init, ⟨i, vs⟩, heq⟩ : ∃ init last, idx.zip range.admissibleValues = init ++ [last] :=
    ⟨_, _, (List.dropLast_append_getLast hzne).symm⟩
  have hil : init.length = idx.length - 1 := by
    rw [heq, List.length_append, List.length_singleton] at hzl; omega
  refine ⟨hne, init, i, vs, heq, ?_, ?_, by omega, ?_, ?_, ?_⟩
  · rw [heq, ← hil]; simp
  · rw [heq, ← hil]; simp
  · have := congrArg (List.map Prod.snd) heq
    rw [List.map_snd_zip (by omega)] at this
    simpa using this.symm
  · rw [← heq, hf.values]
    intro p hp
    rw [List.mem_iff_getElem?] at hp
    obtain ⟨j, hj⟩ := hp
    rw [List.getElem?_zip_eq_some, List.getElem?_map] at hj
    obtain ⟨hj1, hj2⟩ := hj
    obtain ⟨s, hs, hs2⟩ := Option.map_eq_some_iff.mp hj2
    have := List.forall₂_iff_get.mp hr.1
    obtain ⟨k1, k2⟩ := List.getElem?_eq_some_iff.mp hj1
    obtain ⟨k3, k4⟩ := List.getElem?_eq_some_iff.mp hs
    have := this.2 j k1 k3
    simp only [List.get_eq_getElem, k2, k4] at this
    rw [← hs2]
    simpa [ringValues] using this
  · have := hr.selectedSum (B := B)
    rw [← hf.values, heq, selectedSum_append] at this
    simpa [selectedSum] using this

namespace RangeProof

variable [DecidableEq F] [DecidableEq E]

theorem fromCiphertext_spec {B : Backend F E} {n : ℕ} {range : PreparedRange E}
    (hf : RangeFacts B n range) {K : PublicKey E} {ct : CiphertextWithValue F E ℕ}
    {t t' : Transcript} {rng rng' : B.Rng} {proof : RangeProof F E}
    (h : fromCiphertext B K range ct t rng = some (proof, t', rng')) :
    ct.value < n ∧ proof.partialCiphertexts.length + 1 = range.admissibleValues.length ∧
    ∃ steps builder, steps.map (·.values) = range.admissibleValues ∧
      runRingSteps B steps (RingProofBuilder.new B K
        (List.replicate (steps.map (·.values.length)).sum 0) (context range t) rng) =
          some (rangeCiphertexts proof.partialCiphertexts ct.ciphertext, builder) ∧
      builder.build B = some (proof.inner.commonChallenge, proof.inner.ringResponses, t', rng') ∧
      (OpenedNat B K.element ct → ∀ s ∈ steps, s.Honest B K.element) := by
  have hv : ct.value < n := by
    by_contra hv
    simp [fromCiphertext, hf.decompose_none (not_lt.mp hv)] at h
  obtain ⟨idx, hd, hr⟩ := hf.decompose (dbg := B.debug) hv
  obtain ⟨hne, init, i, vs, heq, htake, hdrop, hlen, hvals, hidx, hsum⟩ := hf.items hr
  simp only [fromCiphertext, hd, Option.bind_eq_bind, Option.bind_some, Option.bind_eq_some_iff,
    Option.pure_def, Option.some.injEq, Prod.mk.injEq, Prod.exists, htake, hdrop,
    ringsSize_eq B.debug (lt_of_le_of_lt hf.size_le hf.lt)] at h
  obtain ⟨-, -, -, -, pcts, cum, b1, hadd, b2, hb2, c, rs, t1, rng1, hbuild, rfl, rfl, rfl⟩ := h
  obtain ⟨hrun, hrec, hpl, hfold, hop⟩ := addValues_spec init hadd
  refine ⟨hv, by simp only [hpl]; exact hlen,
    valueSteps init ++ [⟨some (ct.inner.sub cum), vs, i⟩], b2, ?_, ?_, hbuild, ?_⟩
  · simpa [valueSteps, Function.comp_def] using hvals
  · have hs : ((valueSteps init ++ [(⟨some (ct.inner.sub cum), vs, i⟩ : RingStep F E)]).map
        (fun s : RingStep F E => s.values.length)).sum = (range.inner.rings.map (·.size)).sum := by
      rw [← hf.sizes, ← hvals]
      simp [valueSteps, Function.comp_def]
    rw [hs, runRingSteps_append, ← rangeCiphertexts_eq]
    simp only [context]
    rw [hrun]
    simp only [Option.bind_some, runRingSteps, runRingStep, Option.bind_eq_bind]
    rw [hb2]
    simp [ExtendedCiphertext.sub, hfold, ExtendedCiphertext.zero, CiphertextWithValue.ciphertext]
  · intro hct s hs ct' hct'
    rw [List.mem_append] at hs
    rcases hs with hs | hs
    · obtain ⟨p, -, rfl⟩ := List.mem_map.mp hs
      cases hct'
    · simp only [List.mem_singleton] at hs
      subst hs
      cases hct'
      have hi := hidx (i, vs) (by simp)
      simp only at hi
      obtain ⟨v, hv'⟩ : ∃ v, vs[i]? = some v := ⟨vs[i], by simp [hi]⟩
      obtain ⟨j1, j2⟩ := hop 0 (by simp [ExtendedCiphertext.zero, Ciphertext.zero])
        (by simp [ExtendedCiphertext.zero, Ciphertext.zero])
      obtain ⟨c1, c2⟩ := hct
      simp only [CiphertextWithValue.ciphertext, CiphertextWithValue.randomness] at c1 c2
      simp only [hv', Option.getD_some] at hsum
      refine ⟨v, hv', ?_, ?_⟩
      · simp only [ExtendedCiphertext.sub, Ciphertext.sub, SecretKey.sub, c1, j1]
        module
      · simp only [ExtendedCiphertext.sub, Ciphertext.sub, SecretKey.sub, c2, j2, ← hsum,
          RingProofBuilder.new]
        module

theorem fromCiphertext_total {B : Backend F E} (hT : B.TotalSer) {n : ℕ} {range : PreparedRange E}
    (hf : RangeFacts B n range) {K : PublicKey E} {ct : CiphertextWithValue F E ℕ}
    (hv : ct.value < n) (hct : OpenedNat B K.element ct) (t : Transcript) (rng : B.Rng) :
    ∃ out, fromCiphertext B K range ct t rng = some out := by
  obtain ⟨idx, hd, hr⟩ := hf.decompose (dbg := B.debug) hv
  obtain ⟨hne, init, i, vs, heq, htake, hdrop, hlen, hvals, hidx, hsum⟩ := hf.items hr
  have hsize : (range.inner.rings.map (·.size)).sum =
      (init.map (·.2.length)).sum + vs.length := by
    rw [← hf.sizes, ← hvals]; simp [Function.comp_def]
  have h0 : RingProofBuilder.Good B K (context range t) (range.inner.rings.map (·.size)).sum []
      (RingProofBuilder.new B K (List.replicate (range.inner.rings.map (·.size)).sum 0)
        (context range t) rng) :=
    ⟨rfl, rfl, trivial, rfl, by simp [RingProofBuilder.new]⟩
  have hz : (RingProofBuilder.new B K (List.replicate (range.inner.rings.map (·.size)).sum 0)
      (context range t) rng).Zeroed :=
    ⟨fun s h => (List.mem_replicate.mp h).2, by simp [RingProofBuilder.new]⟩
  have hon : ∀ s ∈ valueSteps (F := F) init, s.Honest B K.element := by
    intro s hs ct hct
    obtain ⟨p, -, rfl⟩ := List.mem_map.mp hs
    cases hct
  obtain ⟨cts, b1, hrun, hz1⟩ := RingProofBuilder.runRingSteps_total hT (valueSteps init) h0 hz
    (by simp [RingProofBuilder.new, hsize, valueSteps, Function.comp_def])
    (by
      intro s hs
      obtain ⟨p, hp, rfl⟩ := List.mem_map.mp hs
      exact hidx p (by simp [hp])) hon
  obtain ⟨hl1, hg1⟩ := RingProofBuilder.runRingSteps_good _ h0 hon hrun
  rw [List.nil_append] at hg1
  obtain ⟨cum, hadd⟩ := addValues_of_run init ExtendedCiphertext.zero hrun
  obtain ⟨-, hrec, hpl, hfold, hop⟩ := addValues_spec init hadd
  have hi := hidx (i, vs) (by simp)
  simp only at hi
  obtain ⟨v, hv'⟩ : ∃ v, vs[i]? = some v := ⟨vs[i], by simp [hi]⟩
  obtain ⟨j1, j2⟩ := hop 0 (by simp [ExtendedCiphertext.zero, Ciphertext.zero])
    (by simp [ExtendedCiphertext.zero, Ciphertext.zero])
  obtain ⟨c1, c2⟩ := hct
  simp only [CiphertextWithValue.ciphertext, CiphertextWithValue.randomness] at c1 c2
  simp only [hv', Option.getD_some] at hsum
  have hstep : (⟨some (ct.inner.sub cum), vs, i⟩ : RingStep F E).Honest B K.element := by
    intro ct' hct'
    cases hct'
    refine ⟨v, hv', ?_, ?_⟩
    · simp only [ExtendedCiphertext.sub, Ciphertext.sub, SecretKey.sub, c1, j1]
      module
    · simp only [ExtendedCiphertext.sub, Ciphertext.sub, SecretKey.sub, c2, j2, ← hsum,
        RingProofBuilder.new]
      module
  have hlast : (b1.ringResponses).length = vs.length := by
    have h5 := hg1.2.2.2.2
    have : ((((valueSteps (F := F) init).map (·.values)).zip cts).map (·.1.length)).sum =
        (init.map (·.2.length)).sum := by
      have := congrArg (fun l => (l.map List.length).sum)
        (List.map_fst_zip (l₁ := (valueSteps (F := F) init).map (·.values)) (l₂ := cts)
          (by simp [hl1]))
      simpa [List.map_map, Function.comp_def, valueSteps] using this
    omega
  obtain ⟨ct2, b2, hrun2, hz2⟩ := RingProofBuilder.runRingSteps_total hT
    [(⟨some (ct.inner.sub cum), vs, i⟩ : RingStep F E)] hg1 hz1 (by simp [hlast])
    (by simpa using hi) (by simpa using hstep)
  obtain ⟨hl2, hg2⟩ := RingProofBuilder.runRingSteps_good _ hg1 (by simpa using hstep) hrun2
  have hb2 : b1.addPrecomputedValue B (ct.inner.sub cum) vs i = some b2 := by
    simp only [runRingSteps, runRingStep, Option.bind_eq_bind, Option.bind_eq_some_iff,
      Option.map_eq_some_iff, Option.pure_def, Option.some.injEq, Prod.mk.injEq, Prod.exists] at hrun2
    obtain ⟨_, b', ⟨b'', hb', rfl, rfl⟩, _, _, ⟨rfl, rfl⟩, -, rfl⟩ := hrun2
    exact hb'
  have hfull : b2.ringResponses = [] := by
    simp only [RingProofBuilder.addPrecomputedValue, Option.bind_eq_bind, Option.bind_eq_some_iff,
      Option.pure_def, Option.some.injEq] at hb2
    obtain ⟨-, -, -, -, rfl⟩ := hb2
    simp [hlast]
  obtain ⟨⟨c, rs, t1, rng1⟩, hout⟩ := RingProofBuilder.build_total hT hg2 hz2 hfull
  refine ⟨(⟨cts, ⟨c, rs⟩⟩, t1, rng1), ?_⟩
  have hda : B.debugAssert (idx.length = range.admissibleValues.length) = some () := by
    apply Backend.debugAssert_of
    rw [hf.values, List.length_map, Represents_length hr]
  simp only [context] at hadd
  simp only [fromCiphertext, hd, Option.bind_eq_bind, Option.bind_some, htake, hdrop, hda,
    ringsSize_eq B.debug (lt_of_le_of_lt hf.size_le hf.lt), guard, ne_eq, hne, not_false_eq_true,
    if_true, Option.pure_def, hadd, hb2, hout]

/-- The prover in terms of ring proof steps, when the sum of partial ciphertexts is known. -/
theorem fromCiphertext_iff {B : Backend F E} (hgen : B.gen ≠ 0) {n : ℕ} {range : PreparedRange E}
    (hf : RangeFacts B n range) {ct : CiphertextWithValue F E ℕ}
    {idx : List ℕ} (hd : range.decompose B.debug ct.value = some idx)
    (hr : Represents range.inner.rings idx ct.value) {init : List (ℕ × List E)} {i : ℕ} {vs : List E}
    (hne : idx ≠ [])
    (htake : (idx.zip range.admissibleValues).take (idx.length - 1) = init)
    (hdrop : ((idx.zip range.admissibleValues).drop (idx.length - 1)).head? = some (i, vs))
    {partials : List (Ciphertext E)} (hpl : partials.length = init.length)
    {cum : ExtendedCiphertext F E}
    (hcum : cum.inner = partials.foldl (fun acc c => acc.add c) Ciphertext.zero)
    (hcr : cum.inner.random = cum.randomScalar • B.gen) {π : RingProof F} {K : PublicKey E}
    {t t' : Transcript} {rng rng' : B.Rng} :
    fromCiphertext B K range ct t rng = some (⟨partials, π⟩, t', rng') ↔
      ∃ b, runRingSteps B (valueSteps init ++ [⟨some (ct.inner.sub cum), vs, i⟩])
        (RingProofBuilder.new B K (List.replicate (range.inner.rings.map (·.size)).sum 0)
          (context range t) rng) = some (rangeCiphertexts partials ct.ciphertext, b) ∧
        b.build B = some (π.commonChallenge, π.ringResponses, t', rng') := by
  have hda : B.debugAssert (idx.length = range.admissibleValues.length) = some () := by
    apply Backend.debugAssert_of
    rw [hf.values, List.length_map, Represents_length hr]
  have hz : (ExtendedCiphertext.zero : ExtendedCiphertext F E).inner = Ciphertext.zero := rfl
  have hopen : ∀ {cum' : ExtendedCiphertext F E} {b : RingProofBuilder B},
      addValues B init ExtendedCiphertext.zero (RingProofBuilder.new B K
        (List.replicate (range.inner.rings.map (·.size)).sum 0) (context range t) rng) =
          some (partials, cum', b) → cum' = cum := by
    intro cum' b h
    obtain ⟨-, -, -, h4, h5⟩ := addValues_spec init h
    have h6 : cum'.inner = cum.inner := by rw [h4, hcum, hz]
    have h7 := (h5 0 (by simp [ExtendedCiphertext.zero, Ciphertext.zero])
      (by simp [ExtendedCiphertext.zero, Ciphertext.zero])).1
    rw [h6, hcr] at h7
    have h8 := smul_left_injective F hgen h7
    obtain ⟨c1, c2⟩ := cum
    obtain ⟨d1, d2⟩ := cum'
    simp only at h6 h8
    rw [h6, h8]
  simp only [fromCiphertext, hd, Option.bind_eq_bind, Option.bind_some, htake, hdrop, hda,
    ringsSize_eq B.debug (lt_of_le_of_lt hf.size_le hf.lt), guard, ne_eq, hne, not_false_eq_true,
    if_true, Option.pure_def, runRingSteps_append]
  constructor
  · intro h
    simp only [Option.bind_eq_some_iff, Option.some.injEq, Prod.mk.injEq, Prod.exists,
      RangeProof.mk.injEq] at h
    obtain ⟨pcts, cum', b1, hadd, b2, hb2, c, rs, t1, rng1, hbuild, ⟨rfl, rfl⟩, rfl, rfl⟩ := h
    obtain ⟨hrun, -⟩ := addValues_spec init hadd
    obtain rfl := hopen hadd
    refine ⟨b2, ?_, hbuild⟩
    simp only [context]
    rw [hrun]
    simp only [Option.bind_some, runRingSteps, runRingStep, Option.bind_eq_bind, hb2,
      Option.map_some, Option.pure_def, Option.some.injEq, Prod.mk.injEq, and_true]
    rw [← rangeCiphertexts_eq, ← hcum]
    rfl
  · rintro ⟨b, hrun, hbuild⟩
    simp only [Option.bind_eq_some_iff, Option.map_eq_some_iff, runRingSteps, runRingStep,
      Option.bind_eq_bind, Option.pure_def, Option.some.injEq, Prod.mk.injEq, Prod.exists] at hrun
    obtain ⟨cts, b1, h1, _, b2, ⟨_, b3, ⟨b4, h4, rfl, rfl⟩, _, _, ⟨rfl, rfl⟩, rfl, rfl⟩, heq, rfl⟩ :=
      hrun
    obtain ⟨hcts, -⟩ := List.append_inj' heq rfl
    subst hcts
    obtain ⟨cum', hadd⟩ := addValues_of_run init ExtendedCiphertext.zero h1
    obtain rfl := hopen hadd
    simp only [context] at hadd
    simp only [hadd, h4, hbuild, Option.bind_some]

end RangeProof

theorem zip_opened {B : Backend F E} {K : E} (ρ : Ciphertext E → F) (partials : List (Ciphertext E)) :
    ∀ (init : List (ℕ × List E)), partials.length = init.length →
    (∀ q ∈ partials.zip init, ∃ v, q.2.2[q.2.1]? = some v ∧
      q.1.random = ρ q.1 • B.gen ∧ q.1.blinded = v + ρ q.1 • K) →
    (partials.map (·.random)).sum = (partials.map ρ).sum • B.gen ∧
    (partials.map (·.blinded)).sum = selectedSum init + (partials.map ρ).sum • K := by
  induction partials with
  | nil =>
    intro init hl _
    obtain rfl := List.length_eq_zero_iff.mp hl.symm
    simp [selectedSum]
  | cons c partials ih =>
    intro init hl h
    obtain ⟨p, init, rfl⟩ := List.exists_cons_of_length_eq_add_one hl.symm
    obtain ⟨i1, i2⟩ := ih init (by simpa using hl) fun q hq => h q (by simp [hq])
    obtain ⟨v, hv, h1, h2⟩ := h (c, p) (by simp)
    simp only at hv h1 h2
    constructor
    · simp only [List.map_cons, List.sum_cons, i1, h1]; module
    · simp only [List.map_cons, List.sum_cons, i2, h2, selectedSum, hv, Option.getD_some]; module

end ElasticElgamal
