import Verif.Lemmas.ChoicePrivacy
import Verif.Lemmas.Voting
import Verif.Spec.RangePrivacy

/-!
# Lemmas: simulation of values encrypted with range proofs
-/

set_option autoImplicit false
set_option linter.unusedSectionVars false

namespace ElasticElgamal

open Spec

variable {F E : Type} [Field F] [AddCommGroup E] [Module F E] [DecidableEq F] [DecidableEq E]

/-! ## Ciphertexts of the rings -/

theorem rangeCiphertexts_dropLast (l : List (Ciphertext E)) (h : l ≠ []) :
    rangeCiphertexts l.dropLast ⟨(l.map (·.random)).sum, (l.map (·.blinded)).sum⟩ = l := by
  conv_rhs => rw [← List.dropLast_append_getLast h]
  rw [rangeCiphertexts]
  congr 2
  have e1 : (l.map (·.random)).sum = (l.dropLast.map (·.random)).sum + (l.getLast h).random := by
    conv_lhs => rw [← List.dropLast_append_getLast h]
    simp
  have e2 : (l.map (·.blinded)).sum = (l.dropLast.map (·.blinded)).sum + (l.getLast h).blinded := by
    conv_lhs => rw [← List.dropLast_append_getLast h]
    simp
  refine Ciphertext.ext ?_ ?_
  · simp only [e1]; abel
  · simp only [e2]; abel

theorem dropLast_rangeCiphertexts (partials : List (Ciphertext E)) (ct : Ciphertext E) :
    (rangeCiphertexts partials ct).dropLast = partials ∧
    ct = ⟨((rangeCiphertexts partials ct).map (·.random)).sum, ((rangeCiphertexts partials ct).map (·.blinded)).sum⟩ := by
  refine ⟨by simp [rangeCiphertexts], Ciphertext.ext ?_ ?_⟩ <;> simp [rangeCiphertexts]

section
variable {range : PreparedRange E}

theorem ofFn_ne_nil {α : Type} {n : ℕ} (h : n ≠ 0) (f : Fin n → α) : List.ofFn f ≠ [] := by
  intro he
  have := congrArg List.length he
  simp at this
  exact h this

theorem makeRange_cts (hr : rangeRings range ≠ 0) (cts : Fin (rangeRings range) → Ciphertext E)
    (p : RangeScalars F range) :
    rangeCiphertexts (makeRange cts p).2.partialCiphertexts (makeRange cts p).1 = List.ofFn cts :=
  rangeCiphertexts_dropLast _ (ofFn_ne_nil hr _)

theorem makeRange_injective (hr : rangeRings range ≠ 0) {c c' : Fin (rangeRings range) → Ciphertext E}
    {p p' : RangeScalars F range} (h : makeRange c p = makeRange c' p') : c = c' ∧ p = p' := by
  constructor
  · have := congrArg (fun o : Ciphertext E × RangeProof F E => rangeCiphertexts o.2.partialCiphertexts o.1) h
    simp only [makeRange_cts hr] at this
    exact List.ofFn_injective this
  · simp only [makeRange, Prod.mk.injEq, RangeProof.mk.injEq, RingProof.mk.injEq] at h
    exact Prod.ext h.2.2.1 (List.ofFn_injective h.2.2.2)

/-- Every ciphertext with a proof of the right size is made of ciphertexts for the rings and scalars. -/
theorem exists_makeRange (out : Ciphertext E × RangeProof F E)
    (h1 : out.2.partialCiphertexts.length + 1 = rangeRings range)
    (h2 : out.2.inner.ringResponses.length = rangeItems range) :
    ∃ (c : Fin (rangeRings range) → Ciphertext E) (p : RangeScalars F range), out = makeRange c p ∧
      List.ofFn c = rangeCiphertexts out.2.partialCiphertexts out.1 := by
  obtain ⟨ct, partials, c, rs⟩ := out
  simp only at h1 h2
  have hl : (rangeCiphertexts partials ct).length = rangeRings range := by simp [rangeCiphertexts, h1]
  have hofn : List.ofFn (fun i : Fin (rangeRings range) => (rangeCiphertexts partials ct).get ⟨i, by rw [hl]; exact i.2⟩) =
      rangeCiphertexts partials ct := List.ext_getElem (by simp [hl]) fun i _ _ => by simp
  have hofn2 : List.ofFn (fun i : Fin (rangeItems range) => rs.get ⟨i, by rw [h2]; exact i.2⟩) = rs :=
    List.ext_getElem (by simp [h2]) fun i _ _ => by simp
  refine ⟨_, (c, fun i => rs.get ⟨i, by rw [h2]; exact i.2⟩), ?_, hofn⟩
  obtain ⟨e1, e2⟩ := dropLast_rangeCiphertexts partials ct
  rw [makeRange, hofn, hofn2, e1, ← e2]

end

/-! ## Programming -/

theorem rangePoint_spec (B : Backend F E) (hT : B.TotalSer) (H : List Entry → F) (K : PublicKey E) {n : ℕ}
    {range : PreparedRange E} (hf : RangeFacts B n range) (t : Transcript)
    (cts : Fin (rangeRings range) → Ciphertext E) (p : RangeScalars F range) :
    ∃ terms : List (E × E), terms.length = rangeRings range ∧
      (∀ H' : List Entry → F,
        (∀ enc i j x y, H' (ringQuery (ringBase (rangeContext t.log range.inner.display) K.bytes enc i) j x y) =
          H (ringQuery (ringBase (rangeContext t.log range.inner.display) K.bytes enc i) j x y)) →
        rangePoint (B.withHash H') K range t (makeRange cts p) =
          [(commonPoint B (rangeContext t.log range.inner.display) K.bytes terms, p.1)]) ∧
      ((∃ t', (makeRange cts p).2.verify (B.withHash H) K range (makeRange cts p).1 t = some (.ok (), t')) ↔
        Has H (rangePoint (B.withHash H) K range t (makeRange cts p))) := by
  have hr : rangeRings range ≠ 0 := (List.length_pos_iff.mpr hf.nested.ne_nil).ne'
  have hvl : range.admissibleValues.length = rangeRings range := by rw [hf.values]; simp [rangeRings]
  have hl : (makeRange cts p).2.partialCiphertexts.length + 1 = range.admissibleValues.length := by
    rw [hvl]
    simp [makeRange]
    omega
  have hver : ∀ H' : List Entry → F, (makeRange cts p).2.verify (B.withHash H') K range (makeRange cts p).1 t =
      (makeRange cts p).2.inner.verify (B.withHash H') K range.admissibleValues (List.ofFn cts)
        (RangeProof.context range t) := by
    intro H'
    rw [RangeProof.verify_eq hl, makeRange_cts hr]
  obtain ⟨terms, h1, h2, h3⟩ := ringPoint_spec B hT H K range.admissibleValues (List.ofFn cts)
    (RangeProof.context range t) (makeRange cts p).2.inner (by
      rw [hf.sizes]
      simp [makeRange, rangeItems])
  have hp : ∀ H' : List Entry → F, rangePoint (B.withHash H') K range t (makeRange cts p) =
      ringPoint (B.withHash H') K range.admissibleValues (List.ofFn cts) (RangeProof.context range t)
        (makeRange cts p).2.inner := by
    intro H'
    simp only [rangePoint, ringPoint, hver]
    rfl
  rw [RangeProof.context_log] at h2 h3
  refine ⟨terms, ?_, fun H' hH' => by rw [hp]; exact h2 H' hH', ?_⟩
  · rw [h1, List.length_zip, hvl, List.length_ofFn, min_self]
  · simp only [hver, h3, hp]
    rw [h2 H fun _ _ _ _ _ => rfl]
    simp [Has]

/-- All data hashed last by verifiers of range proofs. -/
theorem rangeData_finite [Finite E] (B : Backend F E) (range : PreparedRange E) (t : Transcript) : Set.Finite
    (Set.range fun p : E × (Fin (rangeRings range) → E × E) =>
      commonPoint B (rangeContext t.log range.inner.display) (encOf B p.1) (List.ofFn p.2)) :=
  Set.finite_range _

theorem rangePoint_programmable (B : Backend F E) (hT : B.TotalSer) [Finite E] {n : ℕ} {range : PreparedRange E}
    (hf : RangeFacts B n range) (t : Transcript) (K : PublicKey E) (hK : K.bytes = encOf B K.element) {S : Type} [Fintype S]
    (cts : S → Fin (rangeRings range) → Ciphertext E) (p : S → RangeScalars F range) (D : Finset (List Entry))
    (hD : (rangeData_finite B range t).toFinset ⊆ D) :
    Programmable (fun H s => rangePoint (B.withHash H) K range t (makeRange (cts s) (p s))) 1 D ∧
    ∀ H s, ((rangePoint (B.withHash H) K range t (makeRange (cts s) (p s))).map Prod.fst).Nodup := by
  refine ⟨⟨?_, ?_, ?_⟩, ?_⟩
  · intro H H' s h
    obtain ⟨terms, -, h4, -⟩ := rangePoint_spec B hT H K hf t (cts s) (p s)
    have h5 := h4 H fun _ _ _ _ _ => rfl
    simp only [h5] at h ⊢
    refine h4 H' fun enc i j x y => h _ ?_
    rw [List.map_cons, List.map_nil, List.mem_singleton]
    exact ringQuery_ne_commonQuery
  · intro H s
    obtain ⟨terms, -, h4, -⟩ := rangePoint_spec B hT H K hf t (cts s) (p s)
    simp only [h4 H fun _ _ _ _ _ => rfl, List.length_cons, List.length_nil]
  · intro H s qa hqa
    obtain ⟨terms, h1, h4, -⟩ := rangePoint_spec B hT H K hf t (cts s) (p s)
    simp only [h4 H fun _ _ _ _ _ => rfl, List.mem_singleton] at hqa
    subst hqa
    refine hD ?_
    rw [Set.Finite.mem_toFinset]
    refine ⟨(K.element, fun i => terms.get ⟨i, by rw [h1]; exact i.2⟩), ?_⟩
    have : List.ofFn (fun i : Fin (rangeRings range) => terms.get ⟨i, by rw [h1]; exact i.2⟩) = terms :=
      List.ext_getElem (by simp [h1]) fun i _ _ => by simp
    simp only [this, hK]
  · intro H s
    obtain ⟨terms, -, h4, -⟩ := rangePoint_spec B hT H K hf t (cts s) (p s)
    simp only [h4 H fun _ _ _ _ _ => rfl, List.map_cons, List.map_nil, List.nodup_singleton]

/-! ## Randomness -/

/-- The ciphertexts of the rings, for given randomness. -/
def rangeCts (B : Backend F E) (K : PublicKey E) (range : PreparedRange E) (value : ℕ)
    (rs : Fin (rangeRings range) → F) (j : Fin (rangeRings range)) : Ciphertext E :=
  ⟨rs j • B.gen, ringMessage B range value j + rs j • K.element⟩

theorem addValues_open {B : Backend F E} (items : List (ℕ × List E)) :
    ∀ {cum cum' : ExtendedCiphertext F E} {b b' : RingProofBuilder B} {cts : List (Ciphertext E)},
    RangeProof.addValues B items cum b = some (cts, cum', b') →
    List.Forall₂ (fun (c : Ciphertext E) (p : ℕ × List E) => ∃ v r, p.2[p.1]? = some v ∧ c.random = (r : F) • B.gen ∧
      c.blinded = v + r • b.receiver.element) cts items := by
  induction items with
  | nil =>
    intro cum cum' b b' cts h
    simp only [RangeProof.addValues, Option.some.injEq, Prod.mk.injEq] at h
    obtain ⟨rfl, rfl, rfl⟩ := h
    exact .nil
  | cons p items ih =>
    intro cum cum' b b' cts h
    simp only [RangeProof.addValues, Option.bind_eq_bind, Option.bind_eq_some_iff, Option.pure_def,
      Option.some.injEq, Prod.mk.injEq, Prod.exists] at h
    obtain ⟨ct, b1, h1, cts2, cum2, b2, h2, rfl, rfl, rfl⟩ := h
    obtain ⟨hr, hrand, v, hv, hbl⟩ := addValue_spec h1
    refine .cons ⟨v, ct.randomScalar, hv, hrand, hbl⟩ ?_
    have := ih h2
    rw [hr] at this
    exact this

/-- Messages are the selected values of the rings. -/
theorem ringMessage_item {B : Backend F E} {n : ℕ} {range : PreparedRange E} (hf : RangeFacts B n range) {value : ℕ}
    {idx : List ℕ} (hd : range.decompose B.debug value = some idx) (hr : Represents range.inner.rings idx value)
    (j : Fin (rangeRings range)) {i : ℕ} {vs : List E} (h : (idx.zip range.admissibleValues)[j.1]? = some (i, vs)) :
    vs[i]? = some (ringMessage B range value j) := by
  rw [List.getElem?_zip_eq_some, hf.values, List.getElem?_map, Option.map_eq_some_iff] at h
  obtain ⟨h1, s, hs, rfl⟩ := h
  have hl := Represents_length hr
  have hi : i < s.size := by
    have := (List.forall₂_iff_get.mp hr.1).2 j.1 (by rw [hl]; exact j.2) j.2
    obtain ⟨_, k2⟩ := List.getElem?_eq_some_iff.mp h1
    obtain ⟨_, k4⟩ := List.getElem?_eq_some_iff.mp hs
    simpa only [List.get_eq_getElem, k2, k4] using this
  have hm : ringMessage B range value j = ((i * s.step : ℕ) : F) • B.gen := by
    obtain ⟨_, k4⟩ := List.getElem?_eq_some_iff.mp hs
    have k5 : range.inner.rings.get j = s := k4
    simp [ringMessage, hd, List.getD, h1, k5]
  rw [hm]
  simp [ringValues, hi]

theorem sum_ringMessage {B : Backend F E} {n : ℕ} {range : PreparedRange E} (hf : RangeFacts B n range) {value : ℕ}
    (hv : value < n) : (List.ofFn (ringMessage B range value)).sum = (value : F) • B.gen := by
  obtain ⟨idx, hd, hr⟩ := hf.decompose (dbg := B.debug) hv
  rw [← hr.selectedSum, selectedSum, ← hf.values]
  congr 1
  have hl := Represents_length hr
  have hz : (idx.zip range.admissibleValues).length = rangeRings range := by
    rw [List.length_zip, hf.values, List.length_map, hl, min_self, rangeRings]
  refine List.ext_getElem (by rw [List.length_ofFn, List.length_map, hz]) fun j h1 h2 => ?_
  have hj : j < rangeRings range := by simpa using h1
  have := ringMessage_item hf hd hr ⟨j, hj⟩ (i := ((idx.zip range.admissibleValues)[j]'(by omega)).1)
    (vs := ((idx.zip range.admissibleValues)[j]'(by omega)).2) (by
      rw [List.getElem?_eq_getElem (by omega)])
  rw [List.getElem_ofFn, List.getElem_map, this]
  rfl

/-- Ciphertexts of the rings created by `new`. -/
theorem range_new_open {B : Backend F E} {n : ℕ} {range : PreparedRange E} (hf : RangeFacts B n range)
    {K : PublicKey E} {value : ℕ} {t t' : Transcript} {rng rng' : B.Rng} {ct : CiphertextWithValue F E ℕ}
    {proof : RangeProof F E} (h : RangeProof.new B K range value t rng = some ((ct, proof), t', rng')) :
    ∃ rs, rangeCiphertexts proof.partialCiphertexts ct.ciphertext = List.ofFn (rangeCts B K range value rs) := by
  simp only [RangeProof.new, RangeProof.fromCiphertext, Option.bind_eq_bind, Option.bind_eq_some_iff, Option.pure_def,
    Option.some.injEq, Prod.mk.injEq, Prod.exists] at h
  obtain ⟨p, t1, rng1, ⟨idx, hd, -, -, size, -, -, -, partials, cum, b, hadd, i, vs, hdrop, -, -, c, cs, -, -, -, rfl, -, -⟩,
    ⟨rfl, rfl⟩, -, -⟩ := h
  have hv : value < n := by
    by_contra hv
    have : range.decompose B.debug value = some idx := hd
    rw [hf.decompose_none (not_lt.mp hv)] at this
    cases this
  obtain ⟨idx', hd', hr⟩ := hf.decompose (dbg := B.debug) hv
  obtain rfl : idx = idx' := Option.some.inj (hd.symm.trans hd')
  obtain ⟨-, init, i', vs', heq, htake, hdrop', hlen, -, -, hsum⟩ := hf.items hr
  rw [hdrop] at hdrop'
  cases hdrop'
  rw [htake] at hadd
  obtain ⟨-, -, hpl, hcum, hcumo⟩ := addValues_spec _ hadd
  have hopen := addValues_open _ hadd
  obtain ⟨c1, c2⟩ := hcumo 0 (by simp [ExtendedCiphertext.zero, Ciphertext.zero]) (by
    simp [ExtendedCiphertext.zero, Ciphertext.zero])
  have hcum' : cum.inner = ⟨(partials.map (·.random)).sum, (partials.map (·.blinded)).sum⟩ := by
    rw [hcum, foldl_add_eq]
    simp [ExtendedCiphertext.zero, Ciphertext.zero]
  rw [hcum'] at c1 c2
  have hrl : range.admissibleValues.length = rangeRings range := by rw [hf.values]; simp [rangeRings]
  generalize hct : (CiphertextWithValue.newU64 B value K rng).1 = ct
  have hcl : (rangeCiphertexts partials ct.ciphertext).length = rangeRings range := by
    simp only [rangeCiphertexts, List.length_append, List.length_singleton, hpl]
    omega
  have hall : ∀ j : Fin (rangeRings range), ∃ r : F, (rangeCiphertexts partials ct.ciphertext)[j.1]'(by rw [hcl]; exact j.2) =
      ⟨r • B.gen, ringMessage B range value j + r • K.element⟩ := by
    intro j
    by_cases hj : j.1 < partials.length
    · obtain ⟨v, r, hv1, hv2, hv3⟩ := (List.forall₂_iff_get.mp hopen).2 j.1 hj (by omega)
      have hit : (idx.zip range.admissibleValues)[j.1]? = some (init[j.1]'(by omega)) := by
        rw [heq, List.getElem?_append_left (by omega), List.getElem?_eq_getElem (by omega)]
      have hm := ringMessage_item hf hd' hr j hit
      obtain rfl : ringMessage B range value j = v := Option.some.inj (hm.symm.trans hv1)
      refine ⟨r, ?_⟩
      simp only [rangeCiphertexts, List.getElem_append_left hj]
      exact Ciphertext.ext hv2 hv3
    · have hj' : j.1 = partials.length := by have := j.2; omega
      have hit : (idx.zip range.admissibleValues)[j.1]? = some (i, vs) := by
        rw [heq, List.getElem?_append_right (by omega), hj', hpl]
        simp
      have hm := ringMessage_item hf hd' hr j hit
      rw [hm] at hsum
      refine ⟨ct.randomness - cum.randomScalar, ?_⟩
      have hlast : (rangeCiphertexts partials ct.ciphertext)[j.1]'(by rw [hcl]; exact j.2) =
          ⟨ct.ciphertext.random - (partials.map (·.random)).sum,
            ct.ciphertext.blinded - (partials.map (·.blinded)).sum⟩ := by
        simp only [rangeCiphertexts, hj', List.getElem_append_right (le_refl _), Nat.sub_self, List.getElem_singleton]
      obtain ⟨o1, o2⟩ : OpenedNat B K.element ct := hct ▸ ⟨rfl, rfl⟩
      have o3 : ct.value = value := hct ▸ rfl
      rw [hlast]
      refine Ciphertext.ext ?_ ?_
      · simp only at c1
        simp only [o1, c1]
        module
      · simp only [RingProofBuilder.new, zero_add] at c2
        simp only [Option.getD_some] at hsum
        simp only [o2, o3, c2, ← hsum]
        module
  choose rs hrs using hall
  refine ⟨rs, List.ext_getElem (by simp [hcl]) fun j h1 h2 => ?_⟩
  rw [List.getElem_ofFn]
  exact hrs ⟨j, by simpa using h2⟩

/-- The randomness of `new` as a function of its output. -/
theorem range_new_tape (B : Backend F E) (hB : B.Lawful) {n : ℕ} {range : PreparedRange E} (hr : PreparedFor B n range)
    (K : PublicKey E) (k : F) (hK : K.element = k • B.gen) {value : ℕ} (hv : value < n)
    (rs : Fin (rangeRings range) → F) (p : RangeScalars F range) (t t' : Transcript)
    (h : (makeRange (rangeCts B K range value rs) p).2.verify B K range (makeRange (rangeCts B K range value rs) p).1 t =
      some (.ok (), t')) :
    ∃ T : List F, T.length = rangeDraws range ∧
      (∀ xs, RangeProof.new B.withTape K range value t (T ++ xs) =
        some ((⟨⟨(makeRange (rangeCts B K range value rs) p).1, (List.ofFn rs).sum⟩, value⟩,
          (makeRange (rangeCts B K range value rs) p).2), t', xs)) ∧
      ∀ tape ct t'' xs, T.length ≤ tape.length →
        RangeProof.new B.withTape K range value t tape =
          some ((ct, (makeRange (rangeCts B K range value rs) p).2), t'', xs) →
        ct.ciphertext = (makeRange (rangeCts B K range value rs) p).1 → tape = T ++ xs := by
  have hf := hr.facts
  have hr0 : rangeRings range ≠ 0 := (List.length_pos_iff.mpr hf.nested.ne_nil).ne'
  obtain ⟨idx, hd, hrep⟩ := hf.decompose (dbg := B.debug) hv
  have hct : (makeRange (rangeCts B K range value rs) p).1 =
      ⟨(List.ofFn rs).sum • B.gen, (value : F) • B.gen + (List.ofFn rs).sum • K.element⟩ := by
    rw [← sum_ringMessage hf hv]
    simp only [makeRange, List.map_ofFn, Function.comp_def, rangeCts, List.sum_ofFn, Finset.sum_smul,
      Finset.sum_add_distrib]
  generalize hout : makeRange (rangeCts B K range value rs) p = out at h hct
  have hpar : out.2.partialCiphertexts = (List.ofFn (rangeCts B K range value rs)).dropLast := by rw [← hout]; rfl
  have hpl : out.2.partialCiphertexts.length + 1 = rangeRings range := by
    rw [hpar]; simp; omega
  obtain ⟨T, h1, h2, h3⟩ := range_tape B hB.gen_ne_zero n range hr K k hK
    ⟨⟨out.1, (List.ofFn rs).sum⟩, value⟩ (by rw [hct]; exact ⟨rfl, rfl⟩) idx hd out.2 t t' h (by
      intro i c j s h1 h2 h3
      rw [hpar, List.getElem?_eq_some_iff] at h1
      obtain ⟨hi, h1⟩ := h1
      rw [List.getElem_dropLast, List.getElem_ofFn] at h1
      subst h1
      refine ⟨rs ⟨i, _⟩, rfl, ?_⟩
      obtain ⟨_, k4⟩ := List.getElem?_eq_some_iff.mp h3
      simp [rangeCts, ringMessage, hd, List.getD, h2, hK]
      exact congrArg (fun s : RingSpec => ((j : F) * (s.step : F)) • B.gen) k4)
  have hnew : ∀ (x : F) (tape : List F), RangeProof.new B.withTape K range value t (x :: tape) =
      (RangeProof.fromCiphertext B.withTape K range
        ⟨⟨⟨x • B.gen, (value : F) • B.gen + x • K.element⟩, x⟩, value⟩ t tape).bind fun o =>
        some ((⟨⟨⟨x • B.gen, (value : F) • B.gen + x • K.element⟩, x⟩, value⟩, o.1), o.2.1, o.2.2) := by
    intro x tape
    rfl
  refine ⟨(List.ofFn rs).sum :: T, ?_, ?_, ?_⟩
  · rw [List.length_cons, h1, rangeDraws, rangeItems]
    omega
  · intro xs
    rw [List.cons_append, hnew, ← hct, h2]
    rfl
  · intro tape ct t'' xs hl hn hc
    cases tape with
    | nil => simp at hl
    | cons x tape =>
      rw [hnew] at hn
      obtain ⟨⟨q, t3, xs'⟩, hn1, hn2⟩ := Option.bind_eq_some_iff.mp hn
      simp only [Option.some.injEq, Prod.mk.injEq] at hn2
      obtain ⟨⟨rfl, rfl⟩, rfl, rfl⟩ := hn2
      have hx : x = (List.ofFn rs).sum := by
        have := congrArg Ciphertext.random hc
        rw [hct] at this
        exact hB.smul_gen_inj this
      subst hx
      rw [← hct] at hn1
      rw [h3 tape t3 xs' (by simpa using hl) hn1]
      rfl

section
variable [Fintype F]

theorem RangeProof.verify_withTape {B : Backend F E} (proof : RangeProof F E) (K : PublicKey E) (range : PreparedRange E)
    (ct : Ciphertext E) (t : Transcript) : proof.verify B.withTape K range ct t = proof.verify B K range ct t := by
  have h : ∀ (proof : RingProof F) K values cts t, proof.verify B.withTape K values cts t = proof.verify B K values cts t := by
    intro proof K values cts t
    simp only [RingProof.verify, RingProof.verifyLoop_withTape]
    rfl
  simp only [RangeProof.verify, h]

theorem Spec.PreparedFor.withHash {B : Backend F E} {n : ℕ} {range : PreparedRange E} (h : PreparedFor B n range)
    (H : List Entry → F) : PreparedFor (B.withHash H) n range := h

theorem Spec.PreparedFor.withTape {B : Backend F E} {n : ℕ} {range : PreparedRange E} (h : PreparedFor B n range) :
    PreparedFor B.withTape n range := h

/-- Outputs of `new` are exactly the valid proofs, and each of them is produced by one tape. -/
theorem range_outputs (B : Backend F E) (hB : B.Lawful) (hT : B.TotalSer) {n : ℕ} {range : PreparedRange E}
    (hr : PreparedFor B n range) (t : Transcript) (K : PublicKey E) (k : F) (hk : K.element = k • B.gen)
    {value : ℕ} (hv : value < n) :
    (Function.Injective fun s : (Fin (rangeRings range) → F) × RangeScalars F range =>
      some (makeRange (rangeCts B K range value s.1) s.2)) ∧
    (∀ H (s : (Fin (rangeRings range) → F) × RangeScalars F range),
      Has H (rangePoint (B.withHash H) K range t (makeRange (rangeCts B K range value s.1) s.2)) →
      ∃! tape : Fin (rangeDraws range) → F, rangeOutput (B.withHash H) K range t value (List.ofFn tape) =
        some (makeRange (rangeCts B K range value s.1) s.2)) ∧
    ∀ H (tape : Fin (rangeDraws range) → F), ∃ s : (Fin (rangeRings range) → F) × RangeScalars F range,
      Has H (rangePoint (B.withHash H) K range t (makeRange (rangeCts B K range value s.1) s.2)) ∧
      rangeOutput (B.withHash H) K range t value (List.ofFn tape) =
        some (makeRange (rangeCts B K range value s.1) s.2) := by
  have hf := hr.facts
  have hr0 : rangeRings range ≠ 0 := (List.length_pos_iff.mpr hf.nested.ne_nil).ne'
  refine ⟨?_, ?_, ?_⟩
  · rintro ⟨rs, p⟩ ⟨rs', p'⟩ h
    obtain ⟨h1, h2⟩ := makeRange_injective hr0 (Option.some.inj h)
    refine Prod.ext (funext fun j => ?_) h2
    exact hB.smul_gen_inj (congrArg Ciphertext.random (congrFun h1 j))
  · rintro H ⟨rs, p⟩ hh
    obtain ⟨-, -, -, h5⟩ := rangePoint_spec B hT H K hf t (rangeCts B K range value rs) p
    obtain ⟨t', hv'⟩ := h5.mpr hh
    obtain ⟨T, hl, h1, h2⟩ := range_new_tape (B.withHash H) (hB.withHash H) (hr.withHash H) K k hk hv rs p t t' hv'
    have hofn : List.ofFn (fun i : Fin (rangeDraws range) => T.get ⟨i, by rw [hl]; exact i.2⟩) = T :=
      List.ext_getElem (by simp [hl]) fun i _ _ => by simp
    refine ⟨fun i => T.get ⟨i, by rw [hl]; exact i.2⟩, ?_, ?_⟩
    · have := h1 []
      rw [List.append_nil] at this
      simp only [rangeOutput, hofn]
      rw [this]
      rfl
    · intro tape' ht'
      obtain ⟨⟨⟨ct, proof⟩, t2, xs⟩, hnew, ho⟩ := Option.map_eq_some_iff.mp ht'
      simp only [Prod.ext_iff] at ho
      obtain ⟨o1, rfl⟩ := ho
      have h3 := h2 (List.ofFn tape') ct t2 xs (by rw [hl, List.length_ofFn]) hnew o1
      have : xs = [] := by
        have := congrArg List.length h3
        rw [List.length_append, hl, List.length_ofFn] at this
        exact List.length_eq_zero_iff.mp (by omega)
      rw [this, List.append_nil, ← hofn] at h3
      exact List.ofFn_injective h3
  · intro H tape
    obtain ⟨ct, proof, t', rest, hnew⟩ := RangeProof.new_total (B := (B.withHash H).withTape) hT (hr.withHash H).withTape K hv t
      (List.ofFn tape)
    obtain ⟨-, -, -, hver⟩ := RangeProof.new_spec (B := (B.withHash H).withTape) (hr.withHash H).withTape hnew
    rw [RangeProof.verify_withTape] at hver
    obtain ⟨rs, hrs⟩ := range_new_open (B := (B.withHash H).withTape) (hr.withHash H).withTape.facts hnew
    have hpl := RangeProof.verify_ok_length hver
    have hrv := hver
    rw [RangeProof.verify_eq hpl] at hrv
    rw [hf.values, List.length_map] at hpl
    obtain ⟨c, p, he, hc⟩ := exists_makeRange (range := range) (ct.ciphertext, proof) hpl (by
      rw [RingProof.verify_ok_length hrv, hf.sizes, rangeItems])
    have : c = rangeCts B K range value rs := List.ofFn_injective (hc.trans hrs)
    subst this
    refine ⟨(rs, p), ?_, ?_⟩
    · obtain ⟨-, -, -, h5⟩ := rangePoint_spec B hT H K hf t (rangeCts B K range value rs) p
      rw [← h5, ← he]
      exact ⟨t', hver⟩
    · simp only [rangeOutput]
      rw [hnew, ← he]
      rfl

theorem card_rangeScalars (range : PreparedRange E) :
    Fintype.card ((Fin (rangeRings range) → F) × RangeScalars F range) =
      Fintype.card (Fin (rangeDraws range) → F) * Fintype.card F ^ 1 := by
  have hf : ∀ n : ℕ, Fintype.card (Fin n → F) = Fintype.card F ^ n := fun n => by simp
  rw [Fintype.card_prod, Fintype.card_prod, hf, hf, hf, rangeDraws, ← pow_succ', ← pow_add, ← pow_add, add_assoc]

/-- Range proofs can be simulated for given ciphertexts of the rings. -/
theorem range_simulation (B : Backend F E) (hB : B.Lawful) (hT : B.TotalSer) [Finite E] {n : ℕ} {range : PreparedRange E}
    (hr : PreparedFor B n range) (t : Transcript) (K : PublicKey E) (k : F) (hk : K.element = k • B.gen)
    (hK : K.bytes = encOf B K.element) (D : Finset (List Entry)) (hD : (rangeData_finite B range t).toFinset ⊆ D)
    (H₀ : List Entry → F) {value : ℕ} (hv : value < n)
    (guess : (List Entry → F) → PublicKey E → Option (Ciphertext E × RangeProof F E) → ℚ) :
    (meanHash D H₀ fun H => mean fun tape : Fin (rangeDraws range) → F =>
      guess H K (rangeOutput (B.withHash H) K range t value (List.ofFn tape))) =
    mean fun rs : Fin (rangeRings range) → F => simulatedRange B D H₀ range t guess K (rangeCts B K range value rs) := by
  obtain ⟨hp, hnd⟩ := rangePoint_programmable B hT hr.facts t K hK
    (fun s : (Fin (rangeRings range) → F) × RangeScalars F range => rangeCts B K range value s.1) (fun s => s.2) D hD
  obtain ⟨h1, h2, h3⟩ := range_outputs B hB hT hr t K k hk hv
  rw [rom_simulation hp hnd H₀ _ _ h1 h2 h3 (card_rangeScalars range) (fun H => guess H K), mean_prod]
  rfl

end

end ElasticElgamal
