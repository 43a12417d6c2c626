import Verif.Lemmas.PartialPrivacy
import Verif.Lemmas.RingPrivacy
import Verif.Lemmas.RangePrivacy

/-!
# Lemmas: ring and range proofs in groups that cannot encode all elements
-/

set_option autoImplicit false
set_option linter.unusedSectionVars false

namespace ElasticElgamal

open Spec

variable {F E : Type} [Field F] [Fintype F] [AddCommGroup E] [Module F E] [DecidableEq F] [DecidableEq E]

theorem totalize_range {B : Backend F E} {spare : Bytes} {K : PublicKey E} {proof : RangeProof F E}
    {range : PreparedRange E} {ct : Ciphertext E} {t : Transcript} {out}
    (h : proof.verify B K range ct t = some out) : proof.verify (totalize B spare) K range ct t = some out := by
  unfold RangeProof.verify at h ⊢
  split
  · rename_i e he
    rw [he] at h
    exact h
  · rename_i he
    rw [he] at h
    exact totalize_rings h

theorem Spec.PreparedFor.totalize {B : Backend F E} {n : ℕ} {range : PreparedRange E} (h : PreparedFor B n range)
    (spare : Bytes) : PreparedFor (totalize B spare) n range := h

/-- What honest range proofs look like. -/
theorem range_output (B : Backend F E) {n : ℕ} {range : PreparedRange E} (hr : PreparedFor B n range)
    (t : Transcript) (K : PublicKey E) {value : ℕ} (tape : List F) (out : Ciphertext E × RangeProof F E)
    (h : rangeOutput B K range t value tape = some out) :
    (∃ t', out.2.verify B K range out.1 t = some (.ok (), t')) ∧
    ∃ (rs : Fin (rangeRings range) → F) (p : RangeScalars F range), out = makeRange (rangeCts B K range value rs) p := by
  have hf := hr.facts
  obtain ⟨⟨⟨ct, proof⟩, t', rest⟩, hnew, rfl⟩ := Option.map_eq_some_iff.mp h
  obtain ⟨-, -, -, hver⟩ := RangeProof.new_spec (B := B.withTape) hr.withTape hnew
  rw [RangeProof.verify_withTape] at hver
  refine ⟨⟨t', hver⟩, ?_⟩
  obtain ⟨rs, hrs⟩ := range_new_open (B := B.withTape) hr.withTape.facts hnew
  have hpl := RangeProof.verify_ok_length hver
  have hrv := hver
  rw [RangeProof.verify_eq hpl] at hrv
  rw [hf.values, List.length_map] at hpl
  obtain ⟨c, p, he, hc⟩ := exists_makeRange (range := range) (ct.ciphertext, proof) hpl (by
    rw [RingProof.verify_ok_length hrv, hf.sizes, rangeItems])
  have : c = rangeCts B K range value rs := List.ofFn_injective (hc.trans hrs)
  subst this
  exact ⟨rs, p, he⟩

/-- Every valid range proof is made from one list of random scalars. -/
theorem range_input (B : Backend F E) (hB : B.Lawful) {n : ℕ} {range : PreparedRange E} (hr : PreparedFor B n range)
    (t t' : Transcript) (K : PublicKey E) (k : F) (hk : K.element = k • B.gen) {value : ℕ} (hv : value < n)
    (rs : Fin (rangeRings range) → F) (p : RangeScalars F range)
    (h : (makeRange (rangeCts B K range value rs) p).2.verify B K range (makeRange (rangeCts B K range value rs) p).1 t =
      some (.ok (), t')) :
    ∃! tape : Fin (rangeDraws range) → F, rangeOutput B K range t value (List.ofFn tape) =
      some (makeRange (rangeCts B K range value rs) p) := by
  obtain ⟨T, hl, h1, h2⟩ := range_new_tape B hB hr K k hk hv rs p t t' h
  have hofn : List.ofFn (fun i : Fin (rangeDraws range) => T.get ⟨i, by rw [hl]; exact i.2⟩) = T :=
    List.ext_getElem (by simp [hl]) fun i _ _ => by simp
  refine ⟨fun i => T.get ⟨i, by rw [hl]; exact i.2⟩, ?_, ?_⟩
  · have := h1 []
    rw [List.append_nil] at this
    simp only [rangeOutput, hofn]
    rw [this]
    rfl
  · intro tape' ht'
    obtain ⟨⟨⟨ct, proof⟩, t2, xs⟩, hnew, ho⟩ := Option.map_eq_some_iff.mp ht'
    simp only [Prod.ext_iff] at ho
    obtain ⟨o1, rfl⟩ := ho
    have h3 := h2 (List.ofFn tape') ct t2 xs (by rw [hl, List.length_ofFn]) hnew o1
    have : xs = [] := by
      have := congrArg List.length h3
      rw [List.length_append, hl, List.length_ofFn] at this
      exact List.length_eq_zero_iff.mp (by omega)
    rw [this, List.append_nil, ← hofn] at h3
    exact List.ofFn_injective h3

/-- Range proofs in a group with partial encodings are those in the group with all encodings, without those that cannot be
verified. -/
theorem range_partial (B : Backend F E) (hB : B.Lawful) {spare : Bytes} (hs : SpareEncoding B spare) {n : ℕ}
    {range : PreparedRange E} (hr : PreparedFor B n range) (t : Transcript) (K : PublicKey E) {value : ℕ} (hv : value < n) :
    ∃ σ : Equiv.Perm (Fin (rangeDraws range) → F), ∀ tape, rangeOutput B K range t value (List.ofFn tape) =
      (rangeOutput (totalize B spare) K range t value (List.ofFn (σ tape))).filter fun out =>
        (out.2.verify B K range out.1 t).isSome := by
  obtain ⟨k, hk⟩ := hB.gen_spans K.element
  have hB' := hB.totalize hs
  refine exists_perm_filter (fun tape : Fin (rangeDraws range) → F => rangeOutput B K range t value (List.ofFn tape))
    (fun tape => rangeOutput (totalize B spare) K range t value (List.ofFn tape)) _ ?_ ?_ ?_ ?_ ?_
  · intro tape x h
    obtain ⟨⟨t', h1⟩, -⟩ := range_output B hr t K _ x h
    rw [h1]
    rfl
  · intro t₁ t₂ x h₁ h₂
    obtain ⟨⟨t', hx⟩, rs, p, rfl⟩ := range_output B hr t K _ x h₁
    exact (range_input B hB hr t t' K k hk hv rs p hx).unique h₁ h₂
  · intro t₁ t₂ x h₁ h₂
    obtain ⟨⟨t', hx⟩, rs, p, rfl⟩ := range_output (totalize B spare) (hr.totalize spare) t K _ x h₁
    exact (range_input (totalize B spare) hB' (hr.totalize spare) t t' K k hk hv rs p hx).unique h₁ h₂
  · intro tape x h
    obtain ⟨⟨t', hx⟩, rs, p, rfl⟩ := range_output B hr t K _ x h
    exact (range_input (totalize B spare) hB' (hr.totalize spare) t t' K k hk hv rs p (totalize_range hx)).exists
  · intro tape x h hA
    obtain ⟨⟨t', hx⟩, rs, p, rfl⟩ := range_output (totalize B spare) (hr.totalize spare) t K _ x h
    obtain ⟨out, hout⟩ := Option.isSome_iff_exists.mp hA
    have e := totalize_range (spare := spare) hout
    have e := hx.symm.trans e
    rw [← Option.some.inj e] at hout
    exact (range_input B hB hr t t' K k hk hv rs p hout).exists

/-! ## Ring proofs -/

/-- What honest ring proofs look like. -/
theorem ring_output (B : Backend F E) {n : ℕ} {values : Fin n → List E} (t : Transcript) (K : PublicKey E)
    {index : Fin n → ℕ} (tape : List F) (out : List (Ciphertext E) × RingProof F)
    (h : ringOutput B K values t index tape = some out) :
    (∃ t', out.2.verify B K (List.ofFn values) out.1 t = some (.ok (), t')) ∧
    ∃ (rs : Fin n → F) (p : RingScalars F values), out = makeRings (ringCts B K values index rs) p := by
  have hst : ∀ s ∈ List.ofFn (fun i => (⟨none, values i, index i⟩ : RingStep F E)), s.precomputed = none := by
    intro s hs
    obtain ⟨j, rfl⟩ := List.mem_ofFn.mp hs
    rfl
  have hho : ∀ s ∈ List.ofFn (fun i => (⟨none, values i, index i⟩ : RingStep F E)), s.Honest B.withTape K.element := by
    intro s hs ct hct
    rw [hst s hs] at hct
    cases hct
  have hsz : ((List.ofFn (fun i => (⟨none, values i, index i⟩ : RingStep F E))).map (·.values.length)).sum =
      ringItems values := by simp [ringItems, Function.comp_def]
  simp only [ringOutput, Option.bind_eq_bind, Option.bind_eq_some_iff, Option.pure_def, Option.some.injEq,
    Prod.exists] at h
  obtain ⟨cts, b, hrun, c, rs', t', rest, hbuild, rfl⟩ := h
  have hver := C22_ring_complete B.withTape K _ hho _ (by rw [hsz]; simp) t t' _ rest cts b hrun c rs' hbuild
  have hfresh := runRingSteps_fresh _ hst hrun
  have hlen : cts.length = n := by simpa using hfresh.length_eq
  have hall : ∀ j : Fin n, ∃ r : F, cts[j.1]'(by rw [hlen]; exact j.2) =
      ⟨r • B.gen, selectedValue values index j + r • K.element⟩ := by
    intro j
    have := (List.forall₂_iff_get.mp hfresh).2 j.1 (by rw [hlen]; exact j.2) (by simp)
    simpa [RingProofBuilder.new, selectedValue] using this
  choose rs hrs using hall
  have hcts : cts = List.ofFn (ringCts B K values index rs) :=
    List.ext_getElem (by simp [hlen]) fun j h1 h2 => by rw [List.getElem_ofFn]; exact hrs ⟨j, by simpa using h2⟩
  have hvv : (List.ofFn (fun i => (⟨none, values i, index i⟩ : RingStep F E))).map (·.values) = List.ofFn values := by
    simp [Function.comp_def]
  have hrv : (⟨c, rs'⟩ : RingProof F).verify B K (List.ofFn values) cts t = some (.ok (), t') := by
    rw [hvv] at hver
    rw [← hver]
    simp only [RingProof.verify, RingProof.verifyLoop_withTape]
    rfl
  have hrl : rs'.length = ringItems values := RingProof.verify_ok_length hrv
  have hofn : List.ofFn (fun i : Fin (ringItems values) => rs'.get ⟨i, by rw [hrl]; exact i.2⟩) = rs' :=
    List.ext_getElem (by simp [hrl]) fun i _ _ => by simp
  refine ⟨⟨t', hrv⟩, rs, (c, fun i => rs'.get ⟨i, by rw [hrl]; exact i.2⟩), ?_⟩
  rw [makeRings, hofn, hcts]

/-- Every valid ring proof is made from one list of random scalars. -/
theorem ring_input (B : Backend F E) (hB : B.Lawful) {n : ℕ} {values : Fin n → List E} (t t' : Transcript)
    (K : PublicKey E) {index : Fin n → ℕ} (hi : ∀ j, index j < (values j).length) (rs : Fin n → F)
    (p : RingScalars F values)
    (hv : (makeRings (ringCts B K values index rs) p).2.verify B K (List.ofFn values)
      (makeRings (ringCts B K values index rs) p).1 t = some (.ok (), t')) :
    ∃! tape : Fin (ringDraws values) → F, ringOutput B K values t index (List.ofFn tape) =
      some (makeRings (ringCts B K values index rs) p) := by
  have hs := ringInputs_honest (B := B) (K := K) (rs := rs) hi
  change (makeRings (ringCts B K values index rs) p).2.verify B K (List.ofFn values)
      (List.ofFn (ringCts B K values index rs)) t = some (.ok (), t') at hv
  rw [← ringInputs_values (B := B) (K := K) (index := index) (rs := rs)] at hv
  rw [← ringInputs_cts (B := B)] at hv
  obtain ⟨hl, h1⟩ := proveRings_tape B K _ hs _ _ t t' hv
  generalize hT : ringTape₁ B K (RingProof.initializeTranscript t K) p.1 0
    (ringInputs B K values index rs) (List.ofFn p.2) ++
    ringTape₂ (ringInputs B K values index rs) (List.ofFn p.2) = T at hl h1
  rw [ringInputs_draws] at hl
  have hofn : List.ofFn (fun i : Fin (ringDraws values) => T.get ⟨i, by rw [hl]; exact i.2⟩) = T :=
    List.ext_getElem (by simp [hl]) fun i _ _ => by simp
  refine ⟨fun i => T.get ⟨i, by rw [hl]; exact i.2⟩, ?_, ?_⟩
  · have := h1 []
    rw [List.append_nil] at this
    simp only [ringOutput_eq _ K values t index rs, hofn, this, ringInputs_cts]
    rfl
  · intro tape' ht'
    simp only [ringOutput_eq _ K values t index rs] at ht'
    obtain ⟨⟨⟨cts, proof⟩, t2, xs⟩, hnew, ho⟩ := Option.map_eq_some_iff.mp ht'
    simp only [makeRings, Prod.mk.injEq] at ho
    obtain ⟨rfl, rfl⟩ := ho
    have h3 := proveRings_tape_inv B hB.gen_ne_zero K _ hs p.1 (List.ofFn p.2) t t2 (List.ofFn tape') xs
      (by rw [ringInputs_draws]; simp) (by rw [hnew, ringInputs_cts])
    rw [hT] at h3
    have : xs = [] := by
      have := congrArg List.length h3
      rw [List.length_append, hl, List.length_ofFn] at this
      exact List.length_eq_zero_iff.mp (by omega)
    rw [this, List.append_nil, ← hofn] at h3
    exact List.ofFn_injective h3

theorem ring_partial (B : Backend F E) (hB : B.Lawful) {spare : Bytes} (hs : SpareEncoding B spare) {n : ℕ}
    {values : Fin n → List E} (t : Transcript) (K : PublicKey E) {index : Fin n → ℕ}
    (hi : ∀ j, index j < (values j).length) :
    ∃ σ : Equiv.Perm (Fin (ringDraws values) → F), ∀ tape, ringOutput B K values t index (List.ofFn tape) =
      (ringOutput (totalize B spare) K values t index (List.ofFn (σ tape))).filter fun out =>
        (out.2.verify B K (List.ofFn values) out.1 t).isSome := by
  have hB' := hB.totalize hs
  refine exists_perm_filter (fun tape : Fin (ringDraws values) → F => ringOutput B K values t index (List.ofFn tape))
    (fun tape => ringOutput (totalize B spare) K values t index (List.ofFn tape)) _ ?_ ?_ ?_ ?_ ?_
  · intro tape x h
    obtain ⟨⟨t', h1⟩, -⟩ := ring_output B t K _ x h
    rw [h1]
    rfl
  · intro t₁ t₂ x h₁ h₂
    obtain ⟨⟨t', hx⟩, rs, p, rfl⟩ := ring_output B t K _ x h₁
    exact (ring_input B hB t t' K hi rs p hx).unique h₁ h₂
  · intro t₁ t₂ x h₁ h₂
    obtain ⟨⟨t', hx⟩, rs, p, rfl⟩ := ring_output (totalize B spare) t K _ x h₁
    exact (ring_input (totalize B spare) hB' t t' K hi rs p hx).unique h₁ h₂
  · intro tape x h
    obtain ⟨⟨t', hx⟩, rs, p, rfl⟩ := ring_output B t K _ x h
    exact (ring_input (totalize B spare) hB' t t' K hi rs p (totalize_rings hx)).exists
  · intro tape x h hA
    obtain ⟨⟨t', hx⟩, rs, p, rfl⟩ := ring_output (totalize B spare) t K _ x h
    obtain ⟨out, hout⟩ := Option.isSome_iff_exists.mp hA
    have e := hx.symm.trans (totalize_rings (spare := spare) hout)
    rw [← Option.some.inj e] at hout
    exact (ring_input B hB t t' K hi rs p hout).exists

end ElasticElgamal
