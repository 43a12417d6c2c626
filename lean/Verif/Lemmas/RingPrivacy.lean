import Verif.Spec.RingPrivacy
import Verif.Lemmas.RangePrivacy

/-!
# Simulation of ring proofs
-/

set_option autoImplicit false
set_option linter.unusedSectionVars false

namespace ElasticElgamal

open Spec

variable {F E : Type} [Field F] [AddCommGroup E] [Module F E] [DecidableEq F] [DecidableEq E]

/-- Ciphertexts of selected values with given randomness. -/
def ringCts (B : Backend F E) {n : ℕ} (K : PublicKey E) (values : Fin n → List E) (index : Fin n → ℕ)
    (rs : Fin n → F) (j : Fin n) : Ciphertext E :=
  ⟨rs j • B.gen, selectedValue values index j + rs j • K.element⟩

/-- The rings of the prover. -/
def ringInputs (B : Backend F E) {n : ℕ} (K : PublicKey E) (values : Fin n → List E) (index : Fin n → ℕ)
    (rs : Fin n → F) : List (RingInput F E) :=
  List.ofFn fun j => ⟨⟨ringCts B K values index rs j, rs j⟩, values j, index j, true⟩

section
variable {B : Backend F E} {n : ℕ} {K : PublicKey E} {values : Fin n → List E} {index : Fin n → ℕ} {rs : Fin n → F}

theorem ringInputs_honest (hi : ∀ j, index j < (values j).length) :
    ∀ r ∈ ringInputs B K values index rs, r.Honest B K.element := by
  intro r hr
  obtain ⟨j, rfl⟩ := List.mem_ofFn.mp hr
  refine ⟨selectedValue values index j, ?_, rfl, rfl⟩
  simp [selectedValue, List.getD, hi j]

theorem ringInputs_steps : (ringInputs B K values index rs).map (·.step) =
    List.ofFn fun j => ⟨none, values j, index j⟩ := by
  simp [ringInputs, RingInput.step, Function.comp_def]

theorem ringInputs_values : (ringInputs B K values index rs).map (·.values) = List.ofFn values := by
  simp [ringInputs, Function.comp_def]

theorem ringInputs_cts : (ringInputs B K values index rs).map (·.ct.inner) = List.ofFn (ringCts B K values index rs) := by
  simp [ringInputs, Function.comp_def]

theorem ringInputs_sizes : ((ringInputs B K values index rs).map (·.values.length)).sum = ringItems values := by
  simp [ringInputs, ringItems, Function.comp_def]

theorem ringInputs_draws : ((ringInputs B K values index rs).map (·.draws)).sum = ringDraws values := by
  simp [ringInputs, ringItems, ringDraws, RingInput.draws, Function.comp_def, List.sum_ofFn, Finset.sum_add_distrib,
    add_comm]

end

theorem ringOutput_eq (B : Backend F E) (K : PublicKey E) {n : ℕ} (values : Fin n → List E)
    (t : Transcript) (index : Fin n → ℕ) (rs : Fin n → F) (tape : List F) :
    ringOutput B K values t index tape =
      (proveRings B.withTape K (ringInputs B K values index rs) t tape).map Prod.fst := by
  simp only [ringOutput, proveRings, ringInputs_steps, ringInputs_sizes]
  cases h : runRingSteps B.withTape (List.ofFn fun i => (⟨none, values i, index i⟩ : RingStep F E))
      (RingProofBuilder.new B.withTape K (List.replicate (ringItems values) (0 : F)) t tape) with
  | none => rfl
  | some o =>
    simp only [Option.bind_eq_bind, Option.bind_some]
    cases o.2.build B.withTape <;> rfl

/-- Ciphertexts created by the builder. -/
theorem runRingSteps_fresh {B : Backend F E} (steps : List (RingStep F E)) :
    ∀ {b b' : RingProofBuilder B} {cts : List (Ciphertext E)}, (∀ s ∈ steps, s.precomputed = none) →
    runRingSteps B steps b = some (cts, b') →
    List.Forall₂ (fun (c : Ciphertext E) (s : RingStep F E) => ∃ r : F, c = ⟨r • B.gen, s.values.getD s.index 0 +
      r • b.receiver.element⟩) cts steps := by
  induction steps with
  | nil =>
    intro b b' cts _ h
    simp only [runRingSteps, Option.some.injEq, Prod.mk.injEq] at h
    obtain ⟨rfl, rfl⟩ := h
    exact .nil
  | cons step steps ih =>
    intro b b' cts hs h
    simp only [runRingSteps, runRingStep, hs step (by simp), Option.bind_eq_bind, Option.bind_eq_some_iff,
      Option.pure_def, Option.some.injEq, Prod.mk.injEq, Prod.exists] at h
    obtain ⟨ct, b1, hstep, cts', b2, hrest, rfl, rfl⟩ := h
    simp only [RingProofBuilder.addValue, Option.bind_eq_bind, Option.bind_eq_some_iff,
      Option.pure_def, Option.some.injEq, Prod.mk.injEq] at hstep
    obtain ⟨v, hv, b3, hb3, rfl, rfl⟩ := hstep
    have hrec : b3.receiver = b.receiver := by
      simp only [RingProofBuilder.addPrecomputedValue, Option.bind_eq_bind, Option.bind_eq_some_iff, Option.pure_def,
        Option.some.injEq, Prod.exists] at hb3
      obtain ⟨_, -, ring, rng, -, rfl⟩ := hb3
      rfl
    refine .cons ?_ (hrec ▸ ih (fun s h => hs s (by simp [h])) hrest)
    refine ⟨(ExtendedCiphertext.new B v b.receiver b.rng).1.randomScalar, ?_⟩
    simp only [ExtendedCiphertext.new, Backend.mulGen, List.getD, hv, Option.getD_some]

section
variable [Fintype F]

theorem ringData_finite [Finite E] (B : Backend F E) (n : ℕ) (t : Transcript) : Set.Finite
    (Set.range fun p : E × (Fin n → E × E) => commonPoint B t.log (encOf B p.1) (List.ofFn p.2)) :=
  Set.finite_range _

theorem makeRings_spec (B : Backend F E) (hT : B.TotalSer) (H : List Entry → F) (K : PublicKey E) {n : ℕ}
    {values : Fin n → List E} (t : Transcript) (cts : Fin n → Ciphertext E) (p : RingScalars F values) :
    ∃ terms : List (E × E), terms.length = n ∧
      (∀ H' : List Entry → F,
        (∀ enc i j x y, H' (ringQuery (ringBase t.log K.bytes enc i) j x y) =
          H (ringQuery (ringBase t.log K.bytes enc i) j x y)) →
        ringPoint (B.withHash H') K (List.ofFn values) (List.ofFn cts) t (makeRings cts p).2 =
          [(commonPoint B t.log K.bytes terms, p.1)]) ∧
      ((∃ t', (makeRings cts p).2.verify (B.withHash H) K (List.ofFn values) (List.ofFn cts) t = some (.ok (), t')) ↔
        Has H (ringPoint (B.withHash H) K (List.ofFn values) (List.ofFn cts) t (makeRings cts p).2)) := by
  obtain ⟨terms, h1, h2, h3⟩ := ringPoint_spec B hT H K (List.ofFn values) (List.ofFn cts) t (makeRings cts p).2
    (by simp [makeRings, ringItems])
  refine ⟨terms, by simpa using h1, h2, ?_⟩
  rw [h3, h2 H fun _ _ _ _ _ => rfl]
  simp [Has]

theorem ringPoint_programmable (B : Backend F E) (hT : B.TotalSer) [Finite E] {n : ℕ} {values : Fin n → List E}
    (t : Transcript) (K : PublicKey E) (hK : K.bytes = encOf B K.element) {S : Type} [Fintype S]
    (cts : S → Fin n → Ciphertext E) (p : S → RingScalars F values) (D : Finset (List Entry))
    (hD : (ringData_finite B n t).toFinset ⊆ D) :
    Programmable (fun H s => ringPoint (B.withHash H) K (List.ofFn values) (List.ofFn (cts s)) t
      (makeRings (cts s) (p s)).2) 1 D ∧
    ∀ H s, ((ringPoint (B.withHash H) K (List.ofFn values) (List.ofFn (cts s)) t
      (makeRings (cts s) (p s)).2).map Prod.fst).Nodup := by
  refine ⟨⟨?_, ?_, ?_⟩, ?_⟩
  · intro H H' s h
    obtain ⟨terms, -, h4, -⟩ := makeRings_spec B hT H K t (cts s) (p s)
    have h5 := h4 H fun _ _ _ _ _ => rfl
    simp only [h5] at h ⊢
    refine h4 H' fun enc i j x y => h _ ?_
    rw [List.map_cons, List.map_nil, List.mem_singleton]
    exact ringQuery_ne_commonQuery
  · intro H s
    obtain ⟨terms, -, h4, -⟩ := makeRings_spec B hT H K t (cts s) (p s)
    simp only [h4 H fun _ _ _ _ _ => rfl, List.length_cons, List.length_nil]
  · intro H s qa hqa
    obtain ⟨terms, h1, h4, -⟩ := makeRings_spec B hT H K t (cts s) (p s)
    simp only [h4 H fun _ _ _ _ _ => rfl, List.mem_singleton] at hqa
    subst hqa
    refine hD ?_
    rw [Set.Finite.mem_toFinset]
    refine ⟨(K.element, fun i => terms.get ⟨i, by rw [h1]; exact i.2⟩), ?_⟩
    have : List.ofFn (fun i : Fin n => terms.get ⟨i, by rw [h1]; exact i.2⟩) = terms :=
      List.ext_getElem (by simp [h1]) fun i _ _ => by simp
    simp only [this, hK]
  · intro H s
    obtain ⟨terms, -, h4, -⟩ := makeRings_spec B hT H K t (cts s) (p s)
    simp only [h4 H fun _ _ _ _ _ => rfl, List.map_cons, List.map_nil, List.nodup_singleton]

/-- Outputs of the prover are exactly the valid proofs, and each of them is produced by one tape. -/
theorem ring_outputs (B : Backend F E) (hB : B.Lawful) (hT : B.TotalSer) {n : ℕ} {values : Fin n → List E}
    (t : Transcript) (K : PublicKey E) {index : Fin n → ℕ} (hi : ∀ j, index j < (values j).length) :
    (Function.Injective fun s : (Fin n → F) × RingScalars F values =>
      some (makeRings (ringCts B K values index s.1) s.2)) ∧
    (∀ H (s : (Fin n → F) × RingScalars F values),
      Has H (ringPoint (B.withHash H) K (List.ofFn values) (List.ofFn (ringCts B K values index s.1)) t
        (makeRings (ringCts B K values index s.1) s.2).2) →
      ∃! tape : Fin (ringDraws values) → F, ringOutput (B.withHash H) K values t index (List.ofFn tape) =
        some (makeRings (ringCts B K values index s.1) s.2)) ∧
    ∀ H (tape : Fin (ringDraws values) → F), ∃ s : (Fin n → F) × RingScalars F values,
      Has H (ringPoint (B.withHash H) K (List.ofFn values) (List.ofFn (ringCts B K values index s.1)) t
        (makeRings (ringCts B K values index s.1) s.2).2) ∧
      ringOutput (B.withHash H) K values t index (List.ofFn tape) =
        some (makeRings (ringCts B K values index s.1) s.2) := by
  refine ⟨?_, ?_, ?_⟩
  · rintro ⟨rs, p⟩ ⟨rs', p'⟩ h
    have h := Option.some.inj h
    simp only [makeRings, Prod.mk.injEq, RingProof.mk.injEq] at h
    obtain ⟨h1, h2, h3⟩ := h
    refine Prod.ext (funext fun j => ?_) (Prod.ext h2 (List.ofFn_injective h3))
    exact hB.smul_gen_inj (congrArg Ciphertext.random (congrFun (List.ofFn_injective h1) j))
  · rintro H ⟨rs, p⟩ hh
    obtain ⟨-, -, -, h5⟩ := makeRings_spec B hT H K t (ringCts B K values index rs) p
    obtain ⟨t', hv'⟩ := h5.mpr hh
    have hs := ringInputs_honest (B := B.withHash H) (K := K) (rs := rs) hi
    have hv := hv'
    rw [← ringInputs_values (B := B.withHash H) (K := K) (index := index) (rs := rs)] at hv
    rw [show List.ofFn (ringCts B K values index rs) = (ringInputs (B.withHash H) K values index rs).map (·.ct.inner) from
      (ringInputs_cts (B := B.withHash H)).symm] at hv
    obtain ⟨hl, h1⟩ := proveRings_tape (B.withHash H) K _ hs _ _ t t' hv
    generalize hT : ringTape₁ (B.withHash H) K (RingProof.initializeTranscript t K) p.1 0
      (ringInputs (B.withHash H) K values index rs) (List.ofFn p.2) ++
      ringTape₂ (ringInputs (B.withHash H) K values index rs) (List.ofFn p.2) = T at hl h1
    rw [ringInputs_draws] at hl
    have hofn : List.ofFn (fun i : Fin (ringDraws values) => T.get ⟨i, by rw [hl]; exact i.2⟩) = T :=
      List.ext_getElem (by simp [hl]) fun i _ _ => by simp
    refine ⟨fun i => T.get ⟨i, by rw [hl]; exact i.2⟩, ?_, ?_⟩
    · have := h1 []
      rw [List.append_nil] at this
      simp only [ringOutput_eq _ K values t index rs, hofn, this, ringInputs_cts]
      rfl
    · intro tape' ht'
      simp only [ringOutput_eq _ K values t index rs] at ht'
      obtain ⟨⟨⟨cts, proof⟩, t2, xs⟩, hnew, ho⟩ := Option.map_eq_some_iff.mp ht'
      simp only [makeRings, Prod.mk.injEq] at ho
      obtain ⟨rfl, rfl⟩ := ho
      have h3 := proveRings_tape_inv (B.withHash H) hB.gen_ne_zero K _ hs p.1 (List.ofFn p.2) t t2 (List.ofFn tape') xs
        (by rw [ringInputs_draws]; simp) (by rw [hnew, ringInputs_cts]; rfl)
      rw [hT] at h3
      have : xs = [] := by
        have := congrArg List.length h3
        rw [List.length_append, hl, List.length_ofFn] at this
        exact List.length_eq_zero_iff.mp (by omega)
      rw [this, List.append_nil, ← hofn] at h3
      exact List.ofFn_injective h3
  · intro H tape
    have hst : ∀ s ∈ List.ofFn (fun i => (⟨none, values i, index i⟩ : RingStep F E)),
        s.precomputed = none ∧ s.index < s.values.length := by
      intro s hs
      obtain ⟨j, rfl⟩ := List.mem_ofFn.mp hs
      exact ⟨rfl, hi j⟩
    have hho : ∀ s ∈ List.ofFn (fun i => (⟨none, values i, index i⟩ : RingStep F E)),
        s.Honest (B.withHash H).withTape K.element := by
      intro s hs ct hct
      rw [(hst s hs).1] at hct
      cases hct
    have hsz : ((List.ofFn (fun i => (⟨none, values i, index i⟩ : RingStep F E))).map (·.values.length)).sum =
        ringItems values := by simp [ringItems, Function.comp_def]
    obtain ⟨cts, b, ⟨c, rs', t', rest⟩, hrun, hbuild⟩ := C22_ring_total (B.withHash H).withTape hT K _
      (fun s hs => (hst s hs).2) hho t (List.ofFn tape)
    rw [hsz] at hrun
    have hver := C22_ring_complete (B.withHash H).withTape K _ hho _ (by rw [hsz]; simp) t t' _ rest cts b hrun c rs' hbuild
    have hfresh := runRingSteps_fresh _ (fun s hs => (hst s hs).1) hrun
    have hlen : cts.length = n := by simpa using hfresh.length_eq
    have hall : ∀ j : Fin n, ∃ r : F, cts[j.1]'(by rw [hlen]; exact j.2) =
        ⟨r • B.gen, selectedValue values index j + r • K.element⟩ := by
      intro j
      have := (List.forall₂_iff_get.mp hfresh).2 j.1 (by rw [hlen]; exact j.2) (by simp)
      simpa [RingProofBuilder.new, selectedValue] using this
    choose rs hrs using hall
    have hcts : cts = List.ofFn (ringCts B K values index rs) :=
      List.ext_getElem (by simp [hlen]) fun j h1 h2 => by rw [List.getElem_ofFn]; exact hrs ⟨j, by simpa using h2⟩
    have hvv : (List.ofFn (fun i => (⟨none, values i, index i⟩ : RingStep F E))).map (·.values) = List.ofFn values := by
      simp [Function.comp_def]
    have hrv : (⟨c, rs'⟩ : RingProof F).verify (B.withHash H) K (List.ofFn values) cts t = some (.ok (), t') := by
      rw [hvv] at hver
      rw [← hver]
      simp only [RingProof.verify, RingProof.verifyLoop_withTape]
      rfl
    have hrl : rs'.length = ringItems values := RingProof.verify_ok_length hrv
    have hofn : List.ofFn (fun i : Fin (ringItems values) => rs'.get ⟨i, by rw [hrl]; exact i.2⟩) = rs' :=
      List.ext_getElem (by simp [hrl]) fun i _ _ => by simp
    have he : (cts, (⟨c, rs'⟩ : RingProof F)) = makeRings (values := values) (ringCts B K values index rs)
        (c, fun i => rs'.get ⟨i, by rw [hrl]; exact i.2⟩) := by
      rw [makeRings, hofn, hcts]
    refine ⟨(rs, (c, fun i => rs'.get ⟨i, by rw [hrl]; exact i.2⟩)), ?_, ?_⟩
    · obtain ⟨-, -, -, h5⟩ := makeRings_spec B hT H K t (ringCts B K values index rs)
        (c, fun i => rs'.get ⟨i, by rw [hrl]; exact i.2⟩)
      rw [← h5, ← he, ← hcts]
      exact ⟨t', hrv⟩
    · simp only [ringOutput]
      rw [hrun, ← he]
      simp only [Option.bind_eq_bind, Option.bind_some, hbuild]
      rfl

theorem card_ringScalars {n : ℕ} (values : Fin n → List E) :
    Fintype.card ((Fin n → F) × RingScalars F values) =
      Fintype.card (Fin (ringDraws values) → F) * Fintype.card F ^ 1 := by
  have hf : ∀ n : ℕ, Fintype.card (Fin n → F) = Fintype.card F ^ n := fun n => by simp
  rw [Fintype.card_prod, Fintype.card_prod, hf, hf, hf, ringDraws, ← pow_succ', ← pow_add, ← pow_add, add_assoc]

/-- Ring proofs can be simulated for given ciphertexts. -/
theorem ring_simulation (B : Backend F E) (hB : B.Lawful) (hT : B.TotalSer) [Finite E] {n : ℕ} {values : Fin n → List E}
    (t : Transcript) (K : PublicKey E) (hK : K.bytes = encOf B K.element) (D : Finset (List Entry))
    (hD : (ringData_finite B n t).toFinset ⊆ D)
    (H₀ : List Entry → F) {index : Fin n → ℕ} (hi : ∀ j, index j < (values j).length)
    (guess : (List Entry → F) → PublicKey E → Option (List (Ciphertext E) × RingProof F) → ℚ) :
    (meanHash D H₀ fun H => mean fun tape : Fin (ringDraws values) → F =>
      guess H K (ringOutput (B.withHash H) K values t index (List.ofFn tape))) =
    mean fun rs : Fin n → F => simulatedRings B D H₀ values t guess K (ringCts B K values index rs) := by
  obtain ⟨hp, hnd⟩ := ringPoint_programmable B hT t K hK
    (fun s : (Fin n → F) × RingScalars F values => ringCts B K values index s.1) (fun s => s.2) D hD
  obtain ⟨h1, h2, h3⟩ := ring_outputs B hB hT (values := values) t K hi
  rw [rom_simulation hp hnd H₀ _ _ h1 h2 h3 (card_ringScalars values) (fun H => guess H K), mean_prod]
  rfl

end

end ElasticElgamal
