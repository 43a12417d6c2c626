import Verif.Spec.Knowledge
import Verif.Lemmas.ApproxSimulation

/-!
# The forking lemma
-/

set_option autoImplicit false
set_option linter.unusedSectionVars false

namespace ElasticElgamal

open Spec

section
variable {Q A α : Type}

theorem OracleAlg.run_update [DecidableEq Q] (x : OracleAlg Q A α) (H : Q → A) {q : Q} (a : A)
    (h : q ∉ x.queries H) : x.run (Function.update H q a) = x.run H := by
  induction x with
  | done o => rfl
  | ask q' next ih =>
    rw [OracleAlg.queries, List.mem_cons, not_or] at h
    rw [OracleAlg.run, OracleAlg.run, Function.update_of_ne (Ne.symm h.1)]
    exact ih _ h.2

theorem OracleAlg.exists_outputs [Finite A] (x : OracleAlg Q A α) : ∃ S : Set α, S.Finite ∧ ∀ H, x.run H ∈ S := by
  induction x with
  | done o => exact ⟨{o}, Set.finite_singleton o, fun _ => rfl⟩
  | ask q next ih =>
    choose S hS hr using ih
    exact ⟨⋃ a, S a, Set.finite_iUnion hS, fun H => Set.mem_iUnion.mpr ⟨H q, hr _ H⟩⟩

theorem ind_nonneg (P : Prop) : 0 ≤ ind P := by unfold ind; split_ifs <;> norm_num

theorem ind_le_one (P : Prop) : ind P ≤ 1 := by unfold ind; split_ifs <;> norm_num

theorem ind_true {P : Prop} (h : P) : ind P = 1 := if_pos h

theorem ind_false {P : Prop} (h : ¬ P) : ind P = 0 := if_neg h

theorem ind_mono {P P' : Prop} (h : P → P') : ind P ≤ ind P' := by
  by_cases hP : P
  · rw [ind_true hP, ind_true (h hP)]
  · rw [ind_false hP]; exact ind_nonneg _

theorem ind_and (P P' : Prop) : ind (P ∧ P') = ind P * ind P' := by
  by_cases hP : P <;> by_cases hP' : P' <;> simp [ind, hP, hP']

end

section
variable {Q A : Type} [DecidableEq Q] [Fintype A] [Nonempty A]

/-- Choosing one hash value again changes nothing. -/
theorem meanHash_update {D : Finset Q} (H₀ : Q → A) {q : Q} (hq : q ∈ D) (f : (Q → A) → ℚ) :
    (meanHash D H₀ fun H => mean fun c => f (Function.update H q c)) = meanHash D H₀ f := by
  classical
  have hA : (Fintype.card A : ℚ) ≠ 0 := by exact_mod_cast Fintype.card_ne_zero
  simp only [meanHash, mean]
  congr 1
  rw [← Finset.sum_div, div_eq_iff hA]
  rw [← Finset.sum_product']
  rw [← Finset.sum_fiberwise_of_maps_to (g := fun p : (Q → A) × A => Function.update p.1 q p.2)
    (t := hashFamily D H₀), Finset.sum_mul]
  · refine Finset.sum_congr rfl fun H hH => ?_
    rw [mem_hashFamily] at hH
    have : ((hashFamily D H₀ ×ˢ Finset.univ).filter fun p : (Q → A) × A => Function.update p.1 q p.2 = H) =
        (Finset.univ.image fun a => (Function.update H q a, H q)) := by
      ext ⟨H', c⟩
      simp only [Finset.mem_filter, Finset.mem_product, Finset.mem_univ, and_true, Finset.mem_image, true_and,
        Prod.mk.injEq, mem_hashFamily]
      constructor
      · rintro ⟨-, rfl⟩
        exact ⟨H' q, by simp⟩
      · rintro ⟨a, rfl, rfl⟩
        refine ⟨fun q' hq' => ?_, by simp⟩
        rw [Function.update_of_ne (by rintro rfl; exact hq' hq), hH q' hq']
    rw [Finset.sum_congr rfl (g := fun _ => f H) (fun p hp => by rw [(Finset.mem_filter.mp hp).2]),
      Finset.sum_const, this, Finset.card_image_of_injective, Finset.card_univ, nsmul_eq_mul, mul_comm]
    intro a a' h
    have := congrFun (Prod.mk.inj h).1 q
    simpa using this
  · intro p hp
    rw [Finset.mem_product, mem_hashFamily] at hp
    rw [mem_hashFamily]
    intro q' hq'
    rw [Function.update_of_ne (by rintro rfl; exact hq' hq), hp.1 q' hq']

theorem meanHash_add (D : Finset Q) (H₀ : Q → A) (f g : (Q → A) → ℚ) :
    (meanHash D H₀ fun H => f H + g H) = meanHash D H₀ f + meanHash D H₀ g := by
  simp only [meanHash, Finset.sum_add_distrib, add_div]

theorem meanHash_sub (D : Finset Q) (H₀ : Q → A) (f g : (Q → A) → ℚ) :
    (meanHash D H₀ fun H => f H - g H) = meanHash D H₀ f - meanHash D H₀ g := by
  simp only [meanHash, Finset.sum_sub_distrib, sub_div]

theorem meanHash_mul (D : Finset Q) (H₀ : Q → A) (f : (Q → A) → ℚ) (x : ℚ) :
    (meanHash D H₀ fun H => x * f H) = x * meanHash D H₀ f := by
  simp only [meanHash, ← Finset.mul_sum, mul_div_assoc]

theorem meanHash_sum {ι : Type} (s : Finset ι) (D : Finset Q) (H₀ : Q → A) (f : ι → (Q → A) → ℚ) :
    (meanHash D H₀ fun H => ∑ i ∈ s, f i H) = ∑ i ∈ s, meanHash D H₀ (f i) := by
  simp only [meanHash]
  rw [Finset.sum_comm, Finset.sum_div]

theorem mean_eq (x : A) : (mean fun c : A => ind (c = x)) = 1 / Fintype.card A := by
  classical
  rw [mean]
  congr 1
  simp only [ind]
  rw [Finset.sum_eq_single x] <;> simp +contextual

/-- The forking lemma for one deterministic algorithm. -/
theorem forking_one {α : Type} (alg : OracleAlg Q A α) {n : ℕ} (hn : alg.AtMost n) (point : α → Q)
    (good : α → A → Prop) (D : Finset Q) (hD : ∀ H, point (alg.run H) ∈ D) (H₀ : Q → A) (ε : ℚ)
    (hε : ε = meanHash D H₀ fun H => ind (good (alg.run H) (H (point (alg.run H))))) :
    ε ^ 2 / (n + 1) - ε / Fintype.card A ≤
      meanHash D H₀ fun H => mean fun c =>
        ind (good (rewind alg point H c).1 (H (point (alg.run H))) ∧ good (rewind alg point H c).2 c ∧
          point (rewind alg point H c).2 = point (rewind alg point H c).1 ∧ c ≠ H (point (alg.run H))) := by
  classical
  let s (x : Q) (H : Q → A) : Prop := point (alg.run H) = x ∧ good (alg.run H) (H x)
  let a (x : Q) (H : Q → A) : ℚ := mean fun c => ind (s x (Function.update H x c))
  -- sum over the places
  have hsum : ∀ H (g : Q → ℚ), ∑ x ∈ D, ind (point (alg.run H) = x) * g x = g (point (alg.run H)) := fun H g => by
    rw [Finset.sum_eq_single_of_mem _ (hD H)]
    · simp [ind]
    · intro x _ hx
      rw [ind_false (Ne.symm hx), zero_mul]
  have hε' : ε = ∑ x ∈ D, meanHash D H₀ (a x) := by
    rw [hε]
    have : ∀ x ∈ D, meanHash D H₀ (a x) = meanHash D H₀ fun H => ind (s x H) :=
      fun x hx => meanHash_update H₀ hx fun H => ind (s x H)
    rw [Finset.sum_congr rfl this, ← meanHash_sum]
    congr 1
    funext H
    simp only [s, ind_and]
    rw [hsum H fun x => ind (good (alg.run H) (H x))]
  -- few places matter
  have hfew : ∀ H, ∑ x ∈ D, ind (a x H ≠ 0) ≤ (n + 1 : ℚ) := fun H => by
    have hsub : ∀ x, a x H ≠ 0 → x ∈ (point (alg.run H) :: alg.queries H).toFinset := by
      intro x hx
      rw [List.mem_toFinset, List.mem_cons]
      by_contra hno
      rw [not_or] at hno
      refine hx ?_
      simp only [a]
      rw [← mean_const (α := A) 0]
      congr 1
      funext c
      refine ind_false ?_
      rintro ⟨h, -⟩
      rw [OracleAlg.run_update _ _ _ hno.2] at h
      exact hno.1 h.symm
    calc ∑ x ∈ D, ind (a x H ≠ 0)
        = ((D.filter fun x => a x H ≠ 0).card : ℚ) := by
          rw [Finset.card_filter]
          push_cast
          exact Finset.sum_congr rfl fun x _ => by unfold ind; split_ifs <;> rfl
      _ ≤ ((point (alg.run H) :: alg.queries H).toFinset.card : ℚ) := by
          exact_mod_cast Finset.card_le_card fun x hx => hsub x (Finset.mem_filter.mp hx).2
      _ ≤ ((point (alg.run H) :: alg.queries H).length : ℚ) := by exact_mod_cast List.toFinset_card_le _
      _ ≤ n + 1 := by
          rw [List.length_cons]
          push_cast
          have := hn.queries_length H
          have : ((alg.queries H).length : ℚ) ≤ n := by exact_mod_cast this
          linarith
  -- squares
  have hsq : ε ^ 2 / (n + 1) ≤ ∑ x ∈ D, meanHash D H₀ fun H => a x H * a x H := by
    have hn0 : (0 : ℚ) < n + 1 := by positivity
    set l := ε / (n + 1) with hl
    have h1 : ∀ x H, 2 * l * a x H - l ^ 2 * ind (a x H ≠ 0) ≤ a x H * a x H := by
      intro x H
      by_cases h : a x H = 0
      · simp [h, ind]
      · rw [ind_true h]; nlinarith [sq_nonneg (a x H - l)]
    have h2 : ∑ x ∈ D, meanHash D H₀ (fun H => 2 * l * a x H - l ^ 2 * ind (a x H ≠ 0)) ≤
        ∑ x ∈ D, meanHash D H₀ fun H => a x H * a x H :=
      Finset.sum_le_sum fun x _ => meanHash_le_meanHash (h1 x)
    have h3 : ∑ x ∈ D, meanHash D H₀ (fun H => ind (a x H ≠ 0)) ≤ n + 1 := by
      rw [← meanHash_sum, ← meanHash_const D H₀ (n + 1 : ℚ)]
      exact meanHash_le_meanHash hfew
    simp only [meanHash_sub, meanHash_mul, Finset.sum_sub_distrib, ← Finset.mul_sum] at h2
    rw [← hε'] at h2
    have h4 : l ^ 2 * ∑ x ∈ D, meanHash D H₀ (fun H => ind (a x H ≠ 0)) ≤ l ^ 2 * (n + 1) :=
      mul_le_mul_of_nonneg_left h3 (sq_nonneg l)
    have h5 : ε ^ 2 / (n + 1) = 2 * l * ε - l ^ 2 * (n + 1) := by
      rw [hl]; field_simp; ring
    linarith
  -- the second run
  have hfork : ∀ x ∈ D, meanHash D H₀ (fun H => a x H * a x H) =
      meanHash D H₀ fun H => mean fun c => ind (s x H) * ind (s x (Function.update H x c)) := by
    intro x hx
    rw [← meanHash_update H₀ hx fun H => mean fun c => ind (s x H) * ind (s x (Function.update H x c))]
    congr 1
    funext H
    simp only [Function.update_idem]
    change _ = mean fun c => mean fun c' => ind (s x (Function.update H x c)) * ind (s x (Function.update H x c'))
    have : ∀ c, (mean fun c' => ind (s x (Function.update H x c)) * ind (s x (Function.update H x c'))) =
        ind (s x (Function.update H x c)) * a x H := fun c => by
      simp only [mul_comm (ind (s x (Function.update H x c)))]
      rw [mean_mul]
    simp only [this]
    rw [mean_mul]
  rw [Finset.sum_congr rfl hfork, ← meanHash_sum] at hsq
  have hlast : ε / Fintype.card A = meanHash D H₀ fun H => mean fun c =>
      ind (good (alg.run H) (H (point (alg.run H)))) * ind (c = H (point (alg.run H))) := by
    have : ∀ H, (mean fun c => ind (good (alg.run H) (H (point (alg.run H)))) * ind (c = H (point (alg.run H)))) =
        1 / Fintype.card A * ind (good (alg.run H) (H (point (alg.run H)))) := fun H => by
      simp only [mul_comm (ind (good (alg.run H) (H (point (alg.run H)))))]
      rw [mean_mul, mean_eq]
    simp only [this]
    rw [meanHash_mul, ← hε]
    ring
  rw [hlast]
  refine le_trans (sub_le_sub_right hsq _) ?_
  rw [← meanHash_sub]
  refine meanHash_le_meanHash fun H => ?_
  have : ∀ x c, ind (s x H) * ind (s x (Function.update H x c)) = ind (point (alg.run H) = x) *
      (ind (good (alg.run H) (H x)) * ind (s x (Function.update H x c))) := fun x c => by
    simp only [s, ind_and, mul_assoc]
  simp only [this]
  have hm : ∑ x ∈ D, (mean fun c => ind (point (alg.run H) = x) *
      (ind (good (alg.run H) (H x)) * ind (s x (Function.update H x c)))) =
      mean fun c => ind (good (alg.run H) (H (point (alg.run H)))) *
        ind (s (point (alg.run H)) (Function.update H (point (alg.run H)) c)) := by
    simp only [mean]
    rw [← Finset.sum_div, Finset.sum_comm]
    congr 1
    refine Finset.sum_congr rfl fun c _ => ?_
    rw [hsum H fun x => ind (good (alg.run H) (H x)) * ind (s x (Function.update H x c))]
  rw [hm, ← mean_sub]
  refine mean_le_mean fun c => ?_
  simp only [rewind, s]
  rw [← ind_and]
  by_cases hc : c = H (point (alg.run H))
  · rw [ind_true hc, mul_one]
    refine le_trans ?_ (ind_nonneg _)
    rw [ind_and]
    nlinarith [ind_nonneg (good (alg.run H) (H (point (alg.run H)))), ind_le_one
      (point (alg.run (Function.update H (point (alg.run H)) c)) = point (alg.run H) ∧
        good (alg.run (Function.update H (point (alg.run H)) c))
          (Function.update H (point (alg.run H)) c (point (alg.run H))))]
  · rw [ind_false hc, mul_zero, sub_zero]
    refine ind_mono ?_
    rintro ⟨h1, h2, h3⟩
    rw [Function.update_self] at h3
    exact ⟨h1, h3, h2, hc⟩

theorem mean_sq_le {Ω : Type} [Fintype Ω] [Nonempty Ω] (f : Ω → ℚ) : mean f ^ 2 ≤ mean fun ω => f ω ^ 2 := by
  have h : 0 ≤ mean fun ω => (f ω - mean f) ^ 2 := mean_nonneg fun ω => sq_nonneg _
  have e : (fun ω => (f ω - mean f) ^ 2) = fun ω => (f ω ^ 2 - f ω * (2 * mean f)) - (-(mean f ^ 2)) := by
    funext ω; ring
  rw [e, mean_sub, mean_sub, mean_mul, mean_const] at h
  nlinarith

/-- The forking lemma: `good` outputs have an acceptable hash value at their place; two outputs with the same
place and different hash values are as desired. -/
theorem forking {Ω α : Type} [Fintype Ω] [Nonempty Ω] (alg : Ω → OracleAlg Q A α) {n : ℕ} (hn : ∀ ω, (alg ω).AtMost n)
    (point : α → Q) (good : Ω → (Q → A) → α → Prop) (accept : Ω → α → A → Prop)
    (hgood : ∀ ω H o, good ω H o ↔ accept ω o (H (point o))) (desired : Ω → α × α → Prop)
    (hd : ∀ ω o o' c c', accept ω o c → accept ω o' c' → point o' = point o → c' ≠ c → desired ω (o, o')) :
    Extractable alg point n good desired := by
  classical
  choose S hS hr using fun ω => (alg ω).exists_outputs
  have hfin : ((fun o => point o) '' ⋃ ω, S ω).Finite := (Set.finite_iUnion hS).image _
  refine ⟨hfin.toFinset, fun D hD H₀ ε hε => ?_⟩
  have hpt : ∀ ω H, point ((alg ω).run H) ∈ D := fun ω H =>
    hD (hfin.mem_toFinset.mpr ⟨_, Set.mem_iUnion.mpr ⟨ω, hr ω H⟩, rfl⟩)
  have key := fun ω => forking_one (alg ω) (hn ω) point (accept ω) D (hpt ω) H₀ _ rfl
  simp only [hgood] at hε
  rw [meanHash_mean] at hε ⊢
  set e := fun ω => meanHash D H₀ fun H => ind (accept ω ((alg ω).run H) (H (point ((alg ω).run H)))) with he
  have hle : mean e ^ 2 / (n + 1) - mean e / Fintype.card A ≤
      mean fun ω => e ω ^ 2 / (n + 1) - e ω / Fintype.card A := by
    have h1 : (fun ω => e ω ^ 2 / ((n : ℚ) + 1) - e ω / Fintype.card A) =
        fun ω => e ω ^ 2 * (1 / ((n : ℚ) + 1)) - e ω * (1 / Fintype.card A) := by funext ω; ring
    rw [h1, mean_sub, mean_mul, mean_mul]
    have : mean e ^ 2 * (1 / ((n : ℚ) + 1)) ≤ (mean fun ω => e ω ^ 2) * (1 / ((n : ℚ) + 1)) :=
      mul_le_mul_of_nonneg_right (mean_sq_le e) (by positivity)
    calc _ = mean e ^ 2 * (1 / ((n : ℚ) + 1)) - mean e * (1 / Fintype.card A) := by ring
      _ ≤ _ := by linarith
  have : ε = mean e := hε
  rw [this]
  refine hle.trans (mean_le_mean fun ω => (key ω).trans (meanHash_le_meanHash fun H => mean_le_mean fun c => ?_))
  refine ind_mono ?_
  rintro ⟨h1, h2, h3, h4⟩
  exact hd ω _ _ _ _ h1 h2 h3 h4

end

end ElasticElgamal
