import Verif.Lemmas.Forking

/-!
# Forking at one of the queries of an algorithm

In each run two queries are singled out, `x` and an earlier one `y`. If a run is good, then with a new hash value of `x`
a run is good with the same `x` and `y`, with a probability that is not small, except for few runs.
-/

set_option autoImplicit false
set_option linter.unusedSectionVars false

namespace ElasticElgamal

open Spec

section
variable {Q A α : Type} [DecidableEq Q]

/-- Queries before the first query `x` do not depend on the hash value of `x`. -/
theorem OracleAlg.before_update (alg : OracleAlg Q A α) (H : Q → A) (x : Q) (c : A) :
    (alg.queries (Function.update H x c)).takeWhile (· ≠ x) = (alg.queries H).takeWhile (· ≠ x) := by
  induction alg with
  | done o => rfl
  | ask q next ih =>
    rw [OracleAlg.queries, OracleAlg.queries]
    by_cases hq : q = x
    · simp [hq]
    · rw [Function.update_of_ne hq, List.takeWhile_cons_of_pos (by simpa using hq),
        List.takeWhile_cons_of_pos (by simpa using hq), ih]

theorem OracleAlg.mem_queries_update (alg : OracleAlg Q A α) (H : Q → A) (x : Q) (c : A) :
    x ∈ alg.queries (Function.update H x c) ↔ x ∈ alg.queries H := by
  induction alg with
  | done o => rfl
  | ask q next ih =>
    rw [OracleAlg.queries, OracleAlg.queries, List.mem_cons, List.mem_cons]
    by_cases hq : q = x
    · simp [hq]
    · rw [Function.update_of_ne hq, ih]

theorem OracleAlg.Within.mem {D : Set Q} {alg : OracleAlg Q A α} (h : alg.Within D) (H : Q → A) {q : Q}
    (hq : q ∈ alg.queries H) : q ∈ D := by
  induction alg with
  | done o => simp [OracleAlg.queries] at hq
  | ask q' next ih =>
    rw [OracleAlg.queries, List.mem_cons] at hq
    rcases hq with rfl | hq
    · exact h.1
    · exact ih _ (h.2 _) hq

end

section
variable {Q A : Type} [DecidableEq Q] [Fintype A] [Nonempty A]

/-- Good runs for which it is unlikely that a run with a new hash value of `x` is good with the same `x` and `y` are
rare. -/
theorem light_rare {α : Type} (alg : OracleAlg Q A α) {n : ℕ} (hn : alg.AtMost n) (good : (Q → A) → Prop)
    (place : (Q → A) → Q × Q) (hx : ∀ H, good H → (place H).1 ∈ alg.queries H)
    (hy : ∀ H, good H → (place H).2 ∈ (alg.queries H).takeWhile (· ≠ (place H).1))
    (D : Finset Q) (hD : alg.Within (D : Set Q)) (H₀ : Q → A) {τ : ℚ} (hτ : 0 ≤ τ) :
    (meanHash D H₀ fun H => ind (good H ∧
        (mean fun c => ind (good (Function.update H (place H).1 c) ∧
          place (Function.update H (place H).1 c) = place H)) < τ)) ≤ τ * n ^ 2 := by
  classical
  let s (p : Q × Q) (H : Q → A) : Prop := good H ∧ place H = p
  let a (p : Q × Q) (H : Q → A) : ℚ := mean fun c => ind (s p (Function.update H p.1 c))
  have ha : ∀ p H c, a p (Function.update H p.1 c) = a p H := fun p H c => by
    simp only [a, Function.update_idem]
  have h1 : ∀ H, ind (good H ∧ (mean fun c => ind (good (Function.update H (place H).1 c) ∧
          place (Function.update H (place H).1 c) = place H)) < τ) ≤
      ∑ p ∈ D ×ˢ D, ind (s p H) * ind (a p H < τ) := fun H => by
    by_cases hg : good H
    · have hm : place H ∈ D ×ˢ D := by
        rw [Finset.mem_product]
        exact ⟨hD.mem H (hx H hg), hD.mem H ((List.takeWhile_sublist _).subset (hy H hg))⟩
      refine le_trans (le_of_eq ?_) (Finset.single_le_sum (f := fun p => ind (s p H) * ind (a p H < τ))
        (fun p _ => mul_nonneg (ind_nonneg _) (ind_nonneg _)) hm)
      rw [ind_and, ind_true hg, ind_true (show s (place H) H from ⟨hg, rfl⟩)]
    · rw [ind_false (fun h => hg h.1)]
      exact Finset.sum_nonneg fun p _ => mul_nonneg (ind_nonneg _) (ind_nonneg _)
  refine (meanHash_le_meanHash h1).trans ?_
  rw [meanHash_sum]
  have h2 : ∀ p ∈ D ×ˢ D, (meanHash D H₀ fun H => ind (s p H) * ind (a p H < τ)) ≤
      meanHash D H₀ fun H => τ * ind (a p H ≠ 0) := fun p hp => by
    rw [← meanHash_update H₀ (Finset.mem_product.mp hp).1 fun H => ind (s p H) * ind (a p H < τ)]
    refine meanHash_le_meanHash fun H => ?_
    simp only [ha]
    rw [mean_mul]
    change a p H * ind (a p H < τ) ≤ _
    by_cases h0 : a p H = 0
    · rw [h0, zero_mul]; exact mul_nonneg hτ (ind_nonneg _)
    · rw [ind_true h0, mul_one]
      by_cases hl : a p H < τ
      · rw [ind_true hl, mul_one]; exact hl.le
      · rw [ind_false hl, mul_zero]; exact hτ
  refine (Finset.sum_le_sum h2).trans ?_
  rw [← meanHash_sum, ← meanHash_const D H₀ (τ * n ^ 2 : ℚ)]
  refine meanHash_le_meanHash fun H => ?_
  rw [← Finset.mul_sum]
  refine mul_le_mul_of_nonneg_left ?_ hτ
  have hsub : ∀ p, a p H ≠ 0 → p ∈ (alg.queries H).toFinset ×ˢ (alg.queries H).toFinset := by
    intro p hp
    by_contra hno
    refine hp ?_
    simp only [a]
    rw [← mean_const (α := A) 0]
    congr 1
    funext c
    refine ind_false ?_
    rintro ⟨hg, hp⟩
    have e1 := hx _ hg
    have e2 := hy _ hg
    rw [hp] at e1 e2
    rw [OracleAlg.mem_queries_update] at e1
    rw [OracleAlg.before_update] at e2
    refine hno ?_
    rw [Finset.mem_product, List.mem_toFinset, List.mem_toFinset]
    exact ⟨e1, (List.takeWhile_sublist _).subset e2⟩
  calc ∑ p ∈ D ×ˢ D, ind (a p H ≠ 0)
      = (((D ×ˢ D).filter fun p => a p H ≠ 0).card : ℚ) := by
        rw [Finset.card_filter]
        push_cast
        exact Finset.sum_congr rfl fun x _ => by unfold ind; split_ifs <;> rfl
    _ ≤ (((alg.queries H).toFinset ×ˢ (alg.queries H).toFinset).card : ℚ) := by
        exact_mod_cast Finset.card_le_card fun x hx => hsub x (Finset.mem_filter.mp hx).2
    _ ≤ n ^ 2 := by
        rw [Finset.card_product]
        have h1 : (alg.queries H).toFinset.card ≤ n := (List.toFinset_card_le _).trans (hn.queries_length H)
        have h2 : ((alg.queries H).toFinset.card : ℚ) ≤ n := by exact_mod_cast h1
        push_cast
        nlinarith [Nat.cast_nonneg (α := ℚ) (alg.queries H).toFinset.card]

/-- A random query is the right one with probability `1 / n`. -/
theorem success_of_heavy {α : Type} (alg : OracleAlg Q A α) {n : ℕ} (hn : alg.AtMost n) (good : (Q → A) → Prop)
    (place : (Q → A) → Q × Q) (desired : (Q → A) → (Q → A) → Prop) (H : Q → A)
    (hx : (place H).1 ∈ alg.queries H)
    (hd : ∀ c, good (Function.update H (place H).1 c) → place (Function.update H (place H).1 c) = place H →
      c ≠ H (place H).1 → desired H (Function.update H (place H).1 c)) {τ : ℚ}
    (hτ : τ ≤ mean fun c => ind (good (Function.update H (place H).1 c) ∧
          place (Function.update H (place H).1 c) = place H)) :
    (τ - 1 / Fintype.card A) / n ≤
      mean fun k : Fin n => mean fun c => ind (desired H (rewindAt alg k H c)) := by
  obtain ⟨k, hk, hkx⟩ := List.mem_iff_getElem.mp hx
  have hkn : k < n := lt_of_lt_of_le hk (hn.queries_length H)
  rw [mean, Fintype.card_fin]
  refine div_le_div_of_nonneg_right ?_ (Nat.cast_nonneg _)
  refine le_trans ?_ (Finset.single_le_sum (f := fun k : Fin n => mean fun c => ind (desired H (rewindAt alg k H c)))
    (fun k _ => mean_nonneg fun c => ind_nonneg _) (Finset.mem_univ ⟨k, hkn⟩))
  refine (sub_le_sub_right hτ _).trans ?_
  rw [← mean_eq (H (place H).1), ← mean_sub]
  refine mean_le_mean fun c => ?_
  have hr : rewindAt alg k H c = Function.update H (place H).1 c := by
    rw [rewindAt, List.getElem?_eq_getElem hk, hkx]
  simp only [hr]
  by_cases hc : c = H (place H).1
  · rw [ind_true hc]
    linarith [ind_le_one (good (Function.update H (place H).1 c) ∧
      place (Function.update H (place H).1 c) = place H), ind_nonneg (desired H (Function.update H (place H).1 c))]
  · rw [ind_false hc, sub_zero]
    exact ind_mono fun h => hd c h.1 h.2 hc

/-- Forking for every one of `m` parts of the output. -/
theorem forking_parts {Ω α : Type} [Fintype Ω] [Nonempty Ω] (alg : Ω → OracleAlg Q A α) {n m : ℕ}
    (hn : ∀ ω, (alg ω).AtMost n) (good : Ω → (Q → A) → Prop) (place : Ω → Fin m → (Q → A) → Q × Q)
    (hx : ∀ ω i H, good ω H → (place ω i H).1 ∈ (alg ω).queries H)
    (hy : ∀ ω i H, good ω H → (place ω i H).2 ∈ ((alg ω).queries H).takeWhile (· ≠ (place ω i H).1))
    (desired : Ω → Fin m → (Q → A) → (Q → A) → Prop)
    (hd : ∀ ω i H c, good ω H → good ω (Function.update H (place ω i H).1 c) →
      place ω i (Function.update H (place ω i H).1 c) = place ω i H → c ≠ H (place ω i H).1 →
      desired ω i H (Function.update H (place ω i H).1 c)) :
    ExtractableParts alg n good desired := by
  classical
  choose W hW using fun ω => (alg ω).exists_within
  refine ⟨Finset.univ.biUnion W, fun D hD H₀ ε hε => ?_⟩
  have hWD : ∀ ω, (alg ω).Within (D : Set Q) := fun ω => (hW ω).mono fun q hq =>
    hD (Finset.mem_biUnion.mpr ⟨ω, Finset.mem_univ _, hq⟩)
  have hε0 : 0 ≤ ε := by
    rw [hε, ← meanHash_const D H₀ (0 : ℚ)]
    exact meanHash_le_meanHash fun H => mean_nonneg fun ω => ind_nonneg _
  set τ : ℚ := ε / (2 * m * n ^ 2) with hτdef
  have hτ : 0 ≤ τ := by positivity
  let light (ω : Ω) (i : Fin m) (H : Q → A) : Prop := good ω H ∧
    (mean fun c => ind (good ω (Function.update H (place ω i H).1 c) ∧
      place ω i (Function.update H (place ω i H).1 c) = place ω i H)) < τ
  have h1 : ∀ ω H, ind (good ω H) - ∑ i, ind (light ω i H) ≤ ind (good ω H ∧ ∀ i,
      (τ - 1 / Fintype.card A) / n ≤
        mean fun k : Fin n => mean fun c => ind (desired ω i H (rewindAt (alg ω) k H c))) := by
    intro ω H
    by_cases hg : good ω H
    · by_cases hl : ∃ i, light ω i H
      · obtain ⟨i, hi⟩ := hl
        have := Finset.single_le_sum (f := fun i => ind (light ω i H)) (fun i _ => ind_nonneg _) (Finset.mem_univ i)
        rw [ind_true hi] at this
        linarith [ind_le_one (good ω H), ind_nonneg (good ω H ∧ ∀ i, (τ - 1 / Fintype.card A) / n ≤
          mean fun k : Fin n => mean fun c => ind (desired ω i H (rewindAt (alg ω) k H c)))]
      · rw [ind_true (P := _ ∧ _) ⟨hg, fun i => ?_⟩]
        · have := Finset.sum_nonneg (s := Finset.univ) fun i _ => ind_nonneg (light ω i H)
          linarith [ind_le_one (good ω H)]
        · refine success_of_heavy (alg ω) (hn ω) (good ω) (place ω i) (desired ω i) H (hx ω i H hg)
            (fun c => hd ω i H c hg) ?_
          by_contra hlt
          exact hl ⟨i, hg, not_le.mp hlt⟩
    · have := Finset.sum_nonneg (s := Finset.univ) fun i _ => ind_nonneg (light ω i H)
      rw [ind_false hg]
      linarith [ind_nonneg (good ω H ∧ ∀ i, (τ - 1 / Fintype.card A) / n ≤
          mean fun k : Fin n => mean fun c => ind (desired ω i H (rewindAt (alg ω) k H c)))]
  have h2 : (meanHash D H₀ fun H => mean fun ω => ∑ i, ind (light ω i H)) ≤ ε / 2 := by
    rw [meanHash_mean]
    have h3 : ∀ ω, (meanHash D H₀ fun H => ∑ i, ind (light ω i H)) ≤ m * (τ * n ^ 2) := fun ω => by
      rw [meanHash_sum]
      refine (Finset.sum_le_sum fun i _ => light_rare (alg ω) (hn ω) (good ω) (place ω i) (hx ω i) (hy ω i) D
        (hWD ω) H₀ hτ).trans (le_of_eq ?_)
      simp
    refine (mean_le_mean h3).trans ?_
    rw [mean_const]
    by_cases hm : (m : ℚ) * n ^ 2 = 0
    · have : (m : ℚ) * (τ * n ^ 2) = 0 := by rw [mul_left_comm, hm, mul_zero]
      rw [this]; positivity
    · refine le_of_eq ?_
      have : (m : ℚ) ≠ 0 := left_ne_zero_of_mul hm
      have : (n : ℚ) ≠ 0 := fun h => hm (by rw [h]; ring)
      rw [hτdef]; field_simp
  have h4 := meanHash_le_meanHash (D := D) (H₀ := H₀) fun H => mean_le_mean fun ω => h1 ω H
  refine le_trans ?_ h4
  simp only [mean_sub, meanHash_sub]
  rw [← hε]
  linarith

end

end ElasticElgamal
