import Verif.Lemmas.Forking

/-!
# Lemmas: targets announced to a random hash function

An algorithm that evaluates a random hash function and announces values in between. It is unlikely that a fresh
evaluation has a value that was seen or announced before.
-/

set_option autoImplicit false
set_option linter.unusedSectionVars false

namespace ElasticElgamal

open Spec

variable {Q A α β : Type}

/-- An algorithm that evaluates the hash function and announces values. -/
inductive Watched (Q A : Type) where
  | done
  | ask (query : Q) (next : A → Watched Q A)
  | announce (values : List A) (next : Watched Q A)

namespace Watched

/-- At most `n` evaluations and `k` announced values. -/
def AtMost : ℕ → ℕ → Watched Q A → Prop
  | _, _, done => True
  | 0, _, ask _ _ => False
  | n + 1, k, ask _ next => ∀ a, AtMost n k (next a)
  | n, k, announce values next => values.length ≤ k ∧ AtMost n (k - values.length) next

theorem AtMost.mono {x : Watched Q A} : ∀ {n n' k k' : ℕ}, n ≤ n' → k ≤ k' → x.AtMost n k → x.AtMost n' k' := by
  induction x with
  | done => intros; simp [AtMost]
  | ask q next ih =>
    intro n n' k k' hn hk h
    cases n with
    | zero => simp [AtMost] at h
    | succ n =>
      obtain ⟨m, rfl⟩ : ∃ m, n' = m + 1 := ⟨n' - 1, by omega⟩
      exact fun a => ih a (by omega) hk (h a)
  | announce values next ih =>
    intro n n' k k' hn hk h
    have h : values.length ≤ k ∧ AtMost n (k - values.length) next := by cases n <;> exact h
    have : values.length ≤ k' ∧ AtMost n' (k' - values.length) next := ⟨by omega, ih hn (by omega) h.2⟩
    cases n' <;> exact this

/-- All evaluations are in `D`. -/
def Within (D : Set Q) : Watched Q A → Prop
  | done => True
  | ask q next => q ∈ D ∧ ∀ a, Within D (next a)
  | announce _ next => Within D next

theorem Within.mono {D D' : Set Q} (h : D ⊆ D') {x : Watched Q A} (hx : x.Within D) : x.Within D' := by
  induction x with
  | done => trivial
  | ask q next ih => exact ⟨h hx.1, fun a => ih a (hx.2 a)⟩
  | announce values next ih => exact ih hx

theorem exists_within [Finite A] (x : Watched Q A) : ∃ D : Finset Q, x.Within (D : Set Q) := by
  classical
  induction x with
  | done => exact ⟨∅, trivial⟩
  | ask q next ih =>
    choose D hD using ih
    have := Fintype.ofFinite A
    refine ⟨insert q (Finset.univ.biUnion D), by simp, fun a => (hD a).mono ?_⟩
    intro q' hq'
    simp only [Finset.coe_insert, Finset.coe_biUnion, Set.mem_insert_iff, Set.mem_iUnion]
    exact .inr ⟨a, by simp, hq'⟩
  | announce values next ih => exact ih

open Classical in
/-- A fresh evaluation has a value that was seen or announced before. -/
def Caught (H : Q → A) : Watched Q A → List Q → List A → Prop
  | done, _, _ => False
  | ask q next, hist, T =>
    if q ∈ hist then Caught H (next (H q)) hist T
    else H q ∈ T ∨ Caught H (next (H q)) (q :: hist) (H q :: T)
  | announce values next, hist, T => Caught H next hist (values ++ T)

end Watched

section
variable [Fintype A] [Nonempty A]

theorem meanHash_erase [DecidableEq Q] {D : Finset Q} (H₀ : Q → A) {q : Q} (hq : q ∈ D) (f : (Q → A) → ℚ) :
    meanHash D H₀ f = mean fun a => meanHash (D.erase q) (Function.update H₀ q a) f := by
  classical
  have hc : D.card = (D.erase q).card + 1 := by
    rw [Finset.card_erase_of_mem hq]
    have := Finset.card_pos.mpr ⟨q, hq⟩
    omega
  have hs : ∑ H ∈ hashFamily D H₀, f H =
      ∑ a, ∑ H ∈ hashFamily (D.erase q) (Function.update H₀ q a), f H := by
    rw [← Finset.sum_fiberwise_of_maps_to (g := fun H => H q) (t := Finset.univ) (fun _ _ => by simp)]
    refine Finset.sum_congr rfl fun a _ => Finset.sum_congr ?_ fun _ _ => rfl
    have := hashFamily_filter_eq (H₀ := H₀) a (fun _ => True) hq
    simp only [Finset.filter_true] at this
    convert this using 3
  simp only [meanHash, mean]
  rw [hs]
  simp only [card_hashFamily, Nat.cast_pow]
  rw [← Finset.sum_div, div_div, hc, pow_succ]

theorem mean_mem_le [DecidableEq A] (T : List A) : (mean fun a : A => ind (a ∈ T)) ≤ T.length / Fintype.card A := by
  classical
  rw [mean]
  refine div_le_div_of_nonneg_right ?_ (by positivity)
  have : ∑ a, ind (a ∈ T) = (T.toFinset.card : ℚ) := by
    have h : ∀ a, ind (a ∈ T) = if a ∈ T.toFinset then 1 else 0 := fun a => by simp [ind]
    simp only [h, Finset.sum_ite_mem, Finset.univ_inter, Finset.sum_const, nsmul_eq_mul, mul_one]
  rw [this]
  exact_mod_cast T.toFinset_card_le

theorem mean_add' {γ : Type} [Fintype γ] (f g : γ → ℚ) : (mean fun a => f a + g a) = mean f + mean g := by
  simp only [mean, Finset.sum_add_distrib, add_div]

theorem mean_le {γ : Type} [Fintype γ] [Nonempty γ] {f : γ → ℚ} {x : ℚ} (h : ∀ a, f a ≤ x) : mean f ≤ x := by
  rw [← mean_const (α := γ) x]
  simp only [mean]
  exact div_le_div_of_nonneg_right (Finset.sum_le_sum fun a _ => h a) (by positivity)

theorem meanHash_le {D : Finset Q} {H₀ : Q → A} {f g : (Q → A) → ℚ} (h : ∀ H ∈ hashFamily D H₀, f H ≤ g H) :
    meanHash D H₀ f ≤ meanHash D H₀ g :=
  div_le_div_of_nonneg_right (Finset.sum_le_sum h) (by positivity)

/-- The probability to be caught. -/
theorem Watched.mean_caught (x : Watched Q A) : ∀ (n k : ℕ) (hist : List Q) (T : List A) (D : Finset Q) (H₀ : Q → A),
    x.AtMost n k → x.Within {q | q ∈ D ∨ q ∈ hist} → (∀ q ∈ D, q ∉ hist) →
    (meanHash D H₀ fun H => ind (x.Caught H hist T)) ≤ n * (T.length + n + k : ℕ) / Fintype.card A := by
  classical
  have hA : (0 : ℚ) < Fintype.card A := by exact_mod_cast Fintype.card_pos
  induction x with
  | done =>
    intro n k hist T D H₀ _ _ _
    have : (fun H : Q → A => ind (Watched.Caught H .done hist T)) = fun _ => 0 := by
      funext H; exact ind_false fun h => h
    rw [this, meanHash_const]
    positivity
  | announce values next ih =>
    intro n k hist T D H₀ hn hw hd
    have hn : values.length ≤ k ∧ AtMost n (k - values.length) next := by cases n <;> exact hn
    refine (ih n (k - values.length) hist (values ++ T) D H₀ hn.2 hw hd).trans (le_of_eq ?_)
    congr 3
    rw [List.length_append]
    omega
  | ask q next ih =>
    intro n k hist T D H₀ hn hw hd
    cases n with
    | zero => exact absurd hn (by simp [AtMost])
    | succ n =>
      by_cases hq : q ∈ hist
      · have hqD : q ∉ D := fun h => hd q h hq
        have he : (meanHash D H₀ fun H => ind ((ask q next).Caught H hist T)) ≤
            meanHash D H₀ fun H => ind ((next (H₀ q)).Caught H hist T) := by
          refine meanHash_le fun H hH => ?_
          simp only [Caught, hq, if_true, mem_hashFamily.mp hH q hqD, le_refl]
        refine he.trans ((ih _ n k hist T D H₀ (hn _) (hw.2 _) hd).trans ?_)
        refine div_le_div_of_nonneg_right ?_ hA.le
        have : n * (T.length + n + k) ≤ (n + 1) * (T.length + (n + 1) + k) := by nlinarith
        exact_mod_cast this
      · have hqD : q ∈ D := (hw.1 : q ∈ D ∨ q ∈ hist).resolve_right hq
        rw [meanHash_erase H₀ hqD]
        have hstep : ∀ a : A, (meanHash (D.erase q) (Function.update H₀ q a) fun H =>
            ind ((ask q next).Caught H hist T)) ≤
            ind (a ∈ T) + (n * (T.length + 1 + n + k : ℕ) / Fintype.card A : ℚ) := by
          intro a
          have h1 : (meanHash (D.erase q) (Function.update H₀ q a) fun H =>
              ind ((ask q next).Caught H hist T)) ≤
              meanHash (D.erase q) (Function.update H₀ q a) fun H =>
                ind (a ∈ T) + ind ((next a).Caught H (q :: hist) (a :: T)) := by
            refine meanHash_le fun H hH => ?_
            have hHq : H q = a := by rw [mem_hashFamily.mp hH q (by simp)]; simp
            simp only [Caught, hq, if_false, hHq]
            by_cases h : a ∈ T
            · rw [ind_true h]
              exact (ind_le_one _).trans (le_add_of_nonneg_right (ind_nonneg _))
            · rw [ind_false h, zero_add]
              exact ind_mono fun h' => h'.resolve_left h
          refine h1.trans ?_
          rw [meanHash_add, meanHash_const]
          refine add_le_add_right ?_ _
          refine (ih a n k (q :: hist) (a :: T) (D.erase q) _ (hn a) ((hw.2 a).mono ?_) ?_).trans (le_of_eq ?_)
          · intro q' hq'
            simp only [Set.mem_ofPred_eq, Finset.mem_erase, List.mem_cons] at hq' ⊢
            by_cases h : q' = q <;> tauto
          · intro q' hq'
            simp only [Finset.mem_erase, List.mem_cons, not_or] at hq' ⊢
            exact ⟨hq'.1, hd _ hq'.2⟩
          · rw [List.length_cons]
        refine (mean_le_mean' hstep).trans ?_
        rw [mean_add', mean_const]
        refine (add_le_add_left (mean_mem_le T) _).trans ?_
        rw [← add_div]
        refine div_le_div_of_nonneg_right ?_ hA.le
        have : T.length + n * (T.length + 1 + n + k) ≤ (n + 1) * (T.length + (n + 1) + k) := by nlinarith
        exact_mod_cast this
where
  mean_le_mean' {f g : A → ℚ} (h : ∀ a, f a ≤ g a) : mean f ≤ mean g :=
    div_le_div_of_nonneg_right (Finset.sum_le_sum fun a _ => h a) (by positivity)

end

namespace OracleAlg

/-- Run an algorithm, then continue with its output. -/
def watch : OracleAlg Q A α → (α → Watched Q A) → Watched Q A
  | done a, f => f a
  | ask q next, f => .ask q fun a => (next a).watch f

theorem AtMost.watch {n m k : ℕ} {x : OracleAlg Q A α} {f : α → Watched Q A} (h : x.AtMost n)
    (hf : ∀ a, (f a).AtMost m k) : (x.watch f).AtMost (n + m) k := by
  induction x generalizing n with
  | done a => exact (hf a).mono (by omega) le_rfl
  | ask q next ih =>
    cases n with
    | zero => exact absurd h (by simp [AtMost])
    | succ n =>
      rw [show n + 1 + m = n + m + 1 by omega]
      exact fun a => ih a (h a)

/-- Known facts while nothing was caught: all evaluations so far had different values, which were recorded. -/
structure Uncaught (H : Q → A) (hist : List Q) (T : List A) : Prop where
  recorded : ∀ q ∈ hist, H q ∈ T
  inj : ∀ q ∈ hist, ∀ q' ∈ hist, H q = H q' → q = q'

theorem uncaught_watch {H : Q → A} (x : OracleAlg Q A α) {f : α → Watched Q A} : ∀ {hist : List Q} {T : List A},
    Uncaught H hist T → ¬ (x.watch f).Caught H hist T →
    ∃ hist' T', Uncaught H hist' T' ∧ ¬ (f (x.run H)).Caught H hist' T' ∧ (∀ q ∈ hist, q ∈ hist') ∧
      (∀ q ∈ x.queries H, q ∈ hist') ∧ (∀ a ∈ T, a ∈ T') ∧
      ∀ q ∈ hist', q ∈ hist ∨ q ∈ x.queries H ∧ H q ∉ T := by
  induction x with
  | done a => exact fun hu hn => ⟨_, _, hu, hn, fun _ h => h, by simp [queries], fun _ h => h, fun _ h => .inl h⟩
  | ask q next ih =>
    intro hist T hu hn
    simp only [watch, Watched.Caught] at hn
    by_cases hq : q ∈ hist
    · rw [if_pos hq] at hn
      obtain ⟨hist', T', h1, h2, h3, h4, h5, h6⟩ := ih _ hu hn
      refine ⟨hist', T', h1, h2, h3, ?_, h5, fun q' h => (h6 q' h).imp_right fun ⟨h, h'⟩ => ⟨?_, h'⟩⟩
      · intro q' h
        rcases List.mem_cons.mp h with rfl | h
        · exact h3 _ hq
        · exact h4 _ h
      · exact List.mem_cons_of_mem _ h
    · rw [if_neg hq, not_or] at hn
      have hu' : Uncaught H (q :: hist) (H q :: T) := by
        refine ⟨fun q' h => ?_, fun q₁ h₁ q₂ h₂ he => ?_⟩
        · rcases List.mem_cons.mp h with rfl | h
          · exact List.mem_cons_self
          · exact List.mem_cons_of_mem _ (hu.recorded _ h)
        · rcases List.mem_cons.mp h₁ with g₁ | g₁ <;> rcases List.mem_cons.mp h₂ with g₂ | g₂
          · exact g₁.trans g₂.symm
          · subst g₁; exact absurd (he ▸ hu.recorded _ g₂) hn.1
          · subst g₂; exact absurd (he ▸ hu.recorded _ g₁) hn.1
          · exact hu.inj _ g₁ _ g₂ he
      obtain ⟨hist', T', h1, h2, h3, h4, h5, h6⟩ := ih _ hu' hn.2
      refine ⟨hist', T', h1, h2, fun q' h => h3 _ (List.mem_cons_of_mem _ h), ?_,
        fun a h => h5 _ (List.mem_cons_of_mem _ h), fun q' h => ?_⟩
      · intro q' h
        rcases List.mem_cons.mp h with rfl | h
        · exact h3 _ List.mem_cons_self
        · exact h4 _ h
      · rcases h6 q' h with h | ⟨h, h'⟩
        · rcases List.mem_cons.mp h with rfl | h
          · exact .inr ⟨List.mem_cons_self, hn.1⟩
          · exact .inl h
        · exact .inr ⟨List.mem_cons_of_mem _ h, fun hT => h' (List.mem_cons_of_mem _ hT)⟩

/-- Evaluate the hash function at the given places. -/
def askAll : List Q → OracleAlg Q A Unit
  | [] => .done ()
  | q :: l => .ask q fun _ => askAll l

theorem atMost_askAll (l : List Q) : (askAll l : OracleAlg Q A Unit).AtMost l.length := by
  induction l with
  | nil => trivial
  | cons q l ih => exact fun _ => ih

theorem queries_askAll (H : Q → A) (l : List Q) : (askAll l : OracleAlg Q A Unit).queries H = l := by
  induction l with
  | nil => rfl
  | cons q l ih => simp [askAll, queries, ih]

/-- The hash value of data that are not hashed does not matter. -/
theorem run_queries_update [DecidableEq Q] {H : Q → A} {q : Q} (a : A) (x : OracleAlg Q A α) (hq : q ∉ x.queries H) :
    x.run (Function.update H q a) = x.run H ∧ x.queries (Function.update H q a) = x.queries H := by
  induction x with
  | done b => exact ⟨rfl, rfl⟩
  | ask q' next ih =>
    simp only [queries, List.mem_cons, not_or] at hq
    have h : Function.update H q a q' = H q' := Function.update_of_ne (fun h => hq.1 h.symm) _ _
    simp only [run, queries, h]
    exact ⟨(ih _ hq.2).1, by rw [(ih _ hq.2).2]⟩

theorem mem_queries_update_self [DecidableEq Q] {H : Q → A} {q : Q} (a : A) (x : OracleAlg Q A α) :
    q ∈ x.queries (Function.update H q a) ↔ q ∈ x.queries H := by
  induction x with
  | done b => rfl
  | ask q' next ih =>
    simp only [queries, List.mem_cons]
    by_cases h : q = q'
    · simp [h]
    · rw [Function.update_of_ne (fun h' => h h'.symm), ih]

end OracleAlg

end ElasticElgamal
