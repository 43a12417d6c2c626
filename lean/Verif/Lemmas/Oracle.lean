import Verif.Spec.Oracle
import Mathlib.Algebra.BigOperators.Intervals
import Mathlib.Algebra.BigOperators.Ring.Finset
import Mathlib.Data.Set.Card
import Mathlib.Tactic.Ring
import Mathlib.Tactic.Linarith
import Mathlib.Tactic.Positivity
import Mathlib.Tactic.FieldSimp

/-!
# Lemmas about algorithms with access to a random hash function
-/

set_option autoImplicit false
set_option linter.unusedSectionVars false

namespace ElasticElgamal

open Spec

variable {Q A α β : Type}

namespace OracleAlg

theorem run_bind (H : Q → A) (x : OracleAlg Q A α) (f : α → OracleAlg Q A β) :
    (x.bind f).run H = (f (x.run H)).run H := by
  induction x with
  | done a => rfl
  | ask q next ih => simp [bind, run, ih]

theorem queries_bind (H : Q → A) (x : OracleAlg Q A α) (f : α → OracleAlg Q A β) :
    (x.bind f).queries H = x.queries H ++ (f (x.run H)).queries H := by
  induction x with
  | done a => rfl
  | ask q next ih => simp [bind, run, queries, ih]

theorem AtMost.mono {n m : ℕ} (hnm : n ≤ m) {x : OracleAlg Q A α} (h : x.AtMost n) : x.AtMost m := by
  induction x generalizing n m with
  | done a => cases m <;> trivial
  | ask q next ih =>
    cases n with
    | zero => exact absurd h (by simp [AtMost])
    | succ n =>
      cases m with
      | zero => omega
      | succ m => exact fun a => ih a (by omega) (h a)

theorem AtMost.bind {n m : ℕ} {x : OracleAlg Q A α} {f : α → OracleAlg Q A β} (h : x.AtMost n)
    (hf : ∀ a, (f a).AtMost m) : (x.bind f).AtMost (n + m) := by
  induction x generalizing n with
  | done a => exact (hf a).mono (by omega)
  | ask q next ih =>
    cases n with
    | zero => exact absurd h (by simp [AtMost])
    | succ n =>
      rw [show n + 1 + m = n + m + 1 by omega]
      exact fun a => ih a (h a)

theorem atMost_done (n : ℕ) (a : α) : (done a : OracleAlg Q A α).AtMost n := by cases n <;> trivial

theorem AtMost.queries_length {n : ℕ} {x : OracleAlg Q A α} (h : x.AtMost n) (H : Q → A) :
    (x.queries H).length ≤ n := by
  induction x generalizing n with
  | done a => simp [queries]
  | ask q next ih =>
    cases n with
    | zero => exact absurd h (by simp [AtMost])
    | succ n => simpa [queries] using ih _ (h _)

/-- All data that can be hashed belong to `D`. -/
def Within (D : Set Q) : OracleAlg Q A α → Prop
  | done _ => True
  | ask q next => q ∈ D ∧ ∀ a, Within D (next a)

theorem Within.mono {D D' : Set Q} (h : D ⊆ D') {x : OracleAlg Q A α} (hx : x.Within D) :
    x.Within D' := by
  induction x with
  | done a => trivial
  | ask q next ih => exact ⟨h hx.1, fun a => ih a (hx.2 a)⟩

theorem exists_within [Finite A] (x : OracleAlg Q A α) : ∃ D : Finset Q, x.Within (D : Set Q) := by
  classical
  induction x with
  | done a => exact ⟨∅, trivial⟩
  | ask q next ih =>
    choose D hD using ih
    have := Fintype.ofFinite A
    refine ⟨insert q (Finset.univ.biUnion D), by simp, fun a => (hD a).mono ?_⟩
    intro q' hq'
    simp only [Finset.coe_insert, Finset.coe_biUnion, Set.mem_insert_iff, Set.mem_iUnion]
    exact .inr ⟨a, by simp, hq'⟩

open Classical in
/-- Some fresh query is answered by a value that is bad in view of the earlier queries. -/
def Hit (bad : List Q → Q → Set A) (H : Q → A) : OracleAlg Q A α → List Q → Prop
  | done _, _ => False
  | ask q next, hist =>
    if q ∈ hist then Hit bad H (next (H q)) hist
    else H q ∈ bad hist q ∨ Hit bad H (next (H q)) (hist ++ [q])

end OracleAlg

theorem mem_hashFamily [Finite A] {D : Finset Q} {H₀ H : Q → A} :
    H ∈ hashFamily D H₀ ↔ ∀ q ∉ D, H q = H₀ q := by
  simp [hashFamily]

section
variable [Fintype A]

open Classical in
/-- Fixing one more hash value splits the family. -/
theorem hashFamily_filter_eq {D : Finset Q} {H₀ : Q → A} {q : Q} (a : A) (P : (Q → A) → Prop) (hq : q ∈ D) :
    ((hashFamily D H₀).filter P).filter (fun H => H q = a) =
      (hashFamily (D.erase q) (Function.update H₀ q a)).filter P := by
  ext H
  simp only [Finset.mem_filter, mem_hashFamily, Finset.mem_erase, ne_eq, not_and]
  constructor
  · rintro ⟨⟨h1, h2⟩, h3⟩
    refine ⟨fun q' hq' => ?_, h2⟩
    by_cases h : q' = q
    · subst h; simp [h3]
    · rw [Function.update_of_ne h]; exact h1 _ (hq' h)
  · rintro ⟨h1, h2⟩
    refine ⟨⟨fun q' hq' => ?_, h2⟩, ?_⟩
    · have h : q' ≠ q := by rintro rfl; exact hq' hq
      rw [h1 q' fun _ => hq', Function.update_of_ne h]
    · rw [h1 q (fun h => absurd rfl h)]; simp

open Classical in
theorem card_hashFamily_filter {D : Finset Q} {H₀ : Q → A} {q : Q} (P : (Q → A) → Prop) (hq : q ∈ D) :
    ((hashFamily D H₀).filter P).card =
      ∑ a, ((hashFamily (D.erase q) (Function.update H₀ q a)).filter P).card := by
  rw [Finset.card_eq_sum_card_fiberwise (f := fun H => H q) (t := Finset.univ) (fun _ _ => by simp)]
  exact Finset.sum_congr rfl fun a _ => by rw [hashFamily_filter_eq a P hq]

open Classical in
theorem card_hashFamily (D : Finset Q) (H₀ : Q → A) :
    (hashFamily D H₀).card = Fintype.card A ^ D.card := by
  induction D using Finset.induction_on generalizing H₀ with
  | empty =>
    have : hashFamily ∅ H₀ = {H₀} := by
      ext H
      simp only [mem_hashFamily, Finset.notMem_empty, not_false_eq_true, forall_const,
        Finset.mem_singleton]
      exact funext_iff.symm
    simp [this]
  | insert q D hq ih =>
    have h := card_hashFamily_filter (H₀ := H₀) (fun _ => True) (Finset.mem_insert_self q D)
    simp only [Finset.filter_true, Finset.erase_insert hq, ih, Finset.sum_const, Finset.card_univ,
      smul_eq_mul] at h
    rw [h, Finset.card_insert_of_notMem hq, pow_succ, mul_comm]

open Classical in
/-- The central counting argument: if after `i` distinct queries at most `b i` answers are bad, the number of
hash functions for which an algorithm with `n` queries gets a bad answer is at most `Σ b i / |A|` of all. -/
theorem OracleAlg.card_hit (bad : List Q → Q → Set A) (b : ℕ → ℕ)
    (hb : ∀ hist q, (bad hist q).ncard ≤ b hist.length) (x : OracleAlg Q A α) :
    ∀ (n : ℕ) (hist : List Q) (D : Finset Q) (H₀ : Q → A), x.AtMost n →
      x.Within {q | q ∈ D ∨ q ∈ hist} → (∀ q ∈ D, q ∉ hist) →
      ((hashFamily D H₀).filter fun H => x.Hit bad H hist).card * Fintype.card A ≤
        (∑ i ∈ Finset.range n, b (hist.length + i)) * Fintype.card A ^ D.card := by
  induction x with
  | done a =>
    intro n hist D H₀ _ _ _
    have : ((hashFamily D H₀).filter fun H => (done a : OracleAlg Q A α).Hit bad H hist) = ∅ :=
      Finset.filter_eq_empty_iff.mpr fun H _ h => h
    rw [this]
    simp
  | ask q next ih =>
    intro n hist D H₀ hn hw hd
    cases n with
    | zero => exact absurd hn (by simp [AtMost])
    | succ n =>
      by_cases hq : q ∈ hist
      · have hqD : q ∉ D := fun h => hd q h hq
        have he : ((hashFamily D H₀).filter fun H => (ask q next).Hit bad H hist) =
            (hashFamily D H₀).filter fun H => (next (H₀ q)).Hit bad H hist := by
          refine Finset.filter_congr fun H hH => ?_
          rw [Hit, if_pos hq, mem_hashFamily.mp hH q hqD]
        rw [he]
        refine (ih _ n hist D H₀ (hn _) (hw.2 _) hd).trans ?_
        refine Nat.mul_le_mul_right _ ?_
        rw [Finset.sum_range_succ]
        omega
      · have hqD : q ∈ D := (hw.1 : q ∈ D ∨ q ∈ hist).resolve_right hq
        rw [card_hashFamily_filter _ hqD]
        have hD : D.card = (D.erase q).card + 1 := by
          rw [Finset.card_erase_of_mem hqD]
          have := Finset.card_pos.mpr ⟨q, hqD⟩
          omega
        have hstep : ∀ a : A,
            ((hashFamily (D.erase q) (Function.update H₀ q a)).filter
              fun H => (ask q next).Hit bad H hist).card * Fintype.card A ≤
            (if a ∈ bad hist q then Fintype.card A ^ D.card else 0) +
            (∑ i ∈ Finset.range n, b (hist.length + 1 + i)) * Fintype.card A ^ (D.erase q).card := by
          intro a
          by_cases ha : a ∈ bad hist q
          · rw [if_pos ha]
            have h1 := Finset.card_filter_le (hashFamily (D.erase q) (Function.update H₀ q a))
              fun H => (ask q next).Hit bad H hist
            rw [card_hashFamily] at h1
            have h2 := Nat.mul_le_mul_right (Fintype.card A) h1
            rw [← pow_succ, ← hD] at h2
            omega
          · rw [if_neg ha, zero_add]
            have he : ((hashFamily (D.erase q) (Function.update H₀ q a)).filter
                  fun H => (ask q next).Hit bad H hist) =
                (hashFamily (D.erase q) (Function.update H₀ q a)).filter
                  fun H => (next a).Hit bad H (hist ++ [q]) := by
              refine Finset.filter_congr fun H hH => ?_
              have : H q = a := by rw [mem_hashFamily.mp hH q (by simp)]; simp
              rw [Hit, if_neg hq, this]
              simp [ha]
            rw [he]
            have := ih a n (hist ++ [q]) (D.erase q) (Function.update H₀ q a) (hn a)
              ((hw.2 a).mono ?_) ?_
            · simpa using this
            · intro q' hq'
              simp only [Set.mem_ofPred_eq, Finset.mem_erase, List.mem_append, List.mem_singleton] at hq' ⊢
              by_cases h : q' = q <;> tauto
            · intro q' hq'
              simp only [Finset.mem_erase, List.mem_append, List.mem_singleton] at hq' ⊢
              rintro (h | h)
              · exact hd _ hq'.2 h
              · exact hq'.1 h
        rw [Finset.sum_mul]
        refine (Finset.sum_le_sum fun a _ => hstep a).trans ?_
        rw [Finset.sum_add_distrib, ← Finset.sum_filter, Finset.sum_const, Finset.sum_const,
          Finset.card_univ, smul_eq_mul, smul_eq_mul, Finset.sum_range_succ']
        have h1 : (Finset.univ.filter fun a => a ∈ bad hist q).card ≤ b hist.length := by
          refine le_trans (le_of_eq ?_) (hb hist q)
          rw [Set.ncard_eq_toFinset_card', Set.toFinset_card, Fintype.card_subtype]
        have h2 : ∑ i ∈ Finset.range n, b (hist.length + 1 + i) =
            ∑ i ∈ Finset.range n, b (hist.length + (i + 1)) :=
          Finset.sum_congr rfl fun i _ => by rw [show hist.length + 1 + i = hist.length + (i + 1) by omega]
        rw [h2, hD, pow_succ]
        have h3 := Nat.mul_le_mul_right (Fintype.card A ^ (D.erase q).card * Fintype.card A) h1
        rw [Nat.add_zero, add_mul]
        refine (Nat.add_le_add_right h3 _).trans (le_of_eq ?_)
        ring

/-- If an event implies that an algorithm with at most `n` queries gets a bad answer, its probability is
bounded. -/
theorem probLe_of_hit [Nonempty A] {P : (Q → A) → Prop} (bad : List Q → Q → Set A) (b : ℕ → ℕ)
    (hb : ∀ hist q, (bad hist q).ncard ≤ b hist.length) (x : OracleAlg Q A α) {n : ℕ} (hn : x.AtMost n)
    (hP : ∀ H, P H → x.Hit bad H []) :
    ProbLe P ((∑ i ∈ Finset.range n, b i : ℕ) / Fintype.card A) := by
  classical
  obtain ⟨D₀, hD₀⟩ := x.exists_within
  refine ⟨D₀, fun D hD H₀ => ?_⟩
  have h := x.card_hit bad b hb n [] D H₀ hn (hD₀.mono fun q hq => .inl (hD hq)) (by simp)
  simp only [List.length_nil, zero_add] at h
  have h2 : ((hashFamily D H₀).filter P).card ≤
      ((hashFamily D H₀).filter fun H => x.Hit bad H []).card :=
    Finset.card_le_card (Finset.monotone_filter_right _ fun H _ => hP H)
  have hA : (0 : ℚ) < Fintype.card A := by exact_mod_cast Fintype.card_pos
  rw [card_hashFamily, div_mul_eq_mul_div, le_div_iff₀ hA]
  have h3 := (Nat.mul_le_mul_right (Fintype.card A) h2).trans h
  exact_mod_cast h3

end

/-- A query with the only bad answer is a hit. -/
theorem OracleAlg.hit_of_mem {bad : Q → A} {H : Q → A} (x : OracleAlg Q A α) {q : Q} (h : H q = bad q) :
    ∀ {hist : List Q}, q ∈ x.queries H → q ∉ hist → x.Hit (fun _ q => {bad q}) H hist := by
  induction x with
  | done a => intro hist hq; simp [queries] at hq
  | ask q' next ih =>
    intro hist hq hh
    simp only [queries, List.mem_cons] at hq
    rw [Hit]
    by_cases h1 : q = q'
    · subst h1
      rw [if_neg hh]
      exact .inl h
    · have hq := hq.resolve_left h1
      split
      · exact ih _ hq hh
      · exact .inr (ih _ hq (by simp [hh, h1]))

/-- If each of some queries is answered by what another one of them requires, then some query is answered by
what an earlier query requires. -/
theorem OracleAlg.hit_of_cycle {target : Q → Q → A → Prop} {H : Q → A} (S : Q → Prop)
    (hnext : ∀ q, S q → ∃ q', S q' ∧ q' ≠ q ∧ target q' q (H q)) (x : OracleAlg Q A α) :
    ∀ {hist : List Q}, (∀ q, S q → q ∈ x.queries H ∨ q ∈ hist) → (∃ q, S q ∧ q ∉ hist) →
      x.Hit (fun hist q => {a | ∃ q' ∈ hist, target q' q a}) H hist := by
  induction x with
  | done a =>
    rintro hist h ⟨q, h1, h2⟩
    rcases h q h1 with h | h
    · simp [queries] at h
    · exact absurd h h2
  | ask q next ih =>
    rintro hist h ⟨q₁, h1, h2⟩
    rw [Hit]
    split
    · rename_i hq
      refine ih _ (fun q' hq' => ?_) ⟨q₁, h1, h2⟩
      rcases h q' hq' with h | h
      · simp only [queries, List.mem_cons] at h
        rcases h with rfl | h
        · exact .inr hq
        · exact .inl h
      · exact .inr h
    · rename_i hq
      by_cases hall : ∀ q', S q' → q' ∈ hist ++ [q]
      · left
        have hq1 : q₁ = q := by simpa [h2] using hall q₁ h1
        subst hq1
        obtain ⟨q', h3, h4, h5⟩ := hnext _ h1
        exact ⟨q', by simpa [h4] using hall q' h3, h5⟩
      · push Not at hall
        right
        refine ih _ (fun q' hq' => ?_) hall
        rcases h q' hq' with h | h
        · simp only [queries, List.mem_cons] at h
          rcases h with rfl | h
          · exact .inr (by simp)
          · exact .inl h
        · exact .inr (by simp [h])

section
variable [Finite A]

theorem Spec.ProbLe.mono {P P' : (Q → A) → Prop} {ε ε' : ℚ} (h : ProbLe P ε) (hP : ∀ H, P' H → P H)
    (hε : ε ≤ ε') : ProbLe P' ε' := by
  classical
  obtain ⟨D₀, h⟩ := h
  refine ⟨D₀, fun D hD H₀ => ?_⟩
  have h1 : (((hashFamily D H₀).filter P').card : ℚ) ≤ ((hashFamily D H₀).filter P).card := by
    exact_mod_cast Finset.card_le_card (Finset.monotone_filter_right _ fun H _ => hP H)
  have h2 : ε * (hashFamily D H₀).card ≤ ε' * (hashFamily D H₀).card :=
    mul_le_mul_of_nonneg_right hε (by positivity)
  have := h D hD H₀
  linarith

theorem Spec.ProbLe.or {P P' : (Q → A) → Prop} {ε ε' : ℚ} (h : ProbLe P ε) (h' : ProbLe P' ε') :
    ProbLe (fun H => P H ∨ P' H) (ε + ε') := by
  classical
  obtain ⟨D₁, h⟩ := h
  obtain ⟨D₂, h'⟩ := h'
  refine ⟨D₁ ∪ D₂, fun D hD H₀ => ?_⟩
  have h1 := h D (Finset.union_subset_left hD) H₀
  have h2 := h' D (Finset.union_subset_right hD) H₀
  have h3 : (((hashFamily D H₀).filter fun H => P H ∨ P' H).card : ℚ) ≤
      ((hashFamily D H₀).filter P).card + ((hashFamily D H₀).filter P').card := by
    rw [Finset.filter_or]
    exact_mod_cast Finset.card_union_le _ _
  have h4 := h3.trans (add_le_add h1 h2)
  rw [← add_mul] at h4
  refine le_trans (le_of_eq ?_) h4
  congr!

theorem probLe_false : ProbLe (fun _ : Q → A => False) 0 := ⟨∅, fun D _ H₀ => by simp⟩

/-- Union bound over `n` events. -/
theorem probLe_exists {P : ℕ → (Q → A) → Prop} {ε : ℚ} {n : ℕ} (h : ∀ i < n, ProbLe (P i) ε) :
    ProbLe (fun H => ∃ i < n, P i H) (n * ε) := by
  induction n with
  | zero => exact probLe_false.mono (by simp) (by simp)
  | succ n ih =>
    refine ((ih fun i hi => h i (by omega)).or (h n (by omega))).mono ?_ (by push_cast; linarith)
    rintro H ⟨i, hi, hP⟩
    rcases Nat.lt_succ_iff_lt_or_eq.mp hi with h | rfl
    · exact .inl ⟨i, h, hP⟩
    · exact .inr hP

end

/-- An algorithm followed by the evaluation of the hash function at a place that depends on the output: the
probability to get the only bad value there. -/
theorem probLe_single [Fintype A] [Nonempty A] {P : (Q → A) → Prop} (bad : Q → A) (x : OracleAlg Q A α)
    {n : ℕ} (hn : x.AtMost n) (query : α → Option Q)
    (hP : ∀ H, P H → ∃ q, query (x.run H) = some q ∧ H q = bad q) :
    ProbLe P (((n + 1 : ℕ) : ℚ) / Fintype.card A) := by
  let f : α → OracleAlg Q A Unit := fun a =>
    match query a with
    | none => .done ()
    | some q => .ask q fun _ => .done ()
  have h := probLe_of_hit (P := P) (fun _ q => {bad q}) (fun _ => 1) (fun _ _ => by simp) (x.bind f)
    (n := n + 1) (hn.bind fun a => by
      simp only [f]; split
      · exact OracleAlg.atMost_done _ _
      · exact fun _ => OracleAlg.atMost_done _ _) (fun H hH => by
      obtain ⟨q, h1, h2⟩ := hP H hH
      refine OracleAlg.hit_of_mem _ h2 ?_ (by simp)
      rw [OracleAlg.queries_bind]
      simp [f, h1, OracleAlg.queries])
  simpa using h

end ElasticElgamal
