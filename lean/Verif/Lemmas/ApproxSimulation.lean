import Verif.Lemmas.Simulation
import Mathlib.Tactic.Linarith
import Mathlib.Tactic.Ring
import Mathlib.Tactic.FieldSimp

/-!
# Simulation with a programmed hash function up to collisions
-/

set_option autoImplicit false
set_option linter.unusedSectionVars false

namespace ElasticElgamal

open Spec

section
variable {α : Type} [Fintype α]

theorem mean_le_mean {f g : α → ℚ} (h : ∀ a, f a ≤ g a) : mean f ≤ mean g :=
  div_le_div_of_nonneg_right (Finset.sum_le_sum fun a _ => h a) (Nat.cast_nonneg _)

theorem mean_nonneg {f : α → ℚ} (h : ∀ a, 0 ≤ f a) : 0 ≤ mean f :=
  div_nonneg (Finset.sum_nonneg fun a _ => h a) (Nat.cast_nonneg _)

theorem abs_mean_le (f : α → ℚ) : |mean f| ≤ mean fun a => |f a| := by
  rw [mean, abs_div, Nat.abs_cast]
  exact div_le_div_of_nonneg_right (Finset.abs_sum_le_sum_abs _ _) (Nat.cast_nonneg _)

theorem meanHash_le_meanHash {Q : Type} {D : Finset Q} {H₀ : Q → α} {f g : (Q → α) → ℚ} (h : ∀ a, f a ≤ g a) :
    meanHash D H₀ f ≤ meanHash D H₀ g :=
  div_le_div_of_nonneg_right (Finset.sum_le_sum fun a _ => h a) (Nat.cast_nonneg _)

theorem mean_mul (f : α → ℚ) (x : ℚ) : (mean fun a => f a * x) = mean f * x := by
  rw [mean, mean, ← Finset.sum_mul, mul_div_right_comm]

end

open Classical in
/-- Outputs of an algorithm with a random tape compared with uniformly random ones and a programmed hash function. The
difference is at most the probability that the places of the programmed values are not different. The
function `f` is bounded by a function `w` that is not affected by programming. -/
theorem rom_simulation_approx {Q A S T O : Type} [DecidableEq Q] [Fintype A] [Nonempty A] [Fintype S] [Fintype T]
    [Nonempty T] {pts : (Q → A) → S → List (Q × A)} {k : ℕ} {D : Finset Q} (hp : Programmable pts k D)
    (H₀ : Q → A) (out : (Q → A) → T → O) (dec : S → O)
    (hinj : Function.Injective dec) (hex : ∀ H s, Has H (pts H s) → ∃! t, out H t = dec s)
    (hcov : ∀ H t, ∃ s, Has H (pts H s) ∧ out H t = dec s)
    (hcard : Fintype.card S = Fintype.card T * Fintype.card A ^ k) (f : (Q → A) → O → ℚ) (w : (Q → A) → ℚ)
    (hf : ∀ H o, 0 ≤ f H o ∧ f H o ≤ w H) (hw : ∀ H s, w (program H (pts H s)) = w H) :
    |meanHash D H₀ (fun H => mean fun t => f H (out H t)) -
      mean fun s => meanHash D H₀ fun H => f (program H (pts H s)) (dec s)| ≤
    mean fun s => meanHash D H₀ fun H => if ((pts H s).map Prod.fst).Nodup then 0 else w H := by
  have hA : (0 : ℚ) < (Fintype.card A : ℚ) ^ k := pow_pos (by exact_mod_cast Fintype.card_pos) _
  have hT : (0 : ℚ) < Fintype.card T := by exact_mod_cast Fintype.card_pos
  have hN : (0 : ℚ) < (hashFamily D H₀).card := by
    rw [Nat.cast_pos, Finset.card_pos]
    exact ⟨H₀, mem_hashFamily.mpr fun _ _ => rfl⟩
  let nd : (Q → A) → S → Prop := fun H s => ((pts H s).map Prod.fst).Nodup
  -- sums over outputs
  have h1 : ∀ (g : (Q → A) → O → ℚ) H, ∑ t, g H (out H t) = ∑ s, if Has H (pts H s) then g H (dec s) else 0 :=
    fun g H => sum_outputs hinj (hex H) (hcov H) (g H)
  have hsplit : ∀ (g : (Q → A) → O → ℚ),
      (∑ H ∈ hashFamily D H₀, ∑ t, g H (out H t)) * (Fintype.card A : ℚ) ^ k =
      (∑ s, ∑ H ∈ hashFamily D H₀, if nd H s then g (program H (pts H s)) (dec s) else 0) +
      ∑ s, (∑ H ∈ hashFamily D H₀, if ¬ nd H s ∧ Has H (pts H s) then g H (dec s) else 0) *
        (Fintype.card A : ℚ) ^ k := by
    intro g
    simp only [h1]
    rw [Finset.sum_comm, Finset.sum_mul, ← Finset.sum_add_distrib]
    refine Finset.sum_congr rfl fun s _ => ?_
    have := sum_program hp H₀ s (fun H => g H (dec s))
    rw [Finset.sum_filter, Finset.sum_filter] at this
    rw [show (∑ H ∈ hashFamily D H₀, if nd H s then g (program H (pts H s)) (dec s) else 0) = _ from this.symm,
      ← add_mul, ← Finset.sum_add_distrib]
    congr 1
    refine Finset.sum_congr rfl fun H _ => ?_
    by_cases hn : nd H s <;> by_cases hh : Has H (pts H s) <;> simp [nd, hh] at hn ⊢ <;> simp [hn]
  have hsim : ∀ (g : (Q → A) → O → ℚ), (∑ s, ∑ H ∈ hashFamily D H₀, g (program H (pts H s)) (dec s)) =
      (∑ s, ∑ H ∈ hashFamily D H₀, if nd H s then g (program H (pts H s)) (dec s) else 0) +
      ∑ s, ∑ H ∈ hashFamily D H₀, if nd H s then 0 else g (program H (pts H s)) (dec s) := by
    intro g
    rw [← Finset.sum_add_distrib]
    refine Finset.sum_congr rfl fun s _ => ?_
    rw [← Finset.sum_add_distrib]
    refine Finset.sum_congr rfl fun H _ => ?_
    by_cases hn : nd H s <;> simp [hn]
  -- masses
  have hmass : (∑ s, (∑ H ∈ hashFamily D H₀, if ¬ nd H s ∧ Has H (pts H s) then w H else 0) *
      (Fintype.card A : ℚ) ^ k) = ∑ s, ∑ H ∈ hashFamily D H₀, if nd H s then 0 else w H := by
    have e1 := hsplit fun H _ => w H
    have e2 := hsim fun H _ => w H
    simp only [hw] at e1 e2
    have e3 : (∑ H ∈ hashFamily D H₀, ∑ _t : T, w H) * (Fintype.card A : ℚ) ^ k =
        ∑ _s : S, ∑ H ∈ hashFamily D H₀, w H := by
      simp only [Finset.sum_const, Finset.card_univ, nsmul_eq_mul, hcard, ← Finset.mul_sum]
      push_cast
      ring
    linarith
  have hR := hsplit f
  have hS := hsim f
  set N := ∑ s, ∑ H ∈ hashFamily D H₀, if nd H s then f (program H (pts H s)) (dec s) else 0
  set X := ∑ s, (∑ H ∈ hashFamily D H₀, if ¬ nd H s ∧ Has H (pts H s) then f H (dec s) else 0) *
        (Fintype.card A : ℚ) ^ k with hX
  set Y := ∑ s, ∑ H ∈ hashFamily D H₀, if nd H s then 0 else f (program H (pts H s)) (dec s) with hY
  set Z := ∑ s, ∑ H ∈ hashFamily D H₀, if nd H s then 0 else w H with hZ
  have hX0 : 0 ≤ X := Finset.sum_nonneg fun s _ => mul_nonneg (Finset.sum_nonneg fun H _ => by
    split
    · exact (hf _ _).1
    · exact le_rfl) hA.le
  have hXZ : X ≤ Z := by
    rw [← hmass]
    refine Finset.sum_le_sum fun s _ => mul_le_mul_of_nonneg_right (Finset.sum_le_sum fun H _ => ?_) hA.le
    split
    · exact (hf _ _).2
    · exact le_rfl
  have hY0 : 0 ≤ Y := Finset.sum_nonneg fun s _ => Finset.sum_nonneg fun H _ => by
    split
    · exact le_rfl
    · exact (hf _ _).1
  have hYZ : Y ≤ Z := by
    refine Finset.sum_le_sum fun s _ => Finset.sum_le_sum fun H _ => ?_
    split
    · exact le_rfl
    · exact (hf _ _).2.trans_eq (hw _ _)
  have hS' : (Fintype.card S : ℚ) = Fintype.card T * (Fintype.card A : ℚ) ^ k := by
    rw [hcard]; push_cast; ring
  have hSpos : (0 : ℚ) < Fintype.card S := by rw [hS']; positivity
  have hreal : meanHash D H₀ (fun H => mean fun t => f H (out H t)) =
      (N + X) / (Fintype.card S * (hashFamily D H₀).card) := by
    rw [← hR, hS']
    simp only [meanHash, mean, ← Finset.sum_div]
    field_simp
  have hsim' : (mean fun s => meanHash D H₀ fun H => f (program H (pts H s)) (dec s)) =
      (N + Y) / (Fintype.card S * (hashFamily D H₀).card) := by
    rw [← hS]
    simp only [meanHash, mean, ← Finset.sum_div]
    field_simp
  have hbound : (mean fun s => meanHash D H₀ fun H => if ((pts H s).map Prod.fst).Nodup then 0 else w H) =
      Z / (Fintype.card S * (hashFamily D H₀).card) := by
    simp only [meanHash, mean, ← Finset.sum_div]
    field_simp
    rfl
  rw [hreal, hsim', hbound, ← sub_div, abs_div, abs_of_pos (mul_pos hSpos hN)]
  refine div_le_div_of_nonneg_right ?_ (mul_pos hSpos hN).le
  rw [abs_le]
  constructor <;> linarith

/-! ## Families of provers that hash once -/

/-- A prover that hashes once: `dec s` is the output described by the scalars `s`. It is produced by exactly one
tape if the hash value of `query s` is `answer s`, otherwise by none. No query is likely for random scalars. -/
structure HashOnce {Q A S T O : Type} [Fintype A] [Fintype S] [Fintype T] [DecidableEq Q] (out : (Q → A) → T → O) (dec : S → O) (query : S → Q)
    (answer : S → A) : Prop where
  inj : Function.Injective dec
  unique : ∀ H s, H (query s) = answer s → ∃! t, out H t = dec s
  cover : ∀ H t, ∃ s, H (query s) = answer s ∧ out H t = dec s
  card : Fintype.card S = Fintype.card T * Fintype.card A
  spread : ∀ q, (Finset.univ.filter fun s => query s = q).card * Fintype.card A ≤ Fintype.card S

section
variable {Q A ι : Type} [DecidableEq Q] [Fintype A] [Nonempty A] [Fintype ι] [DecidableEq ι] {S T O : ι → Type}
  [∀ i, Fintype (S i)] [∀ i, Fintype (T i)] [∀ i, Nonempty (T i)]

/-- Choosing one coordinate first. -/
theorem mean_pi_split (i : ι) (f : (∀ i, S i) → ℚ) :
    mean f = mean fun rest : ∀ j : {j // j ≠ i}, S j => mean fun s : S i => f ((Equiv.piSplitAt i S).symm (s, rest)) := by
  rw [← mean_equiv (Equiv.piSplitAt i S).symm, mean_prod, mean_comm]

/-- Values to be programmed for all provers. -/
def familyPoints (query : ∀ i, S i → Q) (answer : ∀ i, S i → A) (l : List ι) (ss : ∀ i, S i) : List (Q × A) :=
  l.map fun i => (query i (ss i), answer i (ss i))

/-- Queries of different provers are rarely equal. -/
theorem mean_pair_le [∀ i, Nonempty (S i)] (query : ∀ i, S i → Q)
    (hs : ∀ i q, (Finset.univ.filter fun s => query i s = q).card * Fintype.card A ≤ Fintype.card (S i)) {i j : ι}
    (hij : i ≠ j) : (mean fun ss : ∀ i, S i => if query i (ss i) = query j (ss j) then 1 else 0) ≤
      1 / (Fintype.card A : ℚ) := by
  have hA : (0 : ℚ) < Fintype.card A := by exact_mod_cast Fintype.card_pos
  rw [mean_pi_split i, ← mean_const (α := ∀ j : {j // j ≠ i}, S j) (1 / (Fintype.card A : ℚ))]
  refine mean_le_mean fun rest => ?_
  have h1 : ∀ s : S i, (Equiv.piSplitAt i S).symm (s, rest) i = s := fun s => by simp [Equiv.piSplitAt]
  have h2 : ∀ s : S i, (Equiv.piSplitAt i S).symm (s, rest) j = rest ⟨j, hij.symm⟩ := fun s => by
    simp [Equiv.piSplitAt, hij.symm]
  simp only [h1, h2]
  have hS : (0 : ℚ) < Fintype.card (S i) := by exact_mod_cast Fintype.card_pos
  rw [mean, ← Finset.sum_filter, Finset.sum_const, nsmul_eq_mul, mul_one, div_le_div_iff₀ hS hA, one_mul]
  exact_mod_cast hs i _

theorem mean_collision_le [∀ i, Nonempty (S i)] (query : ∀ i, S i → Q)
    (hs : ∀ i q, (Finset.univ.filter fun s => query i s = q).card * Fintype.card A ≤ Fintype.card (S i)) :
    ∀ {l : List ι}, l.Nodup →
      (mean fun ss : ∀ i, S i => if (l.map fun i => query i (ss i)).Nodup then 0 else 1) ≤
        (l.length.choose 2 : ℚ) / Fintype.card A
  | [], _ => by simp [mean]
  | i :: l, h => by
    obtain ⟨hi, hl⟩ := List.nodup_cons.mp h
    have hA : (0 : ℚ) < Fintype.card A := by exact_mod_cast Fintype.card_pos
    have key : ∀ ss : ∀ i, S i, (if ((i :: l).map fun i => query i (ss i)).Nodup then (0 : ℚ) else 1) ≤
        (l.map fun j => if query i (ss i) = query j (ss j) then (1 : ℚ) else 0).sum +
        if (l.map fun i => query i (ss i)).Nodup then 0 else 1 := by
      intro ss
      have h0 : 0 ≤ (l.map fun j => if query i (ss i) = query j (ss j) then (1 : ℚ) else 0).sum :=
        List.sum_nonneg fun x hx => by
          obtain ⟨j, -, rfl⟩ := List.mem_map.mp hx
          split <;> norm_num
      have hn : (0 : ℚ) ≤ if (l.map fun i => query i (ss i)).Nodup then 0 else 1 := by split <;> norm_num
      simp only [List.map_cons, List.nodup_cons]
      by_cases hm : query i (ss i) ∈ l.map fun i => query i (ss i)
      · rw [if_neg fun h => h.1 hm]
        obtain ⟨j, hj, he⟩ := List.mem_map.mp hm
        have : (1 : ℚ) ≤ (l.map fun j => if query i (ss i) = query j (ss j) then (1 : ℚ) else 0).sum := by
          have := List.single_le_sum (l := l.map fun j => if query i (ss i) = query j (ss j) then (1 : ℚ) else 0)
            (fun x hx => by
              obtain ⟨j, -, rfl⟩ := List.mem_map.mp hx
              split <;> norm_num) _ (List.mem_map_of_mem hj)
          rwa [if_pos he.symm] at this
        linarith
      · simp only [hm, not_false_eq_true, true_and]
        linarith
    refine (mean_le_mean key).trans ?_
    have hadd : ∀ f g : (∀ i, S i) → ℚ, (mean fun ss => f ss + g ss) = mean f + mean g := by
      intro f g
      rw [mean, mean, mean, Finset.sum_add_distrib, add_div]
    have hsum : ∀ l' : List ι, (∀ j ∈ l', i ≠ j) →
        (mean fun ss : ∀ i, S i => (l'.map fun j => if query i (ss i) = query j (ss j) then (1 : ℚ) else 0).sum) ≤
        l'.length / (Fintype.card A : ℚ) := by
      intro l'
      induction l' with
      | nil => intro _; simp [mean]
      | cons j l' ih =>
        intro hj
        simp only [List.map_cons, List.sum_cons, hadd, List.length_cons]
        push_cast
        rw [add_comm (l'.length : ℚ), add_div]
        exact add_le_add (mean_pair_le query hs (hj j List.mem_cons_self)) (ih fun j' h' => hj j' (List.mem_cons_of_mem _ h'))
    rw [hadd, List.length_cons, Nat.choose_succ_succ' l.length 1, Nat.choose_one_right]
    push_cast
    rw [add_div]
    exact add_le_add (hsum l fun j hj => fun h => hi (h ▸ hj)) (mean_collision_le query hs hl)

/-- Outputs of several provers that hash once can be replaced by random ones and a programmed hash function. -/
theorem family_simulation {l : List ι} (hl : l.Nodup) (hmem : ∀ i, i ∈ l) {out : ∀ i, (Q → A) → T i → O i}
    {dec : ∀ i, S i → O i} {query : ∀ i, S i → Q} {answer : ∀ i, S i → A}
    (h : ∀ i, HashOnce (out i) (dec i) (query i) (answer i)) (D : Finset Q) (hD : ∀ i s, query i s ∈ D) (H₀ : Q → A)
    (f : (Q → A) → (∀ i, O i) → ℚ) (w : (Q → A) → ℚ) (hf : ∀ H o, 0 ≤ f H o ∧ f H o ≤ w H)
    (hw : ∀ H ss, w (program H (familyPoints query answer l ss)) = w H) :
    |meanHash D H₀ (fun H => mean fun ts : ∀ i, T i => f H fun i => out i H (ts i)) -
      mean fun ss => meanHash D H₀ fun H => f (program H (familyPoints query answer l ss)) fun i => dec i (ss i)| ≤
    (l.length.choose 2 : ℚ) / Fintype.card A * meanHash D H₀ w := by
  have hne : ∀ i, Nonempty (S i) := fun i => by
    rw [← Fintype.card_pos_iff, (h i).card]
    exact Nat.mul_pos Fintype.card_pos Fintype.card_pos
  have hll : l.length = Fintype.card ι := by
    rw [← List.toFinset_card_of_nodup hl, ← Finset.card_univ]
    congr 1
    ext i
    simp [hmem]
  have hmap : ∀ ss, (familyPoints query answer l ss).map Prod.fst = l.map fun i => query i (ss i) := by
    intro ss
    simp [familyPoints, Function.comp_def]
  have hhas : ∀ H ss, Has H (familyPoints query answer l ss) ↔ ∀ i, H (query i (ss i)) = answer i (ss i) := by
    intro H ss
    simp [Has, familyPoints, hmem]
  refine (rom_simulation_approx (pts := fun _ => familyPoints query answer l) (k := l.length) ⟨fun _ _ _ _ => rfl,
    fun _ _ => by simp [familyPoints], ?_⟩ H₀ (fun H (ts : ∀ i, T i) i => out i H (ts i)) (fun ss i => dec i (ss i)) ?_ ?_ ?_ ?_
    f w hf hw).trans ?_
  · intro _ ss qa hqa
    obtain ⟨i, -, rfl⟩ := List.mem_map.mp hqa
    exact hD i _
  · intro s s' hs
    exact funext fun i => (h i).inj (congrFun hs i)
  · intro H s hs
    rw [hhas] at hs
    choose t ht hu using fun i => (h i).unique H (s i) (hs i)
    exact ⟨t, funext ht, fun t' ht' => funext fun i => hu i _ (congrFun ht' i)⟩
  · intro H t
    choose s hs ht using fun i => (h i).cover H (t i)
    exact ⟨s, (hhas H s).mpr hs, funext ht⟩
  · rw [Fintype.card_pi, Fintype.card_pi, hll, Finset.prod_congr rfl fun i _ => (h i).card, Finset.prod_mul_distrib,
      Finset.prod_const, Finset.card_univ]
  · have h1 : ∀ ss, (meanHash D H₀ fun H => if ((familyPoints query answer l ss).map Prod.fst).Nodup then 0 else w H) =
        (if (l.map fun i => query i (ss i)).Nodup then 0 else 1) * meanHash D H₀ w := by
      intro ss
      rw [hmap]
      split
      · rw [meanHash_const, zero_mul]
      · rw [one_mul]
    have hw0 : 0 ≤ meanHash D H₀ w := by
      refine (meanHash_const D H₀ 0).symm.le.trans (meanHash_le_meanHash fun H => ?_)
      obtain ⟨ss⟩ : Nonempty (∀ i, S i) := inferInstance
      exact (hf H fun i => dec i (ss i)).1.trans (hf H _).2
    simp only [h1, mean_mul]
    exact mul_le_mul_of_nonneg_right (mean_collision_le query (fun i => (h i).spread) hl) hw0

end

end ElasticElgamal
