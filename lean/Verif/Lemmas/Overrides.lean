import Verif.Model.Group.Overrides
import Verif.Lemmas.Sharing
import Verif.Lemmas.SumOfSquares

/-!
# Lemmas about overrides of arithmetic
-/

set_option autoImplicit false
set_option linter.unusedSectionVars false

namespace ElasticElgamal

variable {F E : Type} [Field F]

namespace Arith

theorem batchProducts_length (acc : F) (xs : List F) : (batchProducts acc xs).1.length = xs.length := by
  induction xs generalizing acc with
  | nil => rfl
  | cons x xs ih => simp only [batchProducts, List.length_cons, ih]

theorem batchProducts_snd (acc : F) (xs : List F) : (batchProducts acc xs).2 = acc * xs.prod := by
  induction xs generalizing acc with
  | nil => simp [batchProducts]
  | cons x xs ih => simp only [batchProducts, ih, List.prod_cons, mul_assoc]

theorem batchInverses_append (acc : F) (l : List (F × F)) (x s : F) :
    batchInverses acc (l ++ [(x, s)]) = batchInverses acc l ++ [acc * (l.map Prod.fst).prod * s] := by
  induction l generalizing acc with
  | nil => simp [batchInverses]
  | cons p l ih => simp only [List.cons_append, batchInverses, ih, List.map_cons, List.prod_cons, mul_assoc]

theorem batchInverses_zero (l : List (F × F)) : batchInverses 0 l = l.map fun _ => 0 := by
  induction l with
  | nil => rfl
  | cons p l ih => simp only [batchInverses, zero_mul, ih, List.map_cons]

theorem batchInverses_products (acc c : F) (xs : List F) (hacc : acc ≠ 0) (h : ∀ x ∈ xs, x ≠ 0)
    (hc : c = (acc * xs.prod)⁻¹) :
    (batchInverses c (xs.zip (batchProducts acc xs).1).reverse).reverse = xs.map (·⁻¹) := by
  induction xs generalizing acc with
  | nil => rfl
  | cons x xs ih =>
    have hx := h x List.mem_cons_self
    have hxs : xs.prod ≠ 0 := fun h0 =>
      h 0 (List.mem_cons_of_mem _ (List.prod_eq_zero_iff.mp h0)) rfl
    have hfst : ((xs.zip (batchProducts (acc * x) xs).1).reverse.map Prod.fst).prod = xs.prod := by
      rw [List.map_reverse, List.prod_reverse, List.map_fst_zip (by rw [batchProducts_length])]
    simp only [batchProducts, List.zip_cons_cons, List.reverse_cons, batchInverses_append, List.reverse_append,
      List.reverse_nil, List.nil_append, List.singleton_append, List.map_cons, hfst]
    rw [ih (acc * x) (mul_ne_zero hacc hx) (fun y hy => h y (List.mem_cons_of_mem _ hy))
      (by rw [hc, List.prod_cons, mul_assoc]), hc, List.prod_cons]
    congr 1
    field_simp

variable [DecidableEq F]

theorem dalekInvertScalars_of_ne (debug : Bool) {xs : List F} (h : ∀ x ∈ xs, x ≠ 0) :
    dalekInvertScalars debug xs = some (xs.map (·⁻¹)) := by
  have hxs : xs.prod ≠ 0 := fun h0 => h 0 (List.prod_eq_zero_iff.mp h0) rfl
  simp only [dalekInvertScalars, batchProducts_snd, one_mul]
  rw [show guard (debug = false ∨ xs.prod ≠ 0) = some () from if_pos (Or.inr hxs)]
  simp only [Option.bind_eq_bind, Option.bind_some, Option.pure_def]
  rw [batchInverses_products 1 _ xs one_ne_zero h (by rw [one_mul])]

theorem dalekInvertScalars_zero (debug : Bool) {xs : List F} (h : 0 ∈ xs) :
    dalekInvertScalars debug xs = if debug then none else some (xs.map fun _ => 0) := by
  have hxs : xs.prod = 0 := List.prod_eq_zero h
  simp only [dalekInvertScalars, batchProducts_snd, one_mul, hxs, inv_zero, batchInverses_zero]
  cases debug
  · rw [show guard (false = false ∨ (0 : F) ≠ 0) = some () from if_pos (Or.inl rfl)]
    simp only [Option.bind_eq_bind, Option.bind_some, Option.pure_def, Bool.false_eq_true, if_false]
    rw [← List.map_reverse, List.reverse_reverse, List.map_const', List.map_const', List.length_zip,
      batchProducts_length, min_self]
  · rw [show guard (true = false ∨ (0 : F) ≠ 0) = (none : Option Unit) from if_neg (by simp)]
    rfl

variable [AddCommGroup E] [Module F E]

theorem dalekMultiMul_eq {scalars : Iter F} {elements : Iter E} {n : ℕ} (h₁ : scalars.lower = n)
    (h₂ : scalars.upper = some n) (h₃ : elements.lower = n) (h₄ : elements.upper = some n) :
    dalekMultiMul scalars elements = some (Backend.multiMul scalars.items elements.items) := by
  simp [dalekMultiMul, guard, h₁, h₂, h₃, h₄]

theorem dalekMultiMul_ofList {scalars : List F} {elements : List E} (h : scalars.length = elements.length) :
    dalekMultiMul (.ofList scalars) (.ofList elements) = some (Backend.multiMul scalars elements) :=
  dalekMultiMul_eq (n := elements.length) h (congrArg some h) rfl rfl

theorem dalekMultiMul_none {scalars : Iter F} {elements : Iter E}
    (h : ¬ (scalars.lower = elements.lower ∧ scalars.upper = some scalars.lower ∧
      elements.upper = some elements.lower)) : dalekMultiMul scalars elements = none := by
  unfold dalekMultiMul guard
  split_ifs with h₁ h₂ h₃
  · exact absurd ⟨h₁, h₂, h₃⟩ h
  all_goals rfl

end Arith

theorem PublicPolynomial.powers_length (x : F) (n : ℕ) (v : F) : (powers x n v).length = n := by
  induction n generalizing v with
  | zero => rfl
  | succ n ih => rw [powers, List.length_cons, ih]

variable [DecidableEq F] [AddCommGroup E] [Module F E]

theorem lagrangeCoefficientsWith_eq (debug : Bool) (p : ℕ) [CharP F p] {n : ℕ} (hn : n < p) {indexes : List ℕ}
    (h : ∀ i ∈ indexes, i < n) :
    lagrangeCoefficientsWith (.dalek debug : Arith F E) indexes = lagrangeCoefficients F indexes := by
  have hne : ∀ x ∈ indexes.map (lagrangeDenominator (F := F) indexes), x ≠ 0 := by
    intro x hx
    obtain ⟨i, hi, rfl⟩ := List.mem_map.mp hx
    exact lagrangeDenominator_ne_zero p hn h hi
  simp only [lagrangeCoefficientsWith, lagrangeCoefficients, Arith.dalek, Arith.dalekInvertScalars_of_ne debug hne,
    invertScalars_of_ne hne]

theorem dalekInvertScalars_length (debug : Bool) {xs ys : List F}
    (h : Arith.dalekInvertScalars debug xs = some ys) : ys.length = xs.length := by
  by_cases h0 : (0 : F) ∈ xs
  · rw [Arith.dalekInvertScalars_zero debug h0] at h
    cases debug
    · rw [← Option.some.inj h, List.length_map]
    · cases h
  · rw [Arith.dalekInvertScalars_of_ne debug fun x hx hx0 => h0 (hx0 ▸ hx)] at h
    rw [← Option.some.inj h, List.length_map]

/-- Every second item. -/
def everySecond {α : Type} : List α → List α
  | _ :: y :: l => y :: everySecond l
  | _ => []

theorem everySecond_length {α : Type} : ∀ l : List α, (everySecond l).length = l.length / 2
  | [] => by simp [everySecond]
  | [_] => by simp [everySecond]
  | _ :: _ :: l => by
    rw [everySecond, List.length_cons, everySecond_length l, List.length_cons, List.length_cons]
    omega

theorem oddItems_collectFuel {α : Type} : ∀ (fuel : ℕ) (l : List α), l.length < fuel →
    OddItems.collectFuel fuel ⟨l, false⟩ = everySecond l
  | 0, _, h => absurd h (Nat.not_lt_zero _)
  | _ + 1, [], _ => rfl
  | _ + 1, [_], _ => rfl
  | fuel + 1, x :: y :: l, h => by
    have := oddItems_collectFuel fuel l (by simp only [List.length_cons] at h; omega)
    simp [OddItems.collectFuel, OddItems.next, OddItems.iterNext, everySecond, this]

theorem oddItems_collect {α : Type} (l : List α) : (OddItems.new l).collect = everySecond l :=
  oddItems_collectFuel _ l (Nat.lt_succ_self _)

theorem everySecond_getElem? {α : Type} : ∀ (l : List α) (i : ℕ), (everySecond l)[i]? = l[2 * i + 1]?
  | [], i => by simp [everySecond]
  | [x], i => by simp [everySecond]
  | x :: y :: l, 0 => by simp [everySecond]
  | x :: y :: l, i + 1 => by
    rw [everySecond, List.getElem?_cons_succ, everySecond_getElem? l i]
    simp [Nat.mul_add]

theorem oddItems_eq {α : Type} (l : List α) (n : ℕ) (h : l.length = n * 2) :
    (Iter.oddItems l).lower = n ∧ (Iter.oddItems l).upper = some n := by
  simp only [Iter.oddItems, OddItems.sizeHint, OddItems.new, h, Option.map_some,
    Nat.mul_div_cancel n two_pos, and_self]

theorem checkKeysWith_eq [DecidableEq E] (debug : Bool) (params : Params) (denominators inverses : List F)
    (startingKeys : Iter E) (hs : startingKeys.lower = denominators.length)
    (hs' : startingKeys.upper = some denominators.length) (x : ℕ) (keys : List (PublicKey E)) :
    PublicKeySet.checkKeysWith (.dalek debug) params denominators inverses startingKeys x keys =
      PublicKeySet.checkKeys params denominators inverses startingKeys.items x keys := by
  induction keys generalizing x with
  | nil => rfl
  | cons key rest ih =>
    simp only [PublicKeySet.checkKeysWith, PublicKeySet.checkKeys, ih]
    cases hm : denominators.zipIdx.mapM (m := Option) fun (d, idx) => do
        let inverse ← inverses[x - idx - 1]?
        return d * ((idx + 1 : ℕ) : F) * inverse with
    | none => rfl
    | some ds =>
      have hl : ds.length = denominators.length := by
        rw [← (mapM_option_eq_some.mp hm).length_eq, List.length_zipIdx]
      simp only [Option.bind_eq_bind, Option.bind_some]
      rw [show (Arith.dalek debug : Arith F E).multiMul = Arith.dalekMultiMul from rfl,
        Arith.dalekMultiMul_eq (n := denominators.length) hl (congrArg some hl) hs hs']
      rfl

end ElasticElgamal
