import Verif.Spec.Sharing
import Verif.Spec.Keys
import Verif.Lemmas.Basic
import Mathlib.LinearAlgebra.Lagrange
import Mathlib.Algebra.CharP.Basic

/-!
# Lemmas on interpolation
-/

set_option autoImplicit false
set_option linter.unusedSectionVars false

namespace ElasticElgamal

open Spec Polynomial

variable {F E : Type} [Field F] [AddCommGroup E] [Module F E]

namespace Spec

theorem polyAt_eq_sum (x : F) (cs : List E) :
    polyAt x cs = ∑ k ∈ Finset.range cs.length, x ^ k • cs.getD k 0 := by
  induction cs with
  | nil => simp [polyAt]
  | cons c cs ih =>
    rw [polyAt, ih, List.length_cons, Finset.sum_range_succ', Finset.smul_sum, add_comm]
    congr 1
    · refine Finset.sum_congr rfl fun k _ => ?_
      rw [smul_smul, pow_succ']; rfl
    · simp

theorem polyAt_zero (cs : List E) : polyAt (0 : F) cs = cs.headD 0 := by
  cases cs <;> simp [polyAt]

theorem polyAt_smul (x : F) (cs : List F) (R : E) :
    polyAt x (cs.map (· • R)) = polyAt x cs • R := by
  induction cs with
  | nil => simp [polyAt]
  | cons c cs ih => simp only [List.map_cons, polyAt, ih, add_smul, smul_smul, smul_eq_mul]

theorem polyAt_zipWith_add (x : F) (as bs : List E) (h : as.length = bs.length) :
    polyAt x (List.zipWith (· + ·) as bs) = polyAt x as + polyAt x bs := by
  induction as generalizing bs with
  | nil => cases bs <;> simp_all [polyAt]
  | cons a as ih =>
    cases bs with
    | nil => simp at h
    | cons b bs =>
      simp only [List.zipWith_cons_cons, polyAt, ih bs (by simpa using h)]
      module

/-- The nodes. -/
theorem point_injOn (p : ℕ) [CharP F p] {n : ℕ} (hn : n < p) {s : Finset ℕ} (hs : ∀ i ∈ s, i < n) :
    Set.InjOn (point F) (s : Set ℕ) := by
  intro i hi j hj h
  have h1 : (i : F) = (j : F) := by simpa [point] using h
  exact CharP.natCast_injOn_Iio F p (Set.mem_Iio.mpr ((hs i hi).trans hn))
    (Set.mem_Iio.mpr ((hs j hj).trans hn)) h1

theorem point_ne_zero (p : ℕ) [CharP F p] {n i : ℕ} (hn : n < p) (hi : i < n) : point F i ≠ 0 := by
  have : point F i = ((i + 1 : ℕ) : F) := by simp [point]
  rw [this, Ne, CharP.cast_eq_zero_iff F p]
  exact fun h => absurd (Nat.le_of_dvd (Nat.succ_pos i) h) (by omega)

/-- Interpolation of group-valued polynomials. -/
theorem interpolate_polyAt {ι : Type} [DecidableEq ι] {s : Finset ι} {v : ι → F} (hv : Set.InjOn v s) (y : F) (cs : List E)
    (hcs : cs.length ≤ s.card) :
    ∑ i ∈ s, (Lagrange.basis s v i).eval y • polyAt (v i) cs = polyAt y cs := by
  have key : ∀ k < s.card, ∑ i ∈ s, (Lagrange.basis s v i).eval y * v i ^ k = y ^ k := by
    intro k hk
    have h := Lagrange.eq_interpolate (f := (X ^ k : F[X])) hv
      (by rw [degree_X_pow]; exact_mod_cast hk)
    have h2 := congrArg (eval y) h
    simp only [Lagrange.interpolate_apply, eval_finsetSum, eval_mul, eval_C, eval_pow, eval_X] at h2
    rw [h2]
    exact Finset.sum_congr rfl fun i _ => mul_comm _ _
  simp only [polyAt_eq_sum, Finset.smul_sum]
  rw [Finset.sum_comm]
  refine Finset.sum_congr rfl fun k hk => ?_
  rw [← key k (by have := Finset.mem_range.mp hk; omega), Finset.sum_smul]
  exact Finset.sum_congr rfl fun i _ => smul_smul _ _ _

/-- The coefficients of a group-valued polynomial of degree less than `s.card` are determined by its values
at the nodes. -/
theorem coeff_of_values {ι : Type} [DecidableEq ι] {s : Finset ι} {v : ι → F} (hv : Set.InjOn v s) (cs : List E)
    (hcs : cs.length ≤ s.card) (k : ℕ) :
    cs.getD k 0 = ∑ i ∈ s, (Lagrange.basis s v i).coeff k • polyAt (v i) cs := by
  have key : ∀ j < s.card, ∑ i ∈ s, (Lagrange.basis s v i).coeff k * v i ^ j = if k = j then 1 else 0 := by
    intro j hj
    have h := Lagrange.eq_interpolate (f := (X ^ j : F[X])) hv
      (by rw [degree_X_pow]; exact_mod_cast hj)
    have h2 := congrArg (fun f => coeff f k) h
    simp only [Lagrange.interpolate_apply, finsetSum_coeff, coeff_C_mul, eval_pow, eval_X, coeff_X_pow] at h2
    rw [h2]
    exact Finset.sum_congr rfl fun i _ => mul_comm _ _
  simp only [polyAt_eq_sum, Finset.smul_sum]
  rw [Finset.sum_comm]
  have h1 : ∀ j ∈ Finset.range cs.length,
      ∑ i ∈ s, (Lagrange.basis s v i).coeff k • v i ^ j • cs.getD j 0 =
      (if k = j then (1 : F) else 0) • cs.getD j 0 := by
    intro j hj
    rw [← key j (by have := Finset.mem_range.mp hj; omega), Finset.sum_smul]
    exact Finset.sum_congr rfl fun i _ => smul_smul _ _ _
  rw [Finset.sum_congr rfl h1]
  simp only [ite_smul, one_smul, zero_smul, Finset.sum_ite_eq, Finset.mem_range]
  split
  · rfl
  · rename_i hlt
    rw [List.getD_eq_getElem?_getD, List.getElem?_eq_none (by omega)]
    rfl

theorem interpolating_length {ι : Type} [DecidableEq ι] (s : Finset ι) (v : ι → F) (y : ι → E) :
    (interpolating s v y).length = s.card := by simp [interpolating]

/-- Value of the interpolating polynomial anywhere. -/
theorem interpolating_at {ι : Type} [DecidableEq ι] {s : Finset ι} {v : ι → F} (hv : Set.InjOn v s) (y : ι → E) (x : F) :
    polyAt x (interpolating s v y) = ∑ i ∈ s, (Lagrange.basis s v i).eval x • y i := by
  rw [polyAt_eq_sum, interpolating_length]
  have h1 : ∀ k ∈ Finset.range s.card, x ^ k • (interpolating s v y).getD k 0 =
      ∑ i ∈ s, (x ^ k * (Lagrange.basis s v i).coeff k) • y i := by
    intro k hk
    have hk := Finset.mem_range.mp hk
    rw [List.getD_eq_getElem?_getD, List.getElem?_eq_getElem (by rwa [interpolating_length])]
    simp only [interpolating, List.getElem_map, List.getElem_range, Option.getD_some, Finset.smul_sum, smul_smul]
  rw [Finset.sum_congr rfl h1, Finset.sum_comm]
  refine Finset.sum_congr rfl fun i hi => ?_
  rw [← Finset.sum_smul]
  congr 1
  have hd : (Lagrange.basis s v i).natDegree < s.card := by
    have h0 : 0 < s.card := Finset.card_pos.mpr ⟨i, hi⟩
    rw [natDegree_lt_iff_degree_lt (Lagrange.basis_ne_zero hv hi), Lagrange.degree_basis hv hi]
    exact_mod_cast Nat.sub_lt h0 Nat.one_pos
  rw [eval_eq_sum_range' hd]
  exact Finset.sum_congr rfl fun k _ => mul_comm _ _

theorem interpolating_node {ι : Type} [DecidableEq ι] {s : Finset ι} {v : ι → F} (hv : Set.InjOn v s) (y : ι → E) {i : ι}
    (hi : i ∈ s) : polyAt (v i) (interpolating s v y) = y i := by
  rw [interpolating_at hv, Finset.sum_eq_single i]
  · rw [Lagrange.eval_basis_self hv hi, one_smul]
  · intro j _ hji
    rw [Lagrange.eval_basis_of_ne hji hi, zero_smul]
  · exact fun h => absurd hi h

theorem eq_interpolating {ι : Type} [DecidableEq ι] {s : Finset ι} {v : ι → F} (hv : Set.InjOn v s) (cs : List E)
    (hcs : cs.length = s.card) : cs = interpolating s v fun i => polyAt (v i) cs := by
  refine List.ext_getElem (by rw [hcs, interpolating_length]) fun k h1 h2 => ?_
  have := coeff_of_values hv cs hcs.le k
  rw [List.getD_eq_getElem?_getD, List.getElem?_eq_getElem h1, Option.getD_some] at this
  simp only [interpolating, List.getElem_map, List.getElem_range, this]

theorem interpolating_congr {ι : Type} [DecidableEq ι] {s : Finset ι} {v : ι → F} {y y' : ι → E} (h : ∀ i ∈ s, y i = y' i) :
    interpolating s v y = interpolating s v y' := by
  unfold interpolating
  refine List.map_congr_left fun k _ => Finset.sum_congr rfl fun i hi => ?_
  rw [h i hi]

theorem mem_nodes {indexes : List ℕ} {k : ℕ} : k ∈ nodes indexes ↔ k = 0 ∨ ∃ i ∈ indexes, k = i + 1 := by
  simp [nodes, eq_comm]

theorem nodes_card {indexes : List ℕ} (hd : indexes.Nodup) : (nodes indexes).card = indexes.length + 1 := by
  rw [nodes, Finset.card_insert_of_notMem (by simp), Finset.card_image_of_injective _ (add_left_injective 1),
    List.toFinset_card_of_nodup hd]

theorem nodes_injOn (p : ℕ) [CharP F p] {n : ℕ} (hn : n < p) {indexes : List ℕ} (h : ∀ i ∈ indexes, i < n) :
    Set.InjOn (Nat.cast : ℕ → F) (nodes indexes : Set ℕ) := by
  have hlt : ∀ k ∈ (nodes indexes : Set ℕ), k < p := by
    intro k hk
    rcases mem_nodes.mp hk with rfl | ⟨i, hi, rfl⟩
    · omega
    · have := h i hi; omega
  exact fun a ha b hb hab => CharP.natCast_injOn_Iio F p (Set.mem_Iio.mpr (hlt a ha))
    (Set.mem_Iio.mpr (hlt b hb)) hab

end Spec

/-! ## The coefficients computed by the code -/

/-- The scalar with the given sign and magnitude. -/
def signedValue (e : Bool × F) : F := if e.1 then -e.2 else e.2

theorem foldl_signed (l : List (Bool × F)) (acc : Bool × F) :
    signedValue (l.foldl (fun (acc : Bool × F) (elem : Bool × F) => (acc.1 ^^ elem.1, acc.2 * elem.2)) acc) =
      signedValue acc * (l.map signedValue).prod := by
  induction l generalizing acc with
  | nil => simp
  | cons e l ih =>
    rw [List.foldl_cons, ih, List.map_cons, List.prod_cons, ← mul_assoc]
    congr 1
    rcases acc with ⟨_ | _, a⟩ <;> rcases e with ⟨_ | _, b⟩ <;> simp [signedValue]

theorem signedValue_factor (i j : ℕ) : signedValue (lagrangeFactor (F := F) i j) =
    if j = i then point F i else point F j - point F i := by
  unfold lagrangeFactor
  rcases lt_trichotomy i j with hij | rfl | hij
  · rw [Nat.compare_eq_lt.mpr hij]
    simp only [signedValue, point, Bool.false_eq_true, if_false, if_neg hij.ne', Nat.cast_sub hij.le]
    ring
  · rw [Nat.compare_eq_eq.mpr rfl]
    simp [signedValue, point]
  · rw [Nat.compare_eq_gt.mpr hij]
    simp only [signedValue, point, if_true, if_neg hij.ne, Nat.cast_sub hij.le]
    ring

/-- Every factor of the denominator. -/
theorem lagrangeDenominator_eq (indexes : List ℕ) (i : ℕ) :
    lagrangeDenominator (F := F) indexes i =
      (indexes.map fun j => if j = i then point F i else point F j - point F i).prod := by
  have h := foldl_signed (indexes.map (lagrangeFactor (F := F) i)) (false, (1 : F))
  refine Eq.trans h ?_
  rw [show signedValue (false, (1 : F)) = 1 from rfl, one_mul, List.map_map]
  congr 1
  exact List.map_congr_left fun j _ => signedValue_factor i j

theorem foldl_mul_eq_prod (l : List F) (a : F) : l.foldl (fun acc value => acc * value) a = a * l.prod := by
  induction l generalizing a with
  | nil => simp
  | cons x l ih => rw [List.foldl_cons, ih, List.prod_cons, mul_assoc]

theorem invertScalars_of_ne [DecidableEq F] {xs : List F} (h : ∀ x ∈ xs, x ≠ 0) :
    Backend.invertScalars xs = some (xs.map (·⁻¹)) :=
  mapM_option_pure fun x hx => invertScalar_of_ne (h x hx)

/-- The denominators are never zero, even for repeated indexes. -/
theorem lagrangeDenominator_ne_zero (p : ℕ) [CharP F p] {n : ℕ} (hn : n < p) {indexes : List ℕ}
    (h : ∀ i ∈ indexes, i < n) {i : ℕ} (hi : i ∈ indexes) : lagrangeDenominator (F := F) indexes i ≠ 0 := by
  rw [lagrangeDenominator_eq, Ne, List.prod_eq_zero_iff, List.mem_map]
  rintro ⟨j, hj, h0⟩
  split at h0
  · exact point_ne_zero p hn (h i hi) h0
  · rename_i hji
    refine hji (point_injOn p hn (s := {j, i}) ?_ (by simp) (by simp) (sub_eq_zero.mp h0))
    simp only [Finset.mem_insert, Finset.mem_singleton]
    rintro k (rfl | rfl)
    exacts [h _ hj, h _ hi]

theorem lagrangeCoefficients_eq [DecidableEq F] (p : ℕ) [CharP F p] {n : ℕ} (hn : n < p)
    {indexes : List ℕ} (h : ∀ i ∈ indexes, i < n) :
    lagrangeCoefficients F indexes =
      some (indexes.map fun i => (lagrangeDenominator (F := F) indexes i)⁻¹, (indexes.map (point F)).prod) := by
  have h1 : Backend.invertScalars (indexes.map (lagrangeDenominator (F := F) indexes)) =
      some ((indexes.map (lagrangeDenominator (F := F) indexes)).map (·⁻¹)) := by
    refine invertScalars_of_ne fun x hx => ?_
    obtain ⟨i, hi, rfl⟩ := List.mem_map.mp hx
    exact lagrangeDenominator_ne_zero p hn h hi
  simp only [lagrangeCoefficients, h1, Option.bind_eq_bind, Option.bind_some, Option.pure_def,
    foldl_mul_eq_prod, one_mul, List.map_map]
  have h2 : (fun index : ℕ => ((index + 1 : ℕ) : F)) = point F := by
    funext i
    simp [point]
  rw [h2]
  rfl

/-- For distinct indexes the scaled coefficients are the values of the Lagrange basis at zero. -/
theorem lagrange_basis_zero (p : ℕ) [CharP F p] {n : ℕ} (hn : n < p) {indexes : List ℕ}
    (h : ∀ i ∈ indexes, i < n) (hd : indexes.Nodup) {i : ℕ} (hi : i ∈ indexes) :
    (indexes.map (point F)).prod * (lagrangeDenominator (F := F) indexes i)⁻¹ =
      (Lagrange.basis indexes.toFinset (point F) i).eval 0 := by
  have hi' : i ∈ indexes.toFinset := List.mem_toFinset.mpr hi
  rw [lagrangeDenominator_eq, ← List.prod_toFinset _ hd, ← List.prod_toFinset _ hd,
    ← Finset.mul_prod_erase _ _ hi', ← Finset.mul_prod_erase _ (fun j => if j = i then _ else _) hi',
    if_pos rfl, Lagrange.basis, eval_prod, mul_inv]
  have h0 : point F i ≠ 0 := point_ne_zero p hn (h i hi)
  rw [mul_mul_mul_comm, mul_inv_cancel₀ h0, one_mul, ← Finset.prod_inv_distrib, ← Finset.prod_mul_distrib]
  refine Finset.prod_congr rfl fun j hj => ?_
  rw [if_neg (Finset.mem_erase.mp hj).1, Lagrange.basisDivisor]
  simp only [eval_mul, eval_C, eval_sub, eval_X, zero_sub]
  rw [← neg_sub (point F j) (point F i), inv_neg]
  ring

theorem multiMul_map (l : List ℕ) (f : ℕ → F) (g : ℕ → E) :
    Backend.multiMul (l.map f) (l.map g) = (l.map fun i => f i • g i).sum := by
  induction l with
  | nil => simp
  | cons i l ih => simp [ih]

/-- Recombination: interpolation at zero. -/
theorem recombine (p : ℕ) [CharP F p] {n : ℕ} (hn : n < p) {indexes : List ℕ}
    (h : ∀ i ∈ indexes, i < n) (hd : indexes.Nodup) (cs : List E) (hcs : cs.length ≤ indexes.length) :
    (indexes.map (point F)).prod • Backend.multiMul
      (indexes.map fun i => (lagrangeDenominator (F := F) indexes i)⁻¹)
      (indexes.map fun i => polyAt (point F i) cs) = polyAt (0 : F) cs := by
  rw [multiMul_map, List.smul_sum, List.map_map]
  have h1 : indexes.map ((fun x => (indexes.map (point F)).prod • x) ∘
      fun i => (lagrangeDenominator (F := F) indexes i)⁻¹ • polyAt (point F i) cs) =
      indexes.map fun i => (Lagrange.basis indexes.toFinset (point F) i).eval 0 • polyAt (point F i) cs := by
    refine List.map_congr_left fun i hi => ?_
    rw [Function.comp_apply, smul_smul, lagrange_basis_zero p hn h hd hi]
  rw [h1, ← List.sum_toFinset _ hd]
  exact interpolate_polyAt (point_injOn p hn fun i hi => h i (List.mem_toFinset.mp hi)) 0 cs
    (by rwa [List.toFinset_card_of_nodup hd])

/-! ## Dealer -/

theorem Dealer.share_foldl (x : F) (kps : List (Keypair F E)) (acc : F) :
    kps.foldr (fun keypair polyValue => SecretKey.add (SecretKey.mul polyValue x) keypair.secret) acc =
      polyAt x (kps.map (·.secret)) + x ^ kps.length * acc := by
  induction kps with
  | nil => simp [polyAt]
  | cons kp kps ih =>
    rw [List.foldr_cons, ih]
    simp only [SecretKey.add, SecretKey.mul, List.map_cons, polyAt, List.length_cons,
      smul_eq_mul, pow_succ]
    ring

/-- Horner evaluation in `secret_share_for_participant`. -/
theorem Dealer.share_eq (dealer : Dealer F E) (i : ℕ) :
    dealer.secretShareForParticipant i =
      if i < dealer.params.shares then some (polyAt (point F i) (dealer.polynomial.map (·.secret)))
      else none := by
  unfold Dealer.secretShareForParticipant
  split
  · rename_i h
    have hp : point F i = ((i + 1 : ℕ) : F) := by simp [point]
    simp only [guard, h, if_true, Option.bind_eq_bind, Option.pure_def, Option.bind_some, List.foldl_reverse, hp]
    rw [Dealer.share_foldl]
    simp
  · rename_i h
    simp [guard, h]

end ElasticElgamal
