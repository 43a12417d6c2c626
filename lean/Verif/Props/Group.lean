import Verif.Model.Base
import Verif.Lemmas.Basic
import Verif.Toy
import Mathlib.Algebra.BigOperators.Fin
import Mathlib.Tactic.Module

/-!
# Helper operations of the group traits (C53)
-/

set_option autoImplicit false
set_option linter.unusedSectionVars false

namespace ElasticElgamal

open Toy

variable {F E : Type} [Field F] [AddCommGroup E] [Module F E] [DecidableEq F] [DecidableEq E]

theorem foldl_multiMul (l : List (F × E)) (acc : E) :
    l.foldl (fun output se => output + se.1 • se.2) acc = acc + (l.map fun se => se.1 • se.2).sum := by
  induction l generalizing acc with
  | nil => simp
  | cons x l ih => rw [List.foldl_cons, ih, List.map_cons, List.sum_cons, add_assoc]

/-- C53: `multi_mul` and `vartime_multi_mul` compute `Σ [sᵢ]Eᵢ` for `n` scalars and `n` elements. -/
theorem C53_multi_mul (n : ℕ) (s : Fin n → F) (e : Fin n → E) :
    Backend.multiMul (List.ofFn s) (List.ofFn e) = ∑ i, s i • e i := by
  rw [Backend.multiMul, foldl_multiMul, zero_add, ← List.sum_ofFn]
  congr 1
  apply List.ext_getElem <;> simp

example : Backend.multiMul [(2 : ZMod 101), 3] [(5 : ZMod 101), 6] = ∑ i, ![(2 : ZMod 101), 3] i • ![(5 : ZMod 101), 6] i :=
  C53_multi_mul 2 ![2, 3] ![5, 6]

/-- C53: extra scalars or elements are ignored. -/
theorem C53_multi_mul_lengths (s : List F) (e : List E) :
    Backend.multiMul s e = Backend.multiMul (s.take e.length) (e.take s.length) := by
  unfold Backend.multiMul
  congr 1
  apply List.ext_getElem
  · simp [Nat.min_comm]
  · intro i h1 h2
    simp

example : Backend.multiMul [(2 : ZMod 101), 3, 4] [(5 : ZMod 101), 6] = Backend.multiMul [(2 : ZMod 101), 3] [(5 : ZMod 101), 6] :=
  C53_multi_mul_lengths [2, 3, 4] [5, 6]

/-- C53: `vartime_double_mul_generator` computes `[k]K + [r]G`, and agrees with `multi_mul`; with a zero first
scalar it is multiplication of the generator (as used in `src/group/ristretto.rs:114-121`). -/
theorem C53_double_mul (B : Backend F E) (k r : F) (K : E) :
    B.doubleMulGen k K r = Backend.multiMul [k, r] [K, B.gen] ∧
    B.doubleMulGen 0 0 r = B.mulGen r ∧ B.mulGen r = Backend.multiMul [r] [B.gen] := by
  simp [Backend.doubleMulGen, Backend.multiMul, Backend.mulGen]

example : B101.doubleMulGen 2 5 3 = Backend.multiMul [(2 : ZMod 101), 3] [5, B101.gen] := (C53_double_mul B101 2 3 5).1

/-- C53: `invert_scalars` inverts every scalar, and does not panic exactly if all of them are nonzero. -/
theorem C53_invert_scalars (xs : List F) :
    ((∃ ys, Backend.invertScalars xs = some ys) ↔ ∀ x ∈ xs, x ≠ 0) ∧
    ∀ ys, Backend.invertScalars xs = some ys → List.Forall₂ (fun x y => x * y = 1) xs ys := by
  constructor
  · constructor
    · rintro ⟨ys, h⟩ x hx h0
      have h := mapM_option_eq_some.mp h
      obtain ⟨i, hi, rfl⟩ := List.mem_iff_getElem.mp hx
      have := List.forall₂_iff_get.mp h |>.2 i hi (by rw [← h.length_eq]; exact hi)
      simp [Backend.invertScalar, h0] at this
    · intro h
      exact mapM_option_exists fun x hx => ⟨x⁻¹, by simp [Backend.invertScalar, h x hx]⟩
  · intro ys h
    refine (mapM_option_eq_some.mp h).imp fun x y hxy => ?_
    unfold Backend.invertScalar at hxy
    split at hxy
    · cases hxy
    · rename_i h0
      cases hxy
      exact mul_inv_cancel₀ h0

example : ¬ ∃ ys, Backend.invertScalars [(2 : ZMod 101), 0] = some ys :=
  fun h => absurd ((C53_invert_scalars [(2 : ZMod 101), 0]).1.mp h 0 (by decide)) (by decide)

example : Backend.multiMul [(2 : ZMod 101), 3, 4] [(5 : ZMod 101), 6] = 28 := by decide
example : Backend.invertScalars [(2 : ZMod 101), 3] = some [51, 34] := by decide +kernel
example : Backend.invertScalars [(2 : ZMod 101), 0] = none := by decide +kernel
example : B101.doubleMulGen 2 5 3 = 13 := by decide

end ElasticElgamal
