import Mathlib.Algebra.Field.Basic
import Mathlib.Algebra.Group.Even
import Mathlib.Tactic.LinearCombination
import Mathlib.Tactic.Ring

/-!
# The addition law of twisted Edwards curves

For `-x² + y² = 1 + dx²y²` where `d` is not a square and `-1` is a square: the law is complete and associative. The
coefficients in the proofs of associativity were found by polynomial division outside of Lean.
-/

set_option autoImplicit false

namespace ElasticElgamal.Curves

variable {K : Type} [Field K]

/-- The equation of the curve. -/
def OnEdwards (d x y : K) : Prop := -x ^ 2 + y ^ 2 = 1 + d * x ^ 2 * y ^ 2

/-- What makes the addition law complete. -/
class EdwardsComplete (d : K) : Prop where
  two_ne_zero : (2 : K) ≠ 0
  nonsquare : ∀ r, r * r ≠ d
  sqrt_neg_one : ∃ i : K, i * i = -1

section
variable (d : K)

/-- The product of the coordinates in the denominators. -/
def edDelta (x₁ y₁ x₂ y₂ : K) : K := d * x₁ * x₂ * y₁ * y₂

/-- Abscissa of the sum. -/
def edX (x₁ y₁ x₂ y₂ : K) : K := (x₁ * y₂ + y₁ * x₂) / (1 + edDelta d x₁ y₁ x₂ y₂)

/-- Ordinate of the sum. -/
def edY (x₁ y₁ x₂ y₂ : K) : K := (y₁ * y₂ + x₁ * x₂) / (1 - edDelta d x₁ y₁ x₂ y₂)

end

variable {d : K}

theorem edDelta_sq_ne_one [hd : EdwardsComplete d] {x₁ y₁ x₂ y₂ : K} (h₁ : OnEdwards d x₁ y₁)
    (h₂ : OnEdwards d x₂ y₂) : edDelta d x₁ y₁ x₂ y₂ ^ 2 ≠ 1 := by
  intro hδ
  obtain ⟨i, hi⟩ := hd.sqrt_neg_one
  unfold OnEdwards at h₁ h₂
  unfold edDelta at hδ
  have hx₁ : x₁ ≠ 0 := by rintro rfl; simp at hδ
  have hy₁ : y₁ ≠ 0 := by rintro rfl; simp at hδ
  have hx₂ : x₂ ≠ 0 := by rintro rfl; simp at hδ
  have hy₂ : y₂ ≠ 0 := by rintro rfl; simp at hδ
  -- `(i x₁ ± δ y₁)² = d x₁² y₁² (i x₂ ± y₂)²`
  have key : ∀ s : K, s * s = 1 → (i * x₁ + s * (d * x₁ * x₂ * y₁ * y₂) * y₁) ^ 2 =
      d * (x₁ * y₁ * (i * x₂ + s * y₂)) ^ 2 := by
    intro s hs
    linear_combination (x₁ ^ 2 - d * x₁ ^ 2 * y₁ ^ 2 * x₂ ^ 2) * hi + h₁ - d * x₁ ^ 2 * y₁ ^ 2 * h₂
      + ((d * x₁ * x₂ * y₁ * y₂) ^ 2 * y₁ ^ 2 - d * x₁ ^ 2 * y₁ ^ 2 * y₂ ^ 2) * hs
      + (y₁ ^ 2 - 1) * hδ
  have zero : ∀ s : K, s * s = 1 → i * x₂ + s * y₂ = 0 := by
    intro s hs
    by_contra h0
    have hz : x₁ * y₁ * (i * x₂ + s * y₂) ≠ 0 := mul_ne_zero (mul_ne_zero hx₁ hy₁) h0
    refine hd.nonsquare ((i * x₁ + s * (d * x₁ * x₂ * y₁ * y₂) * y₁) / (x₁ * y₁ * (i * x₂ + s * y₂))) ?_
    rw [div_mul_div_comm, div_eq_iff (mul_ne_zero hz hz)]
    linear_combination key s hs
  have z1 := zero 1 (by ring)
  have z2 := zero (-1) (by ring)
  have : 2 * y₂ = 0 := by linear_combination z1 - z2
  exact (mul_ne_zero hd.two_ne_zero hy₂) this

theorem edX_den_ne_zero [EdwardsComplete d] {x₁ y₁ x₂ y₂ : K} (h₁ : OnEdwards d x₁ y₁)
    (h₂ : OnEdwards d x₂ y₂) : 1 + edDelta d x₁ y₁ x₂ y₂ ≠ 0 := by
  intro h
  apply edDelta_sq_ne_one h₁ h₂
  linear_combination (edDelta d x₁ y₁ x₂ y₂ - 1) * h

theorem edY_den_ne_zero [EdwardsComplete d] {x₁ y₁ x₂ y₂ : K} (h₁ : OnEdwards d x₁ y₁)
    (h₂ : OnEdwards d x₂ y₂) : 1 - edDelta d x₁ y₁ x₂ y₂ ≠ 0 := by
  intro h
  apply edDelta_sq_ne_one h₁ h₂
  linear_combination (- edDelta d x₁ y₁ x₂ y₂ - 1) * h

theorem edwards_closed {x₁ y₁ x₂ y₂ A B P M : K} (h₁ : OnEdwards d x₁ y₁) (h₂ : OnEdwards d x₂ y₂)
    (hA : A = x₁ * y₂ + y₁ * x₂) (hB : B = y₁ * y₂ + x₁ * x₂) (hP : P = 1 + edDelta d x₁ y₁ x₂ y₂)
    (hM : M = 1 - edDelta d x₁ y₁ x₂ y₂) : -(A * M) ^ 2 + (B * P) ^ 2 = (P * M) ^ 2 + d * A ^ 2 * B ^ 2 := by
  unfold OnEdwards at h₁ h₂
  unfold edDelta at hP hM
  subst hA hB hP hM
  linear_combination
    (d ^ 3 * x₁ ^ 2 * y₁ ^ 2 * x₂ ^ 4 * y₂ ^ 4 - d ^ 2 * x₁ ^ 2 * x₂ ^ 4 * y₂ ^ 4 + d ^ 2 * y₁ ^ 2 * x₂ ^ 4 *
    y₂ ^ 4 - d ^ 2 * x₂ ^ 4 * y₂ ^ 4 - d * x₁ ^ 2 * x₂ ^ 4 * y₂ ^ 2 + d * x₁ ^ 2 * x₂ ^ 2 * y₂ ^ 4 + d * y₁ ^
    2 * x₂ ^ 4 * y₂ ^ 2 - d * y₁ ^ 2 * x₂ ^ 2 * y₂ ^ 4 - 2 * d * x₂ ^ 4 * y₂ ^ 4 - 2 * d * x₂ ^ 2 * y₂ ^ 2 - 2
    * x₂ ^ 4 * y₂ ^ 2 + x₂ ^ 4 + 2 * x₂ ^ 2 * y₂ ^ 4 - 4 * x₂ ^ 2 * y₂ ^ 2 + y₂ ^ 4) * h₁ + (d * x₁ ^ 4 * x₂ ^
    2 * y₂ ^ 2 + 2 * d * x₁ ^ 2 * x₂ ^ 2 * y₂ ^ 2 + d * y₁ ^ 4 * x₂ ^ 2 * y₂ ^ 2 - 2 * d * y₁ ^ 2 * x₂ ^ 2 *
    y₂ ^ 2 + d * x₂ ^ 2 * y₂ ^ 2 + 2 * x₁ ^ 2 * x₂ ^ 2 * y₂ ^ 2 - x₁ ^ 2 * x₂ ^ 2 + x₁ ^ 2 * y₂ ^ 2 - 2 * y₁ ^
    2 * x₂ ^ 2 * y₂ ^ 2 + y₁ ^ 2 * x₂ ^ 2 - y₁ ^ 2 * y₂ ^ 2 + 2 * x₂ ^ 2 * y₂ ^ 2 - x₂ ^ 2 + y₂ ^ 2 + 1) * h₂

theorem edwards_assocX {x₁ y₁ x₂ y₂ x₃ y₃ A B P M A' B' P' M' : K} (h₁ : OnEdwards d x₁ y₁)
    (h₂ : OnEdwards d x₂ y₂) (h₃ : OnEdwards d x₃ y₃)
    (hA : A = x₁ * y₂ + y₁ * x₂) (hB : B = y₁ * y₂ + x₁ * x₂) (hP : P = 1 + edDelta d x₁ y₁ x₂ y₂)
    (hM : M = 1 - edDelta d x₁ y₁ x₂ y₂)
    (hA' : A' = x₂ * y₃ + y₂ * x₃) (hB' : B' = y₂ * y₃ + x₂ * x₃) (hP' : P' = 1 + edDelta d x₂ y₂ x₃ y₃)
    (hM' : M' = 1 - edDelta d x₂ y₂ x₃ y₃) :
    (A * M * y₃ + B * P * x₃) * (P' * M' + d * A' * B' * x₁ * y₁) =
      (A' * M' * y₁ + B' * P' * x₁) * (P * M + d * A * B * x₃ * y₃) := by
  unfold OnEdwards at h₁ h₂ h₃
  unfold edDelta at hP hM hP' hM'
  subst hA hB hP hM hA' hB' hP' hM'
  linear_combination
    (- d ^ 2 * x₁ * x₂ ^ 4 * y₂ ^ 3 * x₃ ^ 2 * y₃ - d ^ 2 * x₁ * x₂ ^ 3 * y₂ ^ 4 * x₃ * y₃ ^ 2 + d ^ 2 * y₁ *
    x₂ ^ 4 * y₂ ^ 3 * x₃ * y₃ ^ 2 + d ^ 2 * y₁ * x₂ ^ 3 * y₂ ^ 4 * x₃ ^ 2 * y₃ - d * x₁ * x₂ ^ 4 * y₂ * x₃ ^ 2
    * y₃ - d * x₁ * x₂ ^ 3 * y₂ ^ 2 * x₃ ^ 3 - d * x₁ * x₂ ^ 3 * y₂ ^ 2 * x₃ + d * x₁ * x₂ ^ 2 * y₂ ^ 3 * y₃ ^
    3 - d * x₁ * x₂ ^ 2 * y₂ ^ 3 * y₃ + d * x₁ * x₂ * y₂ ^ 4 * x₃ * y₃ ^ 2 + d * y₁ * x₂ ^ 4 * y₂ * x₃ * y₃ ^
    2 + d * y₁ * x₂ ^ 3 * y₂ ^ 2 * y₃ ^ 3 - d * y₁ * x₂ ^ 3 * y₂ ^ 2 * y₃ - d * y₁ * x₂ ^ 2 * y₂ ^ 3 * x₃ ^ 3
    - d * y₁ * x₂ ^ 2 * y₂ ^ 3 * x₃ - d * y₁ * x₂ * y₂ ^ 4 * x₃ ^ 2 * y₃) * h₁ + (d ^ 2 * x₁ ^ 2 * y₁ * x₂ ^ 2
    * y₂ * x₃ ^ 3 * y₃ ^ 2 - d ^ 2 * x₁ ^ 2 * y₁ * x₂ * y₂ ^ 2 * x₃ ^ 2 * y₃ ^ 3 - d ^ 2 * x₁ * y₁ ^ 2 * x₂ ^
    2 * y₂ * x₃ ^ 2 * y₃ ^ 3 + d ^ 2 * x₁ * y₁ ^ 2 * x₂ * y₂ ^ 2 * x₃ ^ 3 * y₃ ^ 2 + d * x₁ ^ 3 * x₂ ^ 2 * y₂
    * x₃ ^ 2 * y₃ + d * x₁ ^ 3 * x₂ * y₂ ^ 2 * x₃ * y₃ ^ 2 + d * x₁ ^ 3 * x₂ * x₃ ^ 3 * y₃ ^ 2 + d * x₁ ^ 3 *
    y₂ * x₃ ^ 2 * y₃ ^ 3 - d * x₁ ^ 2 * y₁ * x₂ ^ 2 * y₂ * x₃ * y₃ ^ 2 - d * x₁ ^ 2 * y₁ * x₂ * y₂ ^ 2 * x₃ ^
    2 * y₃ + d * x₁ ^ 2 * y₁ * x₂ * x₃ ^ 2 * y₃ ^ 3 + d * x₁ ^ 2 * y₁ * y₂ * x₃ ^ 3 * y₃ ^ 2 - d * x₁ * y₁ ^ 2
    * x₂ ^ 2 * y₂ * x₃ ^ 2 * y₃ - d * x₁ * y₁ ^ 2 * x₂ * y₂ ^ 2 * x₃ * y₃ ^ 2 - d * x₁ * y₁ ^ 2 * x₂ * x₃ ^ 3
    * y₃ ^ 2 - d * x₁ * y₁ ^ 2 * y₂ * x₃ ^ 2 * y₃ ^ 3 + d * x₁ * x₂ ^ 2 * y₂ * x₃ ^ 2 * y₃ + d * x₁ * x₂ * y₂
    ^ 2 * x₃ * y₃ ^ 2 + d * x₁ * x₂ * x₃ ^ 3 * y₃ ^ 2 + d * x₁ * y₂ * x₃ ^ 2 * y₃ ^ 3 + d * y₁ ^ 3 * x₂ ^ 2 *
    y₂ * x₃ * y₃ ^ 2 + d * y₁ ^ 3 * x₂ * y₂ ^ 2 * x₃ ^ 2 * y₃ - d * y₁ ^ 3 * x₂ * x₃ ^ 2 * y₃ ^ 3 - d * y₁ ^ 3
    * y₂ * x₃ ^ 3 * y₃ ^ 2 - d * y₁ * x₂ ^ 2 * y₂ * x₃ * y₃ ^ 2 - d * y₁ * x₂ * y₂ ^ 2 * x₃ ^ 2 * y₃ + d * y₁
    * x₂ * x₃ ^ 2 * y₃ ^ 3 + d * y₁ * y₂ * x₃ ^ 3 * y₃ ^ 2 + x₁ ^ 3 * x₂ * x₃ ^ 3 - x₁ ^ 3 * x₂ * x₃ * y₃ ^ 2
    + x₁ ^ 3 * x₂ * x₃ + x₁ ^ 3 * y₂ * x₃ ^ 2 * y₃ - x₁ ^ 3 * y₂ * y₃ ^ 3 + x₁ ^ 3 * y₂ * y₃ + x₁ ^ 2 * y₁ *
    x₂ * x₃ ^ 2 * y₃ - x₁ ^ 2 * y₁ * x₂ * y₃ ^ 3 + x₁ ^ 2 * y₁ * x₂ * y₃ + x₁ ^ 2 * y₁ * y₂ * x₃ ^ 3 - x₁ ^ 2
    * y₁ * y₂ * x₃ * y₃ ^ 2 + x₁ ^ 2 * y₁ * y₂ * x₃ - x₁ * y₁ ^ 2 * x₂ * x₃ ^ 3 + x₁ * y₁ ^ 2 * x₂ * x₃ * y₃ ^
    2 - x₁ * y₁ ^ 2 * x₂ * x₃ - x₁ * y₁ ^ 2 * y₂ * x₃ ^ 2 * y₃ + x₁ * y₁ ^ 2 * y₂ * y₃ ^ 3 - x₁ * y₁ ^ 2 * y₂
    * y₃ + x₁ * x₂ * x₃ ^ 3 - x₁ * x₂ * x₃ * y₃ ^ 2 + x₁ * x₂ * x₃ + x₁ * y₂ * x₃ ^ 2 * y₃ - x₁ * y₂ * y₃ ^ 3
    + x₁ * y₂ * y₃ - y₁ ^ 3 * x₂ * x₃ ^ 2 * y₃ + y₁ ^ 3 * x₂ * y₃ ^ 3 - y₁ ^ 3 * x₂ * y₃ - y₁ ^ 3 * y₂ * x₃ ^
    3 + y₁ ^ 3 * y₂ * x₃ * y₃ ^ 2 - y₁ ^ 3 * y₂ * x₃ + y₁ * x₂ * x₃ ^ 2 * y₃ - y₁ * x₂ * y₃ ^ 3 + y₁ * x₂ * y₃
    + y₁ * y₂ * x₃ ^ 3 - y₁ * y₂ * x₃ * y₃ ^ 2 + y₁ * y₂ * x₃) * h₂ + (- d * x₁ ^ 2 * y₁ * x₂ ^ 2 * y₂ * x₃ +
    d * x₁ ^ 2 * y₁ * x₂ * y₂ ^ 2 * y₃ + d * x₁ * y₁ ^ 2 * x₂ ^ 2 * y₂ * y₃ - d * x₁ * y₁ ^ 2 * x₂ * y₂ ^ 2 *
    x₃ - x₁ ^ 3 * x₂ ^ 3 * x₃ - x₁ ^ 3 * x₂ ^ 2 * y₂ * y₃ + x₁ ^ 3 * x₂ * y₂ ^ 2 * x₃ - x₁ ^ 3 * x₂ * x₃ + x₁
    ^ 3 * y₂ ^ 3 * y₃ - x₁ ^ 3 * y₂ * y₃ - x₁ ^ 2 * y₁ * x₂ ^ 3 * y₃ - x₁ ^ 2 * y₁ * x₂ ^ 2 * y₂ * x₃ + x₁ ^ 2
    * y₁ * x₂ * y₂ ^ 2 * y₃ - x₁ ^ 2 * y₁ * x₂ * y₃ + x₁ ^ 2 * y₁ * y₂ ^ 3 * x₃ - x₁ ^ 2 * y₁ * y₂ * x₃ + x₁ *
    y₁ ^ 2 * x₂ ^ 3 * x₃ + x₁ * y₁ ^ 2 * x₂ ^ 2 * y₂ * y₃ - x₁ * y₁ ^ 2 * x₂ * y₂ ^ 2 * x₃ + x₁ * y₁ ^ 2 * x₂
    * x₃ - x₁ * y₁ ^ 2 * y₂ ^ 3 * y₃ + x₁ * y₁ ^ 2 * y₂ * y₃ - x₁ * x₂ ^ 3 * x₃ - x₁ * x₂ ^ 2 * y₂ * y₃ + x₁ *
    x₂ * y₂ ^ 2 * x₃ - x₁ * x₂ * x₃ + x₁ * y₂ ^ 3 * y₃ - x₁ * y₂ * y₃ + y₁ ^ 3 * x₂ ^ 3 * y₃ + y₁ ^ 3 * x₂ ^ 2
    * y₂ * x₃ - y₁ ^ 3 * x₂ * y₂ ^ 2 * y₃ + y₁ ^ 3 * x₂ * y₃ - y₁ ^ 3 * y₂ ^ 3 * x₃ + y₁ ^ 3 * y₂ * x₃ - y₁ *
    x₂ ^ 3 * y₃ - y₁ * x₂ ^ 2 * y₂ * x₃ + y₁ * x₂ * y₂ ^ 2 * y₃ - y₁ * x₂ * y₃ + y₁ * y₂ ^ 3 * x₃ - y₁ * y₂ *
    x₃) * h₃

theorem edwards_assocY {x₁ y₁ x₂ y₂ x₃ y₃ A B P M A' B' P' M' : K} (h₁ : OnEdwards d x₁ y₁)
    (h₂ : OnEdwards d x₂ y₂) (h₃ : OnEdwards d x₃ y₃)
    (hA : A = x₁ * y₂ + y₁ * x₂) (hB : B = y₁ * y₂ + x₁ * x₂) (hP : P = 1 + edDelta d x₁ y₁ x₂ y₂)
    (hM : M = 1 - edDelta d x₁ y₁ x₂ y₂)
    (hA' : A' = x₂ * y₃ + y₂ * x₃) (hB' : B' = y₂ * y₃ + x₂ * x₃) (hP' : P' = 1 + edDelta d x₂ y₂ x₃ y₃)
    (hM' : M' = 1 - edDelta d x₂ y₂ x₃ y₃) :
    (B * P * y₃ + A * M * x₃) * (P' * M' - d * A' * B' * x₁ * y₁) =
      (B' * P' * y₁ + A' * M' * x₁) * (P * M - d * A * B * x₃ * y₃) := by
  unfold OnEdwards at h₁ h₂ h₃
  unfold edDelta at hP hM hP' hM'
  subst hA hB hP hM hA' hB' hP' hM'
  linear_combination
    (d ^ 2 * x₁ * x₂ ^ 4 * y₂ ^ 3 * x₃ * y₃ ^ 2 + d ^ 2 * x₁ * x₂ ^ 3 * y₂ ^ 4 * x₃ ^ 2 * y₃ - d ^ 2 * y₁ * x₂
    ^ 4 * y₂ ^ 3 * x₃ ^ 2 * y₃ - d ^ 2 * y₁ * x₂ ^ 3 * y₂ ^ 4 * x₃ * y₃ ^ 2 + d * x₁ * x₂ ^ 4 * y₂ * x₃ * y₃ ^
    2 + d * x₁ * x₂ ^ 3 * y₂ ^ 2 * y₃ ^ 3 - d * x₁ * x₂ ^ 3 * y₂ ^ 2 * y₃ - d * x₁ * x₂ ^ 2 * y₂ ^ 3 * x₃ ^ 3
    - d * x₁ * x₂ ^ 2 * y₂ ^ 3 * x₃ - d * x₁ * x₂ * y₂ ^ 4 * x₃ ^ 2 * y₃ - d * y₁ * x₂ ^ 4 * y₂ * x₃ ^ 2 * y₃
    - d * y₁ * x₂ ^ 3 * y₂ ^ 2 * x₃ ^ 3 - d * y₁ * x₂ ^ 3 * y₂ ^ 2 * x₃ + d * y₁ * x₂ ^ 2 * y₂ ^ 3 * y₃ ^ 3 -
    d * y₁ * x₂ ^ 2 * y₂ ^ 3 * y₃ + d * y₁ * x₂ * y₂ ^ 4 * x₃ * y₃ ^ 2) * h₁ + (d ^ 2 * x₁ ^ 2 * y₁ * x₂ ^ 2 *
    y₂ * x₃ ^ 2 * y₃ ^ 3 - d ^ 2 * x₁ ^ 2 * y₁ * x₂ * y₂ ^ 2 * x₃ ^ 3 * y₃ ^ 2 - d ^ 2 * x₁ * y₁ ^ 2 * x₂ ^ 2
    * y₂ * x₃ ^ 3 * y₃ ^ 2 + d ^ 2 * x₁ * y₁ ^ 2 * x₂ * y₂ ^ 2 * x₃ ^ 2 * y₃ ^ 3 - d * x₁ ^ 3 * x₂ ^ 2 * y₂ *
    x₃ * y₃ ^ 2 - d * x₁ ^ 3 * x₂ * y₂ ^ 2 * x₃ ^ 2 * y₃ + d * x₁ ^ 3 * x₂ * x₃ ^ 2 * y₃ ^ 3 + d * x₁ ^ 3 * y₂
    * x₃ ^ 3 * y₃ ^ 2 + d * x₁ ^ 2 * y₁ * x₂ ^ 2 * y₂ * x₃ ^ 2 * y₃ + d * x₁ ^ 2 * y₁ * x₂ * y₂ ^ 2 * x₃ * y₃
    ^ 2 + d * x₁ ^ 2 * y₁ * x₂ * x₃ ^ 3 * y₃ ^ 2 + d * x₁ ^ 2 * y₁ * y₂ * x₃ ^ 2 * y₃ ^ 3 + d * x₁ * y₁ ^ 2 *
    x₂ ^ 2 * y₂ * x₃ * y₃ ^ 2 + d * x₁ * y₁ ^ 2 * x₂ * y₂ ^ 2 * x₃ ^ 2 * y₃ - d * x₁ * y₁ ^ 2 * x₂ * x₃ ^ 2 *
    y₃ ^ 3 - d * x₁ * y₁ ^ 2 * y₂ * x₃ ^ 3 * y₃ ^ 2 - d * x₁ * x₂ ^ 2 * y₂ * x₃ * y₃ ^ 2 - d * x₁ * x₂ * y₂ ^
    2 * x₃ ^ 2 * y₃ + d * x₁ * x₂ * x₃ ^ 2 * y₃ ^ 3 + d * x₁ * y₂ * x₃ ^ 3 * y₃ ^ 2 - d * y₁ ^ 3 * x₂ ^ 2 * y₂
    * x₃ ^ 2 * y₃ - d * y₁ ^ 3 * x₂ * y₂ ^ 2 * x₃ * y₃ ^ 2 - d * y₁ ^ 3 * x₂ * x₃ ^ 3 * y₃ ^ 2 - d * y₁ ^ 3 *
    y₂ * x₃ ^ 2 * y₃ ^ 3 + d * y₁ * x₂ ^ 2 * y₂ * x₃ ^ 2 * y₃ + d * y₁ * x₂ * y₂ ^ 2 * x₃ * y₃ ^ 2 + d * y₁ *
    x₂ * x₃ ^ 3 * y₃ ^ 2 + d * y₁ * y₂ * x₃ ^ 2 * y₃ ^ 3 + x₁ ^ 3 * x₂ * x₃ ^ 2 * y₃ - x₁ ^ 3 * x₂ * y₃ ^ 3 +
    x₁ ^ 3 * x₂ * y₃ + x₁ ^ 3 * y₂ * x₃ ^ 3 - x₁ ^ 3 * y₂ * x₃ * y₃ ^ 2 + x₁ ^ 3 * y₂ * x₃ + x₁ ^ 2 * y₁ * x₂
    * x₃ ^ 3 - x₁ ^ 2 * y₁ * x₂ * x₃ * y₃ ^ 2 + x₁ ^ 2 * y₁ * x₂ * x₃ + x₁ ^ 2 * y₁ * y₂ * x₃ ^ 2 * y₃ - x₁ ^
    2 * y₁ * y₂ * y₃ ^ 3 + x₁ ^ 2 * y₁ * y₂ * y₃ - x₁ * y₁ ^ 2 * x₂ * x₃ ^ 2 * y₃ + x₁ * y₁ ^ 2 * x₂ * y₃ ^ 3
    - x₁ * y₁ ^ 2 * x₂ * y₃ - x₁ * y₁ ^ 2 * y₂ * x₃ ^ 3 + x₁ * y₁ ^ 2 * y₂ * x₃ * y₃ ^ 2 - x₁ * y₁ ^ 2 * y₂ *
    x₃ + x₁ * x₂ * x₃ ^ 2 * y₃ - x₁ * x₂ * y₃ ^ 3 + x₁ * x₂ * y₃ + x₁ * y₂ * x₃ ^ 3 - x₁ * y₂ * x₃ * y₃ ^ 2 +
    x₁ * y₂ * x₃ - y₁ ^ 3 * x₂ * x₃ ^ 3 + y₁ ^ 3 * x₂ * x₃ * y₃ ^ 2 - y₁ ^ 3 * x₂ * x₃ - y₁ ^ 3 * y₂ * x₃ ^ 2
    * y₃ + y₁ ^ 3 * y₂ * y₃ ^ 3 - y₁ ^ 3 * y₂ * y₃ + y₁ * x₂ * x₃ ^ 3 - y₁ * x₂ * x₃ * y₃ ^ 2 + y₁ * x₂ * x₃ +
    y₁ * y₂ * x₃ ^ 2 * y₃ - y₁ * y₂ * y₃ ^ 3 + y₁ * y₂ * y₃) * h₂ + (- d * x₁ ^ 2 * y₁ * x₂ ^ 2 * y₂ * y₃ + d
    * x₁ ^ 2 * y₁ * x₂ * y₂ ^ 2 * x₃ + d * x₁ * y₁ ^ 2 * x₂ ^ 2 * y₂ * x₃ - d * x₁ * y₁ ^ 2 * x₂ * y₂ ^ 2 * y₃
    - x₁ ^ 3 * x₂ ^ 3 * y₃ - x₁ ^ 3 * x₂ ^ 2 * y₂ * x₃ + x₁ ^ 3 * x₂ * y₂ ^ 2 * y₃ - x₁ ^ 3 * x₂ * y₃ + x₁ ^ 3
    * y₂ ^ 3 * x₃ - x₁ ^ 3 * y₂ * x₃ - x₁ ^ 2 * y₁ * x₂ ^ 3 * x₃ - x₁ ^ 2 * y₁ * x₂ ^ 2 * y₂ * y₃ + x₁ ^ 2 *
    y₁ * x₂ * y₂ ^ 2 * x₃ - x₁ ^ 2 * y₁ * x₂ * x₃ + x₁ ^ 2 * y₁ * y₂ ^ 3 * y₃ - x₁ ^ 2 * y₁ * y₂ * y₃ + x₁ *
    y₁ ^ 2 * x₂ ^ 3 * y₃ + x₁ * y₁ ^ 2 * x₂ ^ 2 * y₂ * x₃ - x₁ * y₁ ^ 2 * x₂ * y₂ ^ 2 * y₃ + x₁ * y₁ ^ 2 * x₂
    * y₃ - x₁ * y₁ ^ 2 * y₂ ^ 3 * x₃ + x₁ * y₁ ^ 2 * y₂ * x₃ - x₁ * x₂ ^ 3 * y₃ - x₁ * x₂ ^ 2 * y₂ * x₃ + x₁ *
    x₂ * y₂ ^ 2 * y₃ - x₁ * x₂ * y₃ + x₁ * y₂ ^ 3 * x₃ - x₁ * y₂ * x₃ + y₁ ^ 3 * x₂ ^ 3 * x₃ + y₁ ^ 3 * x₂ ^ 2
    * y₂ * y₃ - y₁ ^ 3 * x₂ * y₂ ^ 2 * x₃ + y₁ ^ 3 * x₂ * x₃ - y₁ ^ 3 * y₂ ^ 3 * y₃ + y₁ ^ 3 * y₂ * y₃ - y₁ *
    x₂ ^ 3 * x₃ - y₁ * x₂ ^ 2 * y₂ * y₃ + y₁ * x₂ * y₂ ^ 2 * x₃ - y₁ * x₂ * x₃ + y₁ * y₂ ^ 3 * y₃ - y₁ * y₂ *
    y₃) * h₃

section
variable [EdwardsComplete d] {x₁ y₁ x₂ y₂ x₃ y₃ : K} (h₁ : OnEdwards d x₁ y₁) (h₂ : OnEdwards d x₂ y₂)
  (h₃ : OnEdwards d x₃ y₃)

include h₁ h₂

theorem edX_mul : edX d x₁ y₁ x₂ y₂ * (1 + edDelta d x₁ y₁ x₂ y₂) = x₁ * y₂ + y₁ * x₂ :=
  div_mul_cancel₀ _ (edX_den_ne_zero h₁ h₂)

theorem edY_mul : edY d x₁ y₁ x₂ y₂ * (1 - edDelta d x₁ y₁ x₂ y₂) = y₁ * y₂ + x₁ * x₂ :=
  div_mul_cancel₀ _ (edY_den_ne_zero h₁ h₂)

/-- Sums are on the curve. -/
theorem onEdwards_add : OnEdwards d (edX d x₁ y₁ x₂ y₂) (edY d x₁ y₁ x₂ y₂) := by
  have hx := edX_den_ne_zero h₁ h₂
  have hy := edY_den_ne_zero h₁ h₂
  have key := edwards_closed h₁ h₂ (edX_mul h₁ h₂) (edY_mul h₁ h₂) rfl rfl
  refine mul_right_cancel₀ (pow_ne_zero 2 (mul_ne_zero hx hy)) ?_
  linear_combination key

include h₃

theorem edX_assoc : edX d (edX d x₁ y₁ x₂ y₂) (edY d x₁ y₁ x₂ y₂) x₃ y₃ =
    edX d x₁ y₁ (edX d x₂ y₂ x₃ y₃) (edY d x₂ y₂ x₃ y₃) := by
  have key := edwards_assocX h₁ h₂ h₃ (edX_mul h₁ h₂) (edY_mul h₁ h₂) rfl rfl (edX_mul h₂ h₃) (edY_mul h₂ h₃)
    rfl rfl
  have hn := mul_ne_zero (mul_ne_zero (edX_den_ne_zero h₁ h₂) (edY_den_ne_zero h₁ h₂))
    (mul_ne_zero (edX_den_ne_zero h₂ h₃) (edY_den_ne_zero h₂ h₃))
  have e : ∀ d x y x' y' : K, edX d x y x' y' = (x * y' + y * x') / (1 + edDelta d x y x' y') :=
    fun _ _ _ _ _ => rfl
  rw [e d (edX d x₁ y₁ x₂ y₂), e d x₁ y₁ (edX d x₂ y₂ x₃ y₃),
    div_eq_div_iff (edX_den_ne_zero (onEdwards_add h₁ h₂) h₃) (edX_den_ne_zero h₁ (onEdwards_add h₂ h₃))]
  refine mul_right_cancel₀ hn ?_
  generalize edX d x₁ y₁ x₂ y₂ = X at *
  generalize edY d x₁ y₁ x₂ y₂ = Y at *
  generalize edX d x₂ y₂ x₃ y₃ = X' at *
  generalize edY d x₂ y₂ x₃ y₃ = Y' at *
  generalize 1 + edDelta d x₁ y₁ x₂ y₂ = P at *
  generalize 1 - edDelta d x₁ y₁ x₂ y₂ = M at *
  generalize 1 + edDelta d x₂ y₂ x₃ y₃ = P' at *
  generalize 1 - edDelta d x₂ y₂ x₃ y₃ = M' at *
  unfold edDelta
  linear_combination key

theorem edY_assoc : edY d (edX d x₁ y₁ x₂ y₂) (edY d x₁ y₁ x₂ y₂) x₃ y₃ =
    edY d x₁ y₁ (edX d x₂ y₂ x₃ y₃) (edY d x₂ y₂ x₃ y₃) := by
  have key := edwards_assocY h₁ h₂ h₃ (edX_mul h₁ h₂) (edY_mul h₁ h₂) rfl rfl (edX_mul h₂ h₃) (edY_mul h₂ h₃)
    rfl rfl
  have hn := mul_ne_zero (mul_ne_zero (edX_den_ne_zero h₁ h₂) (edY_den_ne_zero h₁ h₂))
    (mul_ne_zero (edX_den_ne_zero h₂ h₃) (edY_den_ne_zero h₂ h₃))
  have e : ∀ d x y x' y' : K, edY d x y x' y' = (y * y' + x * x') / (1 - edDelta d x y x' y') :=
    fun _ _ _ _ _ => rfl
  rw [e d (edX d x₁ y₁ x₂ y₂), e d x₁ y₁ (edX d x₂ y₂ x₃ y₃),
    div_eq_div_iff (edY_den_ne_zero (onEdwards_add h₁ h₂) h₃) (edY_den_ne_zero h₁ (onEdwards_add h₂ h₃))]
  refine mul_right_cancel₀ hn ?_
  generalize edX d x₁ y₁ x₂ y₂ = X at *
  generalize edY d x₁ y₁ x₂ y₂ = Y at *
  generalize edX d x₂ y₂ x₃ y₃ = X' at *
  generalize edY d x₂ y₂ x₃ y₃ = Y' at *
  generalize 1 + edDelta d x₁ y₁ x₂ y₂ = P at *
  generalize 1 - edDelta d x₁ y₁ x₂ y₂ = M at *
  generalize 1 + edDelta d x₂ y₂ x₃ y₃ = P' at *
  generalize 1 - edDelta d x₂ y₂ x₃ y₃ = M' at *
  unfold edDelta
  linear_combination key

end

end ElasticElgamal.Curves
