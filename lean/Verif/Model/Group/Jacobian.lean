import Verif.Lemmas.Curves.Weierstrass
import Verif.Lemmas.Curves.DoubleAdd

/-!
# Multiplication on a short Weierstrass curve with `a = 0`

Multiplication by doubling and adding in Jacobian coordinates. (`k256` has homogeneous coordinates and a windowed
method; the result is the same multiple, in affine coordinates here.)
-/

set_option autoImplicit false

namespace ElasticElgamal

open WeierstrassCurve.Affine

/-- Jacobian coordinates: `x / z²`, `y / z³` are the affine ones; `z = 0` at infinity. -/
structure Jacobian (K : Type) where
  x : K
  y : K
  z : K

namespace Jacobian

section
variable {K : Type} [Field K] [DecidableEq K]

/-- The point at infinity. -/
def zero : Jacobian K := ⟨1, 1, 0⟩

/-- Doubling (Explicit-Formulas Database, `dbl-2009-l`). -/
def double (P : Jacobian K) : Jacobian K :=
  let a := P.x * P.x
  let b := P.y * P.y
  let c := b * b
  let d := 4 * P.x * b
  let e := 3 * a
  let x := e * e - 2 * d
  ⟨x, e * (d - x) - 8 * c, 2 * P.y * P.z⟩

/-- Addition (Explicit-Formulas Database, `add-1998-cmo-2`) with all special cases. -/
def add (P Q : Jacobian K) : Jacobian K :=
  if P.z = 0 then Q
  else if Q.z = 0 then P
  else
    let z₁ := P.z * P.z
    let z₂ := Q.z * Q.z
    let u₁ := P.x * z₂
    let u₂ := Q.x * z₁
    let s₁ := P.y * z₂ * Q.z
    let s₂ := Q.y * z₁ * P.z
    if u₁ = u₂ then
      if s₁ = s₂ then double P else zero
    else
      let h := u₂ - u₁
      let r := s₂ - s₁
      let h₂ := h * h
      let h₃ := h₂ * h
      let v := u₁ * h₂
      let x := r * r - h₃ - 2 * v
      ⟨x, r * (v - x) - s₁ * h₃, P.z * Q.z * h⟩

end

variable {p : ℕ} [Fact p.Prime] {b : ZMod p}

/-- The point with the given affine coordinates. -/
def ofPoint : Generic.Point (0 : ZMod p) b → Jacobian (ZMod p)
  | .zero => zero
  | .some x y _ => ⟨x, y, 1⟩

/-- `Q` stands for the given point. -/
def Rep (Q : Jacobian (ZMod p)) : Generic.Point (0 : ZMod p) b → Prop
  | .zero => Q.z = 0
  | .some x y _ => Q.z ≠ 0 ∧ Q.x = x * Q.z ^ 2 ∧ Q.y = y * Q.z ^ 3

theorem rep_ofPoint (P : Generic.Point (0 : ZMod p) b) : Rep (ofPoint P) P := by
  rcases P with _ | ⟨x, y, h⟩ <;> simp [Rep, ofPoint, zero]

theorem rep_zero : Rep zero (0 : Generic.Point (0 : ZMod p) b) := rfl

theorem rep_double {Q : Jacobian (ZMod p)} {x y : ZMod p} {h} (hQ : Rep Q (.some x y h : Generic.Point (0 : ZMod p) b)) :
    Rep (double Q) (.some x y h + .some x y h : Generic.Point (0 : ZMod p) b) := by
  obtain ⟨hz, hx, hy⟩ := hQ
  by_cases h0 : 2 * y = 0
  · rw [Point.add_self_of_Y_eq (by
      change y = -y - 0 * x - 0
      linear_combination h0)]
    change 2 * Q.y * Q.z = 0
    rw [hy]
    linear_combination h0 * Q.z ^ 4
  · obtain ⟨l, hl⟩ : ∃ l, l * (2 * y) = 3 * x ^ 2 := ⟨_, div_mul_cancel₀ _ h0⟩
    obtain ⟨h3, e⟩ := Curves.double_of_slope (h₁ := h) (l := l) h0 (by rw [hl]; ring) rfl rfl
    rw [e]
    refine ⟨?_, ?_, ?_⟩
    · change 2 * Q.y * Q.z ≠ 0
      rw [hy, show 2 * (y * Q.z ^ 3) * Q.z = 2 * y * Q.z ^ 4 by ring]
      exact mul_ne_zero h0 (pow_ne_zero _ hz)
    · simp only [double]
      rw [hx, hy]
      linear_combination (-(l * (2 * y)) - 3 * x ^ 2) * Q.z ^ 8 * hl
    · simp only [double]
      rw [hx, hy]
      linear_combination Q.z ^ 12 * ((l * (2 * y)) ^ 2 + l * (2 * y) * (3 * x ^ 2) + (3 * x ^ 2) ^ 2 - 3 * x * (2 * y) ^ 2) * hl

theorem rep_add {Q₁ Q₂ : Jacobian (ZMod p)} {P₁ P₂ : Generic.Point (0 : ZMod p) b} (h₁ : Rep Q₁ P₁)
    (h₂ : Rep Q₂ P₂) : Rep (add Q₁ Q₂) (P₁ + P₂) := by
  rcases P₁ with _ | ⟨x₁, y₁, n₁⟩
  · rw [add, if_pos (show Q₁.z = 0 from h₁)]
    change Rep Q₂ (0 + P₂)
    rwa [zero_add]
  rcases P₂ with _ | ⟨x₂, y₂, n₂⟩
  · rw [add, if_neg h₁.1, if_pos (show Q₂.z = 0 from h₂)]
    change Rep Q₁ (_ + 0)
    rwa [add_zero]
  have h₁' := h₁
  obtain ⟨hz₁, hx₁, hy₁⟩ := h₁
  obtain ⟨hz₂, hx₂, hy₂⟩ := h₂
  have hz : Q₁.z ^ 2 * Q₂.z ^ 2 ≠ 0 := mul_ne_zero (pow_ne_zero _ hz₁) (pow_ne_zero _ hz₂)
  have hz3 : Q₁.z ^ 3 * Q₂.z ^ 3 ≠ 0 := mul_ne_zero (pow_ne_zero _ hz₁) (pow_ne_zero _ hz₂)
  have hu : Q₁.x * (Q₂.z * Q₂.z) - Q₂.x * (Q₁.z * Q₁.z) = (x₁ - x₂) * (Q₁.z ^ 2 * Q₂.z ^ 2) := by
    rw [hx₁, hx₂]; ring
  have hs : Q₁.y * (Q₂.z * Q₂.z) * Q₂.z - Q₂.y * (Q₁.z * Q₁.z) * Q₁.z = (y₁ - y₂) * (Q₁.z ^ 3 * Q₂.z ^ 3) := by
    rw [hy₁, hy₂]; ring
  rw [add, if_neg hz₁, if_neg hz₂]
  simp only
  split
  · next hu0 =>
    rw [← sub_eq_zero, hu, mul_eq_zero, or_iff_left hz, sub_eq_zero] at hu0
    subst hu0
    split
    · next hs0 =>
      rw [← sub_eq_zero, hs, mul_eq_zero, or_iff_left hz3, sub_eq_zero] at hs0
      subst hs0
      exact rep_double h₁'
    · next hs0 =>
      rw [← sub_eq_zero, hs, mul_eq_zero, or_iff_left hz3, sub_eq_zero] at hs0
      have e₁ := (equation_iff _ _).mp n₁.1
      have e₂ := (equation_iff _ _).mp n₂.1
      simp only at e₁ e₂
      have hsum : y₁ + y₂ = 0 := by
        have h : (y₁ - y₂) * (y₁ + y₂) = 0 := by linear_combination e₁ - e₂
        exact (mul_eq_zero.mp h).resolve_left (sub_ne_zero.mpr hs0)
      rw [Point.add_of_Y_eq rfl (by
        change y₁ = -y₂ - 0 * x₁ - 0
        linear_combination hsum)]
      rfl
  · next hu0 =>
    rw [← sub_eq_zero, hu, mul_eq_zero, or_iff_left hz, sub_eq_zero] at hu0
    have hne : x₁ - x₂ ≠ 0 := sub_ne_zero.mpr hu0
    obtain ⟨l, hl⟩ : ∃ l, l * (x₁ - x₂) = y₁ - y₂ := ⟨_, div_mul_cancel₀ _ hne⟩
    obtain ⟨h3, e⟩ := Curves.add_of_slope (h₁ := n₁) (h₂ := n₂) (l := l) hu0 hl rfl rfl
    rw [e]
    have hy2' : y₂ = y₁ - l * (x₁ - x₂) := by linear_combination hl
    refine ⟨?_, ?_, ?_⟩
    · refine mul_ne_zero (mul_ne_zero hz₁ hz₂) ?_
      rw [← neg_ne_zero, neg_sub, hu]
      exact mul_ne_zero hne hz
    · simp only
      rw [hx₁, hy₁, hx₂, hy₂, hy2']
      ring
    · simp only
      rw [hx₁, hy₁, hx₂, hy₂, hy2']
      ring

/-- A multiple of a point. -/
def mul (P : Generic.Point (0 : ZMod p) b) (k : ℕ) : Jacobian (ZMod p) := Curves.doubleAdd zero add (ofPoint P) k

theorem rep_mul (P : Generic.Point (0 : ZMod p) b) (k : ℕ) : Rep (mul P k) (k • P) :=
  Curves.doubleAdd_rep (Rep := Rep (b := b)) rep_zero (fun _ _ _ _ => rep_add) (rep_ofPoint P) k

/-- The affine point. -/
def toPoint (b : ZMod p) (Q : Jacobian (ZMod p)) (hQ : ∃ P : Generic.Point (0 : ZMod p) b, Rep Q P) :
    Generic.Point (0 : ZMod p) b :=
  if h : Q.z = 0 then .zero
  else
    let w := Q.z⁻¹
    let w₂ := w * w
    .some (Q.x * w₂) (Q.y * (w₂ * w)) (by
      obtain ⟨_ | ⟨x, y, n⟩, hP⟩ := hQ
      · exact absurd hP h
      · obtain ⟨-, hx, hy⟩ := hP
        have hw : Q.z * Q.z⁻¹ = 1 := mul_inv_cancel₀ h
        have e₁ : Q.x * (Q.z⁻¹ * Q.z⁻¹) = x := by
          rw [hx, show x * Q.z ^ 2 * (Q.z⁻¹ * Q.z⁻¹) = x * (Q.z * Q.z⁻¹) ^ 2 by ring, hw, one_pow, mul_one]
        have e₂ : Q.y * (Q.z⁻¹ * Q.z⁻¹ * Q.z⁻¹) = y := by
          rw [hy, show y * Q.z ^ 3 * (Q.z⁻¹ * Q.z⁻¹ * Q.z⁻¹) = y * (Q.z * Q.z⁻¹) ^ 3 by ring, hw, one_pow, mul_one]
        change (Generic.curve 0 b).Nonsingular (Q.x * (Q.z⁻¹ * Q.z⁻¹)) (Q.y * (Q.z⁻¹ * Q.z⁻¹ * Q.z⁻¹))
        rw [e₁, e₂]
        exact n)

theorem toPoint_eq {Q : Jacobian (ZMod p)} {P : Generic.Point (0 : ZMod p) b} (h : Rep Q P) :
    toPoint b Q ⟨P, h⟩ = P := by
  rcases P with _ | ⟨x, y, n⟩
  · exact dif_pos h
  · rw [toPoint, dif_neg h.1]
    obtain ⟨hz, hx, hy⟩ := h
    have hw : Q.z * Q.z⁻¹ = 1 := mul_inv_cancel₀ hz
    simp only [Point.some.injEq]
    constructor
    · rw [hx, show x * Q.z ^ 2 * (Q.z⁻¹ * Q.z⁻¹) = x * (Q.z * Q.z⁻¹) ^ 2 by ring, hw, one_pow, mul_one]
    · rw [hy, show y * Q.z ^ 3 * (Q.z⁻¹ * Q.z⁻¹ * Q.z⁻¹) = y * (Q.z * Q.z⁻¹) ^ 3 by ring, hw, one_pow, mul_one]

end Jacobian

end ElasticElgamal
