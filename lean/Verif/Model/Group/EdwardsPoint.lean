import Verif.Lemmas.Curves.EdwardsLaw
import Verif.Lemmas.Curves.DoubleAdd

/-!
# Points of a twisted Edwards curve

`EdwardsPoint` of the `curve25519-dalek` crate. Simplification: affine coordinates and the formulas of the curve
(Hisil, Wong, Carter, Dawson 2008); the extended coordinates of the crate are used within multiplication only, which
is by plain doubling and adding.
-/

set_option autoImplicit false

namespace ElasticElgamal

/-- A point of `-x² + y² = 1 + dx²y²`. -/
@[ext] structure EdPoint {K : Type} [Field K] (d : K) where
  x : K
  y : K
  onCurve : Curves.OnEdwards d x y

namespace EdPoint

variable {K : Type} [Field K] {d : K}

instance [DecidableEq K] : DecidableEq (EdPoint d) := fun P Q =>
  decidable_of_iff (P.x = Q.x ∧ P.y = Q.y) EdPoint.ext_iff.symm

/-- The identity. -/
instance : Zero (EdPoint d) := ⟨⟨0, 1, by simp [Curves.OnEdwards]⟩⟩

/-- Negation flips the sign of `x`. -/
instance : Neg (EdPoint d) := ⟨fun P => ⟨-P.x, P.y, by
  have := P.onCurve
  simpa [Curves.OnEdwards] using this⟩⟩

/-- The complete addition law. -/
instance [Curves.EdwardsComplete d] : Add (EdPoint d) := ⟨fun P Q =>
  ⟨Curves.edX d P.x P.y Q.x Q.y, Curves.edY d P.x P.y Q.x Q.y, Curves.onEdwards_add P.onCurve Q.onCurve⟩⟩

@[simp] theorem zero_x : (0 : EdPoint d).x = 0 := rfl
@[simp] theorem zero_y : (0 : EdPoint d).y = 1 := rfl
@[simp] theorem neg_x (P : EdPoint d) : (-P).x = -P.x := rfl
@[simp] theorem neg_y (P : EdPoint d) : (-P).y = P.y := rfl

section
variable [Curves.EdwardsComplete d]

theorem add_x (P Q : EdPoint d) : (P + Q).x = Curves.edX d P.x P.y Q.x Q.y := rfl
theorem add_y (P Q : EdPoint d) : (P + Q).y = Curves.edY d P.x P.y Q.x Q.y := rfl

protected theorem add_comm (P Q : EdPoint d) : P + Q = Q + P := by
  ext
  · simp only [add_x, Curves.edX, Curves.edDelta]
    congr 1 <;> ring
  · simp only [add_y, Curves.edY, Curves.edDelta]
    congr 1 <;> ring

protected theorem zero_add (P : EdPoint d) : 0 + P = P := by
  ext <;> simp [add_x, add_y, Curves.edX, Curves.edY, Curves.edDelta]

protected theorem neg_add_cancel (P : EdPoint d) : -P + P = 0 := by
  ext
  · simp only [add_x, Curves.edX, neg_x, neg_y, zero_x]
    rw [show -P.x * P.y + P.y * P.x = 0 by ring, zero_div]
  · have hne := Curves.edY_den_ne_zero (-P).onCurve P.onCurve
    simp only [add_y, Curves.edY, neg_x, neg_y, zero_y] at hne ⊢
    rw [div_eq_one_iff_eq hne]
    have := P.onCurve
    simp only [Curves.OnEdwards, Curves.edDelta] at this ⊢
    linear_combination this

/-- The group with multiplication as repeated addition. -/
abbrev repeatedAddition : AddCommGroup (EdPoint d) where
  add_assoc P Q R := by
    ext
    · exact Curves.edX_assoc P.onCurve Q.onCurve R.onCurve
    · exact Curves.edY_assoc P.onCurve Q.onCurve R.onCurve
  zero_add := EdPoint.zero_add
  add_zero P := by rw [EdPoint.add_comm]; exact EdPoint.zero_add P
  nsmul := nsmulRec
  zsmul := zsmulRec
  neg_add_cancel := EdPoint.neg_add_cancel
  add_comm := EdPoint.add_comm

end

end EdPoint

/-- Extended coordinates: `x / z`, `y / z` are the affine ones, and `t = xy / z`. -/
structure Extended (K : Type) where
  x : K
  y : K
  z : K
  t : K

namespace Extended

variable {K : Type} [Field K] {d : K}

/-- The identity. -/
def zero : Extended K := ⟨0, 1, 1, 0⟩

/-- The point with the given affine coordinates. -/
def ofPoint (P : EdPoint d) : Extended K := ⟨P.x, P.y, 1, P.x * P.y⟩

/-- The unified addition of Hisil, Wong, Carter, Dawson 2008, section 3.1, for the coefficient `-1`. -/
def add (d : K) (P Q : Extended K) : Extended K :=
  let a := (P.y - P.x) * (Q.y - Q.x)
  let b := (P.y + P.x) * (Q.y + Q.x)
  let c := 2 * d * P.t * Q.t
  let e := 2 * P.z * Q.z
  let h := b - a
  let f := e - c
  let g := e + c
  let k := b + a
  ⟨h * f, g * k, f * g, h * k⟩

/-- `Q` stands for the point `P`. -/
structure Rep (Q : Extended K) (P : EdPoint d) : Prop where
  z : Q.z ≠ 0
  x : Q.x = P.x * Q.z
  y : Q.y = P.y * Q.z
  t : Q.t = P.x * P.y * Q.z

theorem rep_zero : Rep (zero : Extended K) (0 : EdPoint d) := by
  constructor <;> simp [zero]

theorem rep_ofPoint (P : EdPoint d) : Rep (ofPoint P) P := by
  constructor <;> simp [ofPoint]

variable [Curves.EdwardsComplete d]

theorem rep_add {Q₁ Q₂ : Extended K} {P₁ P₂ : EdPoint d} (h₁ : Rep Q₁ P₁) (h₂ : Rep Q₂ P₂) :
    Rep (add d Q₁ Q₂) (P₁ + P₂) := by
  have hx := Curves.edX_den_ne_zero P₁.onCurve P₂.onCurve
  have hy := Curves.edY_den_ne_zero P₁.onCurve P₂.onCurve
  have ex := Curves.edX_mul P₁.onCurve P₂.onCurve
  have ey := Curves.edY_mul P₁.onCurve P₂.onCurve
  have h2 : (2 : K) ≠ 0 := Curves.EdwardsComplete.two_ne_zero (d := d)
  have hz₁ := h₁.z
  have hz₂ := h₂.z
  rw [← EdPoint.add_x] at ex
  rw [← EdPoint.add_y] at ey
  have hg : 2 * Q₁.z * Q₂.z + 2 * d * Q₁.t * Q₂.t =
      2 * Q₁.z * Q₂.z * (1 + Curves.edDelta d P₁.x P₁.y P₂.x P₂.y) := by
    rw [h₁.t, h₂.t, Curves.edDelta]; ring
  have hf : 2 * Q₁.z * Q₂.z - 2 * d * Q₁.t * Q₂.t =
      2 * Q₁.z * Q₂.z * (1 - Curves.edDelta d P₁.x P₁.y P₂.x P₂.y) := by
    rw [h₁.t, h₂.t, Curves.edDelta]; ring
  have hh : (Q₁.y + Q₁.x) * (Q₂.y + Q₂.x) - (Q₁.y - Q₁.x) * (Q₂.y - Q₂.x) =
      2 * Q₁.z * Q₂.z * (P₁.x * P₂.y + P₁.y * P₂.x) := by
    rw [h₁.x, h₁.y, h₂.x, h₂.y]; ring
  have hk : (Q₁.y + Q₁.x) * (Q₂.y + Q₂.x) + (Q₁.y - Q₁.x) * (Q₂.y - Q₂.x) =
      2 * Q₁.z * Q₂.z * (P₁.y * P₂.y + P₁.x * P₂.x) := by
    rw [h₁.x, h₁.y, h₂.x, h₂.y]; ring
  constructor <;> simp only [add, hg, hf, hh, hk]
  · exact mul_ne_zero (mul_ne_zero (mul_ne_zero (mul_ne_zero h2 hz₁) hz₂) hy)
      (mul_ne_zero (mul_ne_zero (mul_ne_zero h2 hz₁) hz₂) hx)
  · rw [← ex]; ring
  · rw [← ey]; ring
  · rw [← ex, ← ey]; ring

/-- A multiple of a point. -/
def mul (P : EdPoint d) (k : ℕ) : Extended K := Curves.doubleAdd zero (add d) (ofPoint P) k

theorem rep_mul (P : EdPoint d) (k : ℕ) : Rep (mul P k) (nsmulRec k P) :=
  letI := EdPoint.repeatedAddition (d := d)
  Curves.doubleAdd_rep (G := EdPoint d) rep_zero (fun _ _ _ _ => rep_add) (rep_ofPoint P) k

theorem mul_coords (P : EdPoint d) (k : ℕ) :
    (mul P k).x * (mul P k).z⁻¹ = (nsmulRec k P).x ∧ (mul P k).y * (mul P k).z⁻¹ = (nsmulRec k P).y := by
  have h := rep_mul P k
  rw [h.x, h.y, mul_assoc, mul_assoc, mul_inv_cancel₀ h.z, mul_one, mul_one]
  exact ⟨rfl, rfl⟩

end Extended

namespace EdPoint

variable {K : Type} [Field K] {d : K} [Curves.EdwardsComplete d]

/-- Multiplication of a point by a number. -/
def mul (k : ℕ) (P : EdPoint d) : EdPoint d :=
  let Q := Extended.mul P k
  let w := Q.z⁻¹
  ⟨Q.x * w, Q.y * w, by
    have h := Extended.mul_coords P k
    change Curves.OnEdwards d ((Extended.mul P k).x * (Extended.mul P k).z⁻¹)
      ((Extended.mul P k).y * (Extended.mul P k).z⁻¹)
    rw [h.1, h.2]
    exact (nsmulRec k P).onCurve⟩

theorem mul_eq (k : ℕ) (P : EdPoint d) : mul k P = nsmulRec k P :=
  EdPoint.ext (Extended.mul_coords P k).1 (Extended.mul_coords P k).2

instance : AddCommGroup (EdPoint d) where
  __ := repeatedAddition
  nsmul := mul
  nsmul_zero P := mul_eq 0 P
  nsmul_succ k P := by
    change mul (k + 1) P = mul k P + P
    rw [mul_eq, mul_eq]; rfl
  zsmul := zsmulRec mul
  zsmul_zero' P := mul_eq 0 P
  zsmul_succ' k P := by
    change mul (k + 1) P = mul k P + P
    rw [mul_eq, mul_eq]; rfl
  zsmul_neg' _ _ := rfl

end EdPoint

end ElasticElgamal
