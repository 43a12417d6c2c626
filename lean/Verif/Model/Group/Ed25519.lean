import Verif.Model.Group.Curve25519
import Verif.Model.Group.EdwardsPoint
import Verif.Lemmas.Curves.Primes
import Mathlib.FieldTheory.Finite.Basic

/-!
# Curve25519 in Edwards form

The curve of `Curve25519Subgroup` (`src/group/curve25519.rs`) with its parameters: RFC 7748, section 4.1, and RFC
8032, section 5.1.
-/

set_option autoImplicit false

namespace ElasticElgamal.Ed25519

/-- Characteristic of the base field: `2^255 - 19`. -/
def p : ℕ := 0x7FFFFFFFFFFFFFFFFFFFFFFFFFFFFFFFFFFFFFFFFFFFFFFFFFFFFFFFFFFFFFED

/-- Order of the subgroup: `2^252 + 27742317777372353535851937790883648493`. -/
def ℓ : ℕ := 0x1000000000000000000000000000000014DEF9DEA2F79CD65812631A5CF5D3ED

/-- The coefficient of the curve: `-121665 / 121666`. -/
def d : ℕ := 0x52036CEE2B6FFE738CC740797779E89800700A4D4141D8AB75EB4DCA135978A3

/-- Abscissa of the base point. -/
def bx : ℕ := 0x216936D3CD6E53FEC0A4E231FDD6DC5C692CC7609525A7B2C9562D608F25D51A

/-- Ordinate of the base point: `4 / 5`. -/
def by' : ℕ := 0x6666666666666666666666666666666666666666666666666666666666666658

/-- `SQRT_M1`: the even square root of `-1`. -/
def sqrtM1 : ℕ := 0x2B8324804FC1DF0B2B4D00993DFBD7A72F431806AD2FE478C4EE1B274A0EA0B0

instance : Fact p.Prime := ⟨Curves.edField_prime⟩
instance : Fact ℓ.Prime := ⟨Curves.edOrder_prime⟩

/-- `FieldElement::is_negative`: the least significant bit of the encoding. -/
def isNegative (x : ZMod p) : Bool := x.val % 2 = 1

/-- `FieldElement::conditional_negate` by the sign: the nonnegative one of `x` and `-x`. -/
def ctAbs (x : ZMod p) : ZMod p := if isNegative x then -x else x

/-- `FieldElement::sqrt_ratio_i` (RFC 9496, section 4.2): the nonnegative square root of `u / v` if it is a square,
and of `i·u / v` otherwise. -/
def sqrtRatioI (u v : ZMod p) : Bool × ZMod p :=
  let r := u * v ^ 3 * Curves.power (u * v ^ 7) ((p - 5) / 8)
  let check := v * r ^ 2
  let correct := check = u
  let flipped := check = -u
  let flippedI := check = -u * sqrtM1
  let r := if flipped ∨ flippedI then sqrtM1 * r else r
  (correct ∨ flipped, ctAbs r)

theorem base_onCurve : Curves.OnEdwards (d : ZMod p) (bx : ZMod p) (by' : ZMod p) := by
  unfold Curves.OnEdwards
  have h : ((by' * by' : ℕ) : ZMod p) = ((1 + d * bx * bx * by' * by' + bx * bx : ℕ) : ZMod p) := by
    rw [ZMod.natCast_eq_natCast_iff]
    unfold Nat.ModEq
    decide +kernel
  push_cast at h
  linear_combination h

/-- `EdwardsPoint`. -/
abbrev Point : Type := EdPoint (d : ZMod p)

/-- The parameters of the curve. -/
def params (X : Externals) : Curve25519.Edwards p Point where
  d := d
  size := 32
  coords e := (e.x, e.y)
  ofCoords x y :=
    if h : -x ^ 2 + y ^ 2 = 1 + (d : ZMod p) * x ^ 2 * y ^ 2 then some ⟨x, y, h⟩ else none
  sqrtRatio u v := if (sqrtRatioI u v).1 then some (sqrtRatioI u v).2 else none
  basepoint := ⟨bx, by', base_onCurve⟩
  ext := X

end ElasticElgamal.Ed25519
