import Verif.Model.Group.Generic
import Verif.Lemmas.Curves.Primes
import Verif.Lemmas.Curves.DoubleAdd

/-!
# secp256k1

The curve of `Generic<k256::Secp256k1>` (`src/lib.rs:43`, `src/group/mod.rs:177-182`, `src/group/generic.rs:112`,
`examples/voting.rs:24`), with the parameters from SEC 2 v2, section 2.4.1.
-/

set_option autoImplicit false

namespace ElasticElgamal.Secp256k1

/-- Characteristic of the base field. -/
def p : ℕ := 0xFFFFFFFFFFFFFFFFFFFFFFFFFFFFFFFFFFFFFFFFFFFFFFFFFFFFFFFEFFFFFC2F

/-- Order of the group. -/
def n : ℕ := 0xFFFFFFFFFFFFFFFFFFFFFFFFFFFFFFFEBAAEDCE6AF48A03BBFD25E8CD0364141

/-- Abscissa of the generator. -/
def gx : ℕ := 0x79BE667EF9DCBBAC55A06295CE870B07029BFCDB2DCE28D959F2815B16F81798

/-- Ordinate of the generator. -/
def gy : ℕ := 0x483ADA7726A3C4655DA4FBFC0E1108A8FD17B448A68554199C47D08FFB10D4B8

instance : Fact p.Prime := ⟨Curves.secpField_prime⟩
instance : Fact n.Prime := ⟨Curves.secpOrder_prime⟩

theorem disc_ne_zero : (Generic.curve (0 : ZMod p) 7).Δ ≠ 0 := by
  have h : (Generic.curve (0 : ZMod p) 7).Δ = -((21168 : ℕ) : ZMod p) := by
    simp only [WeierstrassCurve.Δ, WeierstrassCurve.b₂, WeierstrassCurve.b₄, WeierstrassCurve.b₆,
      WeierstrassCurve.b₈]
    push_cast
    ring
  rw [h, neg_ne_zero, Ne, ZMod.natCast_eq_zero_iff]
  decide +kernel

theorem gen_nonsingular : (Generic.curve (0 : ZMod p) 7).Nonsingular (gx : ZMod p) (gy : ZMod p) := by
  refine ((Generic.curve (0 : ZMod p) 7).equation_iff_nonsingular_of_Δ_ne_zero disc_ne_zero).mp ?_
  rw [WeierstrassCurve.Affine.equation_iff]
  have h : ((gy * gy : ℕ) : ZMod p) = ((gx * gx * gx + 7 : ℕ) : ZMod p) := by
    rw [ZMod.natCast_eq_natCast_iff]
    unfold Nat.ModEq
    decide +kernel
  push_cast at h
  linear_combination h

/-- `FieldElement::sqrt`: the characteristic is 3 modulo 4. -/
def sqrt (x : ZMod p) : Option (ZMod p) :=
  let r := Curves.power x ((p + 1) / 4)
  if r * r = x then some r else none

/-- The parameters of the curve. How scalars are sampled and whether compact points are accepted does not matter
here. -/
def params (compact : Bool) (X : Externals) (random : X.Rng → ZMod n × X.Rng) (randomSeeded : Bytes → ZMod n) :
    Generic.Curve p n where
  a := 0
  b := 7
  size := 32
  gen := .some _ _ gen_nonsingular
  sqrt := sqrt
  compact := compact
  ext := X
  random := random
  randomSeeded := randomSeeded

end ElasticElgamal.Secp256k1
