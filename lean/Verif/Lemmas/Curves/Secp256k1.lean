import Verif.Model.Group.Secp256k1
import Verif.Lemmas.Curves.SecpSlopes
import Verif.Lemmas.Curves.Weierstrass
import Mathlib.FieldTheory.Finite.Basic

/-!
# The group of secp256k1

It has the prime order `n` and is generated by the base point.
-/

set_option autoImplicit false

namespace ElasticElgamal.Secp256k1

open Curves

/-- The base point is killed by `n`. -/
theorem order_nsmul_gen :
    (n • WeierstrassCurve.Affine.Point.some _ _ gen_nonsingular : Generic.Point (0 : ZMod p) 7) = 0 := by
  have hs : slopeChain p 0 gx gy secpSlopes gx gy 1 = some (n - 1) := by decide +kernel
  have h : ∀ a : ZMod p, ∀ _ : a = ((0 : ℕ) : ZMod p),
      ∀ hg : (Generic.curve a 7).Nonsingular (gx : ZMod p) (gy : ZMod p),
      (n • WeierstrassCurve.Affine.Point.some _ _ hg : Generic.Point a 7) = 0 := by
    rintro a rfl hg
    have := slopeChain_sound (by decide +kernel) (by decide +kernel) hg (n - 1) secpSlopes gx gy 1
      (by decide +kernel) (by decide +kernel) ⟨hg, one_nsmul _⟩ hs
    rwa [Nat.sub_add_cancel (by decide +kernel)] at this
  exact h 0 Nat.cast_zero.symm gen_nonsingular

/-- `-7` is not a cube, so that there are no points of order 2. -/
theorem no_root (x : ZMod p) : x * x * x + 0 * x + 7 ≠ 0 := by
  intro h
  have hx : x ^ 3 = ((p - 7 : ℕ) : ZMod p) := by
    rw [Nat.cast_sub (by decide +kernel), CharP.cast_eq_zero]
    push_cast
    linear_combination h
  have hx0 : x ≠ 0 := by
    rintro rfl
    have h7 : ((7 : ℕ) : ZMod p) = 0 := by push_cast; linear_combination h
    rw [ZMod.natCast_eq_zero_iff] at h7
    exact absurd h7 (by decide +kernel)
  have h1 := ZMod.pow_card_sub_one_eq_one hx0
  have h3 : p - 1 = 3 * ((p - 1) / 3) := by decide +kernel
  rw [h3, pow_mul, hx, ← powMod_cast p (p - 7) 256 _ (by decide +kernel)] at h1
  have h2 : ((powMod p (p - 7) 256 ((p - 1) / 3) : ℕ) : ZMod p) = ((1 : ℕ) : ZMod p) := by
    rw [h1, Nat.cast_one]
  rw [ZMod.natCast_eq_natCast_iff] at h2
  unfold Nat.ModEq at h2
  exact absurd h2 (by decide +kernel)

/-- The number of points of secp256k1. -/
theorem card_points : Nat.card (Generic.Point (0 : ZMod p) 7) = n :=
  card_point_eq (by decide +kernel) Fact.out (by decide +kernel)
    (WeierstrassCurve.Affine.Point.some_ne_zero gen_nonsingular) order_nsmul_gen no_root

theorem sqrt_complete (y : ZMod p) : ∃ z, sqrt (y * y) = some z := by
  have h : (y * y) ^ ((p + 1) / 4) * (y * y) ^ ((p + 1) / 4) = y * y := by
    have h4 : (p + 1) / 4 + (p + 1) / 4 + ((p + 1) / 4 + (p + 1) / 4) = p + 1 := by decide +kernel
    rw [mul_pow, ← pow_add, ← pow_add, h4, pow_succ, ZMod.pow_card]
  refine ⟨(y * y) ^ ((p + 1) / 4), ?_⟩
  simp only [sqrt, power_eq]
  rw [if_pos h]

theorem sqrt_sound (x y : ZMod p) (h : sqrt x = some y) : y * y = x := by
  simp only [sqrt] at h
  split at h
  · next h' => rw [← Option.some.inj h]; exact h'
  · cases h

attribute [local irreducible] sqrt

instance : Generic.Killed n (0 : ZMod p) 7 where
  nsmul P := by
    have := card_nsmul_eq_zero' (G := Generic.Point (0 : ZMod p) 7) (x := P)
    rwa [card_points] at this

section
variable (compact : Bool) (X : Externals) (random : X.Rng → ZMod n × X.Rng) (randomSeeded : Bytes → ZMod n)

instance : Generic.Killed n (params compact X random randomSeeded).a (params compact X random randomSeeded).b :=
  inferInstanceAs (Generic.Killed n (0 : ZMod p) 7)

theorem p_le : p ≤ 256 ^ 32 := by decide +kernel
theorem n_le : n ≤ 256 ^ 32 := by decide +kernel

theorem gen_spans (P : Generic.Point (0 : ZMod p) 7) :
    ∃ k : ℕ, P = k • (WeierstrassCurve.Affine.Point.some _ _ gen_nonsingular : Generic.Point (0 : ZMod p) 7) := by
  obtain ⟨k, hk⟩ := mem_multiples_of_prime_card (p := n) card_points
    (g := (WeierstrassCurve.Affine.Point.some _ _ gen_nonsingular : Generic.Point (0 : ZMod p) 7)) (g' := P)
    (WeierstrassCurve.Affine.Point.some_ne_zero gen_nonsingular)
  exact ⟨k, hk.symm⟩

theorem params_ok (hX : X.Ok) : (params compact X random randomSeeded).Ok := by
  constructor
  · decide +kernel
  · decide +kernel
  · exact p_le
  · exact n_le
  · exact Nat.succ_pos 31
  · exact disc_ne_zero
  · exact WeierstrassCurve.Affine.Point.some_ne_zero gen_nonsingular
  · exact gen_spans
  · exact sqrt_sound
  · exact sqrt_complete
  · exact hX

end

end ElasticElgamal.Secp256k1
