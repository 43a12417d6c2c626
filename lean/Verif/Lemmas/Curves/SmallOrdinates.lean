import Verif.Lemmas.Curves.RistrettoCodec

/-!
# Ordinates with two representations

The residues below 19 are those with two representations of 255 bits. Other than the identity, no point of the
subgroup has such an ordinate: there is no point with this ordinate on the curve, or it is not a multiple of 8.
-/

set_option autoImplicit false

namespace ElasticElgamal.Ristretto255

open Curves Ed25519

/-- Euler's criterion, evaluated by the kernel. -/
def nonsquare (a : ℕ) : Bool := a % p ≠ 0 && powMod p a 255 ((p - 1) / 2) ≠ 1

theorem nonsquare_sound {a : ℕ} (h : nonsquare a = true) (c : ZMod p) : c ^ 2 ≠ (a : ZMod p) := by
  simp only [nonsquare, Bool.and_eq_true, ne_eq, decide_not, Bool.not_eq_true', decide_eq_false_iff_not] at h
  obtain ⟨h0, h1⟩ := h
  intro hc
  have hc0 : c ≠ 0 := by
    rintro rfl
    have h2 : (a : ZMod p) = 0 := by rw [← hc]; ring
    rw [ZMod.natCast_eq_zero_iff] at h2
    exact h0 (Nat.mod_eq_zero_of_dvd h2)
  have h2 := ZMod.pow_card_sub_one_eq_one hc0
  have h3 : p - 1 = 2 * ((p - 1) / 2) := by decide +kernel
  have hlt : (p - 1) / 2 < 2 ^ 255 := by decide +kernel
  rw [h3, pow_mul, hc, ← powMod_cast p a 255 _ hlt] at h2
  have h4 : ((powMod p a 255 ((p - 1) / 2) : ℕ) : ZMod p) = ((1 : ℕ) : ZMod p) := by
    rw [h2, Nat.cast_one]
  rw [ZMod.natCast_eq_natCast_iff] at h4
  unfold Nat.ModEq at h4
  rw [Nat.mod_eq_of_lt (a := 1) (by decide +kernel)] at h4
  rw [powMod_eq p a 255 _ hlt] at h1 h4
  exact h1 (by rwa [Nat.mod_mod] at h4)

/-- No point of the curve has the ordinate `y`. -/
theorem off_curve (y : ℕ) (h : nonsquare ((y * y + (p - 1)) * (1 + d * y * y)) = true) (P : Point) : P.y ≠ (y : ZMod p) := by
  intro hy
  apply nonsquare_sound h (P.x * (1 + d * P.y ^ 2))
  have e := P.onCurve
  have hp0 : ((p : ℕ) : ZMod p) = 0 := CharP.cast_eq_zero _ _
  rw [hy] at e ⊢
  rw [Nat.cast_mul, Nat.cast_add, Nat.cast_sub (by decide +kernel), hp0]
  push_cast
  unfold OnEdwards at e
  linear_combination -(1 + (d : ZMod p) * y * y) * e

/-- Points with the ordinate `y` are not doubled. -/
theorem not_even (y : ℕ) (h : nonsquare (1 + (p - 1) * (y * y)) = true) (P : Point) (hy : P.y = (y : ZMod p)) :
    P ∉ Even := by
  rw [mem_even_iff]
  rintro ⟨c, hc⟩
  apply nonsquare_sound h c
  have hp0 : ((p : ℕ) : ZMod p) = 0 := CharP.cast_eq_zero _ _
  rw [hc, hy, Nat.cast_add, Nat.cast_mul, Nat.cast_sub (by decide +kernel), hp0]
  push_cast
  ring

theorem four_torsion_even {T : Point} (h : 4 • T = 0) : T ∈ Even := by
  rcases (four_nsmul_eq_zero_iff T).mp h with rfl | rfl | rfl | rfl
  · exact Even.zero_mem
  · exact t2_mem
  · exact t4_mem
  · exact Even.add_mem t4_mem t2_mem

/-- A point that is killed by `ℓ` is a quadruple, and such that it is only the quadruple of doubled points. -/
theorem subgroup_even {P : Point} (h : ℓ • P = 0) : P ∈ Even ∧ (∀ Q : Point, 2 • Q = P → Q ∈ Even) ∧
    ∀ Q : Point, 4 • Q = P → Q ∈ Even := by
  obtain ⟨m, hm⟩ : ∃ m : ℕ, 8 * m = ℓ * 3 + 1 := ⟨(ℓ * 3 + 1) / 8, by decide +kernel⟩
  have hP : 8 • (m • P) = P := by
    rw [← mul_nsmul', hm, succ_nsmul, mul_comm, mul_nsmul', h, nsmul_zero, zero_add]
  have h4 : ∀ Q : Point, 4 • Q = P → Q ∈ Even := by
    intro Q hQ
    have : 4 • (Q - 2 • (m • P)) = 0 := by
      rw [nsmul_sub, hQ, ← mul_nsmul' _ 4 2, hP, sub_self]
    have h2 := Even.add_mem (four_torsion_even this) (two_nsmul_mem (m • P))
    rwa [sub_add_cancel] at h2
  refine ⟨?_, ?_, h4⟩
  · rw [← hP, show 8 = 2 * 4 from rfl, mul_nsmul']
    exact two_nsmul_mem _
  · intro Q hQ
    have : 4 • (Q - 4 • (m • P)) = 0 := by
      rw [show 4 = 2 * 2 from rfl, mul_nsmul', nsmul_sub, hQ, ← mul_nsmul' _ 2 (2 * 2), hP, sub_self, nsmul_zero]
    have h2 := Even.add_mem (four_torsion_even this) (two_nsmul_mem (2 • (m • P)))
    rwa [← mul_nsmul' _ 2 2, sub_add_cancel] at h2

/-- The ordinate of the double of a point by its ordinate. -/
theorem double_y {Q : Point} (b c : ℕ) (hb : Q.y = (b : ZMod p))
    (h : (c * (1 + 2 * d * b * b)) % p =
      (2 * b * b + d * b * b * b * b + (p - 1) + d * b * b * b * b * c) % p) :
    (2 • Q).y = (c : ZMod p) := by
  have hp0 : ((p : ℕ) : ZMod p) = 0 := CharP.cast_eq_zero _ _
  have h' := (ZMod.natCast_eq_natCast_iff _ _ p).mpr h
  rw [Nat.cast_add (n := _ * c), Nat.cast_add (n := p - 1), Nat.cast_sub (by decide +kernel), hp0] at h'
  push_cast at h'
  have hy := edY_mul Q.onCurve Q.onCurve
  have hny := edY_den_ne_zero Q.onCurve Q.onCurve
  have hne : (1 + d * Q.y ^ 2 : ZMod p) ≠ 0 := by
    intro h0
    have e := Q.onCurve
    unfold OnEdwards at e
    have : Q.y ^ 2 = 1 := by linear_combination e + Q.x ^ 2 * h0
    rw [this, mul_one] at h0
    have h1 : ((1 + d : ℕ) : ZMod p) = 0 := by push_cast; exact h0
    rw [ZMod.natCast_eq_zero_iff] at h1
    exact absurd h1 (by decide +kernel)
  rw [two_nsmul]
  refine mul_right_cancel₀ hny (hy.trans ?_)
  have e := Q.onCurve
  unfold OnEdwards at e
  unfold edDelta
  refine mul_right_cancel₀ hne ?_
  rw [hb] at e ⊢
  linear_combination -h' - (1 + c * d * (b : ZMod p) ^ 2) * e

/-- A point with given coordinates. -/
def mkPoint (x y : ℕ) (h : (y * y) % p = (1 + d * x * x * y * y + x * x) % p) : Point := ⟨x, y, by
  have h' := (ZMod.natCast_eq_natCast_iff _ _ p).mpr h
  push_cast at h'
  unfold OnEdwards
  linear_combination h'⟩

/-- Points with the same ordinate. -/
theorem eq_or_neg {P Q : Point} (h : P.y = Q.y) : P = Q ∨ P = -Q := by
  have e1 := P.onCurve
  have e2 := Q.onCurve
  unfold OnEdwards at e1 e2
  rw [h] at e1
  have hne : (1 + d * Q.y ^ 2 : ZMod p) ≠ 0 := by
    intro h0
    have : Q.y ^ 2 = 1 := by linear_combination e2 + Q.x ^ 2 * h0
    rw [this, mul_one] at h0
    have h1 : ((1 + d : ℕ) : ZMod p) = 0 := by push_cast; exact h0
    rw [ZMod.natCast_eq_zero_iff] at h1
    exact absurd h1 (by decide +kernel)
  have hx : P.x ^ 2 = Q.x ^ 2 := mul_right_cancel₀ hne (by linear_combination e2 - e1)
  rcases sq_eq_sq_iff_eq_or_eq_neg.mp hx with hx | hx
  · exact .inl (EdPoint.ext hx h)
  · exact .inr (EdPoint.ext hx h)

/-- A point with the ordinate of `Q`, where `Q` is not in the subgroup, is not in the subgroup. -/
theorem not_killed {P Q : Point} (hy : P.y = Q.y) (hQ : ℓ • Q ≠ 0) : ℓ • P ≠ 0 := by
  rcases eq_or_neg hy with rfl | rfl
  · exact hQ
  · rw [smul_neg, neg_ne_zero]
    exact hQ

/-- The residues without points of the curve. -/
theorem off_small : ∀ y ∈ [2, 7, 8, 11, 12, 13, 17], nonsquare ((y * y + (p - 1)) * (1 + d * y * y)) = true := by
  decide +kernel

/-- The residues whose points are not doubled. -/
theorem odd_small : ∀ y ∈ [3, 5, 6, 10, 14, 16], nonsquare (1 + (p - 1) * (y * y)) = true := by
  decide +kernel

theorem killed_zero {P : Point} (hy : P.y = ((0 : ℕ) : ZMod p)) : ℓ • P ≠ 0 := by
  have hy' : P.y = t4.y := by rw [hy, Nat.cast_zero]; rfl
  refine not_killed hy' fun h => ?_
  have h1 := addOrderOf_dvd_of_nsmul_eq_zero h
  have h2 := addOrderOf_dvd_of_nsmul_eq_zero four_t4
  have h3 := Nat.dvd_gcd h1 h2
  rw [show Nat.gcd ℓ 4 = 1 by decide +kernel, Nat.dvd_one, AddMonoid.addOrderOf_eq_one_iff] at h3
  have h4 : (0 : ZMod p) = 1 := congrArg EdPoint.y h3
  exact zero_ne_one h4

/-- The residues whose points are doubled once. -/
theorem killed_half (x b y : ℕ) (h : (b * b) % p = (1 + d * x * x * b * b + x * x) % p)
    (hb : nonsquare (1 + (p - 1) * (b * b)) = true) (hd : (y * (1 + 2 * d * b * b)) % p =
      (2 * b * b + d * b * b * b * b + (p - 1) + d * b * b * b * b * y) % p)
    {P : Point} (hy : P.y = (y : ZMod p)) : ℓ • P ≠ 0 := by
  refine not_killed (Q := 2 • mkPoint x b h) ?_ fun h0 => ?_
  · rw [hy, double_y b y rfl hd]
  · exact not_even b hb _ rfl ((subgroup_even h0).2.1 _ rfl)

/-- The residues whose points are doubled twice. -/
theorem killed_quarter (x b c y : ℕ) (h : (b * b) % p = (1 + d * x * x * b * b + x * x) % p)
    (hb : nonsquare (1 + (p - 1) * (b * b)) = true) (hd : (c * (1 + 2 * d * b * b)) % p =
      (2 * b * b + d * b * b * b * b + (p - 1) + d * b * b * b * b * c) % p)
    (hd' : (y * (1 + 2 * d * c * c)) % p =
      (2 * c * c + d * c * c * c * c + (p - 1) + d * c * c * c * c * y) % p)
    {P : Point} (hy : P.y = (y : ZMod p)) : ℓ • P ≠ 0 := by
  refine not_killed (Q := 2 • (2 • mkPoint x b h)) ?_ fun h0 => ?_
  · rw [hy, double_y c y (double_y b c rfl hd) hd']
  · exact not_even b hb _ rfl ((subgroup_even h0).2.2 _ (mul_nsmul' _ 2 2))

/-- The ordinates of the points of the subgroup other than the identity have one representation of 255 bits. -/
theorem small_ordinates {P : Point} (h : ℓ • P = 0) (h0 : P ≠ 0) : 19 ≤ P.y.val := by
  by_contra hlt
  push Not at hlt
  have hNZ : NeZero p := ⟨pos_of_prime.ne'⟩
  have hy : P.y = ((P.y.val : ℕ) : ZMod p) := (ZMod.natCast_zmod_val P.y).symm
  generalize P.y.val = y at hlt hy
  have hoff : y ∉ [2, 7, 8, 11, 12, 13, 17] := fun hm => off_curve y (off_small y hm) P hy
  have hodd : y ∉ [3, 5, 6, 10, 14, 16] := fun hm => not_even y (odd_small y hm) P hy (subgroup_even h).1
  have hcases : y = 0 ∨ y = 1 ∨ y = 4 ∨ y = 15 ∨ y = 18 ∨ y = 9 := by
    simp only [List.mem_cons, List.not_mem_nil, or_false, not_or] at hoff hodd
    omega
  rcases hcases with rfl | rfl | rfl | rfl | rfl | rfl
  · exact killed_zero hy h
  · rw [Nat.cast_one] at hy
    rcases eq_zero_or_t2 (P := P) (by rw [hy]; ring) with h1 | h1
    · exact h0 h1
    · rw [h1] at hy
      exact two_ne (by have hy' : (-1 : ZMod p) = 1 := hy; linear_combination -hy')
  · exact killed_half
      19374431934192046105620327024265926213696267106491208396832579642356427281290
      22901370330093495621436461251666136523040722226830762459228056249190153321358 4
      (by decide +kernel) (by decide +kernel) (by decide +kernel) hy h
  · exact killed_half
      45057137946784531136537411005839124521676623574916160683961441675933526019204
      45801813619192727367765954730524910849230081290615460943117865571125909921070 15
      (by decide +kernel) (by decide +kernel) (by decide +kernel) hy h
  · exact killed_half
      36558865262019546357414061557721713085754348038989950398903932646283371234333
      44057106278552046138277720179763778842332641511810033219262440960510543361309 18
      (by decide +kernel) (by decide +kernel) (by decide +kernel) hy h
  · exact killed_quarter
      31861885473053253626263980054480166006130391560870880019713211036531062040236
      13882634987363154090132657456624899011169353400411609143732168449965336101134
      14532755362104079641721370387888094694175236278322250092257279002160300713974 9
      (by decide +kernel) (by decide +kernel) (by decide +kernel) (by decide +kernel) hy h

end ElasticElgamal.Ristretto255
