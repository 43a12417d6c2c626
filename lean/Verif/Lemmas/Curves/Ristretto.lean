import Verif.Model.Group.Ristretto255

/-!
# The group and the codec of Ristretto255
-/

set_option autoImplicit false

namespace ElasticElgamal.Curves

/-- Up to squares, `1 - y²` is a homomorphism. -/
theorem edwards_chi {K : Type} [Field K] {d x₁ y₁ x₂ y₂ : K} (h₁ : OnEdwards d x₁ y₁) (h₂ : OnEdwards d x₂ y₂) :
    (1 - y₁ ^ 2) * (1 - y₂ ^ 2) * ((1 - edDelta d x₁ y₁ x₂ y₂) ^ 2 - (y₁ * y₂ + x₁ * x₂) ^ 2) =
      (-1 - d) * (x₁ * x₂ * (x₁ * y₂ + y₁ * x₂ + d * y₁ * y₂ * (x₁ * y₁ + x₂ * y₂))) ^ 2 := by
  unfold OnEdwards at h₁ h₂
  unfold edDelta
  linear_combination
    (- d ^ 2 * x₁ ^ 2 * y₁ ^ 2 * x₂ ^ 2 * y₂ ^ 2 - 2 * d ^ 2 * x₁ * y₁ * x₂ ^ 3 * y₂ ^ 3 - d ^ 2 * x₂ ^ 4 * y₂
    ^ 4 - d * x₁ ^ 2 * y₁ ^ 2 * x₂ ^ 2 * y₂ ^ 2 - d * x₁ ^ 2 * x₂ ^ 2 * y₂ ^ 2 - 2 * d * x₁ * y₁ * x₂ ^ 3 * y₂
    ^ 3 - 2 * d * x₁ * y₁ * x₂ ^ 3 * y₂ - d * y₁ ^ 2 * x₂ ^ 2 * y₂ ^ 4 - d * x₂ ^ 4 * y₂ ^ 4 - 2 * d * x₂ ^ 4
    * y₂ ^ 2 + d * x₂ ^ 2 * y₂ ^ 4 - x₁ ^ 2 * x₂ ^ 2 * y₂ ^ 2 - 2 * x₁ * y₁ * x₂ ^ 3 * y₂ - y₁ ^ 2 * x₂ ^ 2 *
    y₂ ^ 2 - x₂ ^ 4 * y₂ ^ 2 - x₂ ^ 4 + x₂ ^ 2 * y₂ ^ 4) * h₁ + (d * x₁ ^ 2 * x₂ ^ 2 * y₂ ^ 2 - 2 * d * x₁ *
    y₁ ^ 3 * x₂ * y₂ + 2 * d * x₁ * y₁ * x₂ * y₂ - d * y₁ ^ 2 * x₂ ^ 2 * y₂ ^ 2 + d * x₂ ^ 2 * y₂ ^ 2 - x₁ ^ 2
    * y₁ ^ 2 * x₂ ^ 2 + x₁ ^ 2 * x₂ ^ 2 * y₂ ^ 2 + x₁ ^ 2 * x₂ ^ 2 - 2 * x₁ * y₁ ^ 3 * x₂ * y₂ + 2 * x₁ * y₁ *
    x₂ * y₂ - y₁ ^ 4 * y₂ ^ 2 - y₁ ^ 2 * x₂ ^ 2 * y₂ ^ 2 - y₁ ^ 2 * x₂ ^ 2 + y₁ ^ 2 * y₂ ^ 2 + y₁ ^ 2 + x₂ ^ 2
    * y₂ ^ 2 + x₂ ^ 2 - 1) * h₂

end ElasticElgamal.Curves

namespace ElasticElgamal.Ristretto255

open Curves Ed25519

/-! ## Constants -/

theorem invsqrtAMinusD_sq : (invsqrtAMinusD : ZMod p) ^ 2 * (-1 - d) = 1 := by
  have h : ((invsqrtAMinusD * invsqrtAMinusD * (1 + d) + 1 : ℕ) : ZMod p) = 0 := by
    rw [ZMod.natCast_eq_zero_iff]
    decide +kernel
  push_cast at h
  linear_combination -h

/-- `i`. -/
local notation "i" => ((sqrtM1 : ℕ) : ZMod p)

/-- Abscissa of a point of order 8. -/
def t8x : ℕ := 0x602a465ff9c6b5d716cc66cdc721b544a3e6c38fec1a1dc7215eb9b93aba2ea3

/-- Ordinate of a point of order 8. -/
def t8y : ℕ := 0x7a03ac9277fdc74ec6cc392cfa53202a0f67100d760b3cba4fd84d3d706a17c7

/-- A point of order 8. -/
def t8 : Point := ⟨t8x, t8y, by
  unfold OnEdwards
  have h : ((t8y * t8y : ℕ) : ZMod p) = ((1 + d * t8x * t8x * t8y * t8y + t8x * t8x : ℕ) : ZMod p) := by
    rw [ZMod.natCast_eq_natCast_iff]
    unfold Nat.ModEq
    decide +kernel
  push_cast at h
  linear_combination h⟩

/-- A point of order 4. -/
def t4 : Point := ⟨i, 0, by
  unfold OnEdwards
  linear_combination -sqrtM1_sq⟩

/-- The point of order 2. -/
def t2 : Point := ⟨0, -1, by unfold OnEdwards; ring⟩

theorem add_t4 (P : Point) : (P + t4).x = P.y * i ∧ (P + t4).y = P.x * i := by
  simp [EdPoint.add_x, EdPoint.add_y, edX, edY, edDelta, t4]

theorem add_t2 (P : Point) : (P + t2).x = -P.x ∧ (P + t2).y = -P.y := by
  simp [EdPoint.add_x, EdPoint.add_y, edX, edY, edDelta, t2]

theorem t4_add_t4 : t4 + t4 = t2 := by
  obtain ⟨h1, h2⟩ := add_t4 t4
  ext
  · rw [h1]; simp [t4, t2]
  · rw [h2]; exact sqrtM1_sq

theorem t2_add_t2 : t2 + t2 = 0 := by
  obtain ⟨h1, h2⟩ := add_t2 t2
  ext
  · rw [h1]; simp [t2]
  · rw [h2]; simp [t2]

theorem two_t8 : 2 • t8 = t4 := by
  have hx := edX_mul t8.onCurve t8.onCurve
  have hy := edY_mul t8.onCurve t8.onCurve
  have hnx := edX_den_ne_zero t8.onCurve t8.onCurve
  have hny := edY_den_ne_zero t8.onCurve t8.onCurve
  rw [two_nsmul]
  ext
  · refine mul_right_cancel₀ hnx (hx.trans ?_)
    have h : ((t8x * t8y + t8y * t8x : ℕ) : ZMod p) =
        ((sqrtM1 * (1 + d * t8x * t8x * t8y * t8y) : ℕ) : ZMod p) := by
      rw [ZMod.natCast_eq_natCast_iff]
      unfold Nat.ModEq
      decide +kernel
    push_cast at h
    exact h
  · refine mul_right_cancel₀ hny (hy.trans ?_)
    have h : ((t8y * t8y + t8x * t8x : ℕ) : ZMod p) = 0 := by
      rw [ZMod.natCast_eq_zero_iff]
      decide +kernel
    push_cast at h
    rw [show t4.y = 0 from rfl, zero_mul]
    exact h

theorem t2_ne_zero : t2 ≠ 0 := by
  intro h
  have h' : (-1 : ZMod p) = 1 := congrArg EdPoint.y h
  exact EdwardsComplete.two_ne_zero (d := (d : ZMod p)) (by linear_combination -h')

theorem four_t4 : 4 • t4 = 0 := by
  rw [show 4 = 2 * 2 from rfl, mul_nsmul', two_nsmul t4, t4_add_t4, two_nsmul, t2_add_t2]

theorem addOrderOf_t8 : addOrderOf t8 = 8 := by
  have : Fact (Nat.Prime 2) := ⟨Nat.prime_two⟩
  refine addOrderOf_eq_prime_pow (p := 2) (n := 2) ?_ ?_
  · rw [show 2 ^ 2 = 2 * 2 from rfl, mul_nsmul', two_t8, two_nsmul, t4_add_t4]
    exact t2_ne_zero
  · rw [show 2 ^ (2 + 1) = 4 * 2 from rfl, mul_nsmul', two_t8, four_t4]

theorem addOrderOf_base : addOrderOf base = ℓ := addOrderOf_eq_prime order_nsmul_base base_ne_zero

/-- The curve has `8ℓ` points. -/
theorem card_points : Nat.card Point = 8 * ℓ := by
  obtain ⟨hfin, hcard⟩ := card_edPoint_le p_ne_two (d : ZMod p)
  have h8 := addOrderOf_t8 ▸ addOrderOf_dvd_natCard t8
  have hl := addOrderOf_base ▸ addOrderOf_dvd_natCard base
  have hco : Nat.Coprime 8 ℓ := by decide +kernel
  obtain ⟨m, hm⟩ := hco.mul_dvd_of_dvd_of_dvd h8 hl
  have hpos : 0 < Nat.card Point := Nat.card_pos
  have hb : 2 * p < 8 * ℓ * 2 := by decide +kernel
  have : m = 1 := by
    have h1 : m < 2 := by
      by_contra h
      have : 8 * ℓ * 2 ≤ 8 * ℓ * m := Nat.mul_le_mul_left _ (by omega)
      have h2 : Nat.card Point ≤ 2 * p := hcard
      omega
    have h0 : m ≠ 0 := by rintro rfl; omega
    omega
  rw [hm, this, mul_one]

/-- A generator of the curve. -/
theorem exists_nsmul (P : Point) : ∃ k : ℕ, P = k • (t8 + base) := by
  obtain ⟨hfin, -⟩ := card_edPoint_le p_ne_two (d : ZMod p)
  have hord : addOrderOf (t8 + base) = Nat.card Point := by
    rw [(AddCommute.all t8 base).addOrderOf_add_eq_mul_addOrderOf_of_coprime
      (by rw [addOrderOf_t8, addOrderOf_base]; decide +kernel), addOrderOf_t8, addOrderOf_base, card_points]
  have htop : AddSubgroup.zmultiples (t8 + base) = ⊤ :=
    AddSubgroup.eq_top_of_card_eq _ (by rw [Nat.card_zmultiples, hord])
  have hP : P ∈ AddSubgroup.zmultiples (t8 + base) := htop ▸ AddSubgroup.mem_top P
  obtain ⟨k, hk⟩ := mem_multiples_iff_mem_zmultiples.mpr hP
  exact ⟨k, hk.symm⟩

/-! ## Doubled points -/

theorem two_nsmul_mem (Q : Point) : 2 • Q ∈ Even := AddMonoidHom.mem_range.mpr ⟨Q, rfl⟩

/-- A square root of `-1 - d`. -/
theorem exists_sqrt : ∃ r : ZMod p, r ≠ 0 ∧ r ^ 2 = -1 - d := by
  have h := invsqrtAMinusD_sq
  have h0 : (invsqrtAMinusD : ZMod p) ≠ 0 := by
    intro h0
    rw [h0] at h
    simp at h
  refine ⟨(invsqrtAMinusD : ZMod p)⁻¹, inv_ne_zero h0, ?_⟩
  rw [inv_pow]
  exact inv_eq_of_mul_eq_one_right h

/-- `1 - y²` for a sum. -/
theorem chi_add (P Q : Point) : ∃ w, (1 - P.y ^ 2) * (1 - Q.y ^ 2) * (1 - (P + Q).y ^ 2) = w ^ 2 := by
  obtain ⟨r, -, hr⟩ := exists_sqrt
  have h := edwards_chi P.onCurve Q.onCurve
  have hy := edY_mul P.onCurve Q.onCurve
  have hne := edY_den_ne_zero P.onCurve Q.onCurve
  refine ⟨r * (P.x * Q.x * (P.x * Q.y + P.y * Q.x + d * P.y * Q.y * (P.x * P.y + Q.x * Q.y))) /
    (1 - edDelta (d : ZMod p) P.x P.y Q.x Q.y), ?_⟩
  rw [div_pow, eq_div_iff (pow_ne_zero 2 hne), mul_pow, hr, ← h, ← hy, EdPoint.add_y]
  ring

/-- The abscissa of points with ordinate `±1` is 0. -/
theorem x_eq_zero {P : Point} (h : 1 - P.y ^ 2 = 0) : P.x = 0 := by
  have hc := P.onCurve
  unfold OnEdwards at hc
  by_contra hx
  have h1 : P.x ^ 2 * (1 + d) = 0 := by linear_combination -hc - (1 - d * P.x ^ 2) * h
  rcases mul_eq_zero.mp h1 with h2 | h2
  · exact hx (pow_eq_zero_iff two_ne_zero |>.mp h2)
  · obtain ⟨r, hr0, hr⟩ := exists_sqrt
    apply hr0
    rw [show (-1 - d : ZMod p) = 0 by linear_combination -h2] at hr
    exact pow_eq_zero_iff two_ne_zero |>.mp hr

/-- `1 - y²` is a square for doubled points. -/
theorem chi_double (Q : Point) : ∃ c, c ^ 2 = 1 - (2 • Q).y ^ 2 := by
  obtain ⟨w, hw⟩ := chi_add Q Q
  rw [← two_nsmul] at hw
  by_cases h : 1 - Q.y ^ 2 = 0
  · refine ⟨0, ?_⟩
    have hx := x_eq_zero h
    rw [two_nsmul, EdPoint.add_y]
    simp only [edY, edDelta, hx]
    rw [show (Q.y * Q.y + 0 * 0) / (1 - d * 0 * 0 * Q.y * Q.y) = Q.y ^ 2 by
      rw [show (1 - (d : ZMod p) * 0 * 0 * Q.y * Q.y) = 1 by ring, div_one]; ring]
    linear_combination -(1 + Q.y ^ 2) * h
  · refine ⟨w / (1 - Q.y ^ 2), ?_⟩
    rw [div_pow, ← hw, div_eq_iff (pow_ne_zero 2 h)]
    ring

theorem chi_t8 (c : ZMod p) : c ^ 2 ≠ 1 - t8.y ^ 2 := by
  intro h
  have hy : 1 - t8.y ^ 2 = ((1 + (p - t8y) * t8y : ℕ) : ZMod p) := by
    have hp0 : ((p : ℕ) : ZMod p) = 0 := CharP.cast_eq_zero _ _
    change 1 - (t8y : ZMod p) ^ 2 = _
    rw [Nat.cast_add, Nat.cast_mul, Nat.cast_sub (by decide +kernel), hp0]
    push_cast
    ring
  rw [hy] at h
  have hc : c ≠ 0 := by
    rintro rfl
    have h0 : ((1 + (p - t8y) * t8y : ℕ) : ZMod p) = 0 := by rw [← h]; ring
    rw [ZMod.natCast_eq_zero_iff] at h0
    exact absurd h0 (by decide +kernel)
  have h1 := ZMod.pow_card_sub_one_eq_one hc
  have h3 : p - 1 = 2 * ((p - 1) / 2) := by decide +kernel
  rw [h3, pow_mul, h, ← powMod_cast p _ 255 _ (by decide +kernel)] at h1
  have h2 : ((powMod p (1 + (p - t8y) * t8y) 255 ((p - 1) / 2) : ℕ) : ZMod p) = ((1 : ℕ) : ZMod p) := by
    rw [h1, Nat.cast_one]
  rw [ZMod.natCast_eq_natCast_iff] at h2
  unfold Nat.ModEq at h2
  exact absurd h2 (by decide +kernel)

/-- Points with ordinate `±1`. -/
theorem eq_zero_or_t2 {P : Point} (h : 1 - P.y ^ 2 = 0) : P = 0 ∨ P = t2 := by
  have hx := x_eq_zero h
  have h1 : (1 - P.y) * (1 + P.y) = 0 := by linear_combination h
  rcases mul_eq_zero.mp h1 with h2 | h2
  · left; ext
    · exact hx
    · rw [EdPoint.zero_y]; linear_combination -h2
  · right; ext
    · exact hx
    · change P.y = -1
      linear_combination h2

theorem t4_mem : t4 ∈ Even := two_t8 ▸ two_nsmul_mem t8

theorem t2_mem : t2 ∈ Even := t4_add_t4 ▸ Even.add_mem t4_mem t4_mem

/-- Doubled points are those with square `1 - y²`. -/
theorem mem_even_iff (P : Point) : P ∈ Even ↔ ∃ c, c ^ 2 = 1 - P.y ^ 2 := by
  constructor
  · intro h
    obtain ⟨Q, rfl⟩ := AddMonoidHom.mem_range.mp h
    exact chi_double Q
  · rintro ⟨c, hc⟩
    by_contra hP
    by_cases h0 : 1 - P.y ^ 2 = 0
    · rcases eq_zero_or_t2 h0 with rfl | rfl
      · exact hP Even.zero_mem
      · exact hP t2_mem
    -- otherwise `P` is `t8` up to a doubled point
    obtain ⟨k, hk⟩ := exists_nsmul P
    have hR : ∃ R ∈ Even, P + R = t8 := by
      rcases Nat.even_or_odd' k with ⟨m, rfl | rfl⟩
      · exact absurd (by rw [hk, mul_nsmul']; exact two_nsmul_mem _) hP
      · refine ⟨-(2 • (m • (t8 + base)) + base), Even.neg_mem (Even.add_mem (two_nsmul_mem _) base_mem), ?_⟩
        rw [hk, succ_nsmul, mul_nsmul']
        abel
    obtain ⟨R, hR, hPR⟩ := hR
    obtain ⟨Q, rfl⟩ := AddMonoidHom.mem_range.mp hR
    obtain ⟨c', hc'⟩ := chi_double Q
    obtain ⟨w, hw⟩ := chi_add P (2 • Q)
    have hPR' : P + 2 • Q = t8 := hPR
    rw [hPR', ← hc, ← hc'] at hw
    have hc0 : c ≠ 0 := by rintro rfl; apply h0; rw [← hc]; ring
    by_cases hc0' : c' = 0
    · rw [hc0'] at hc'
      rcases eq_zero_or_t2 (P := 2 • Q) (by rw [← hc']; ring) with h2 | h2
      · rw [h2, add_zero] at hPR'
        exact chi_t8 c (by rw [hc, hPR'])
      · rw [h2] at hPR'
        apply chi_t8 c
        rw [hc, ← hPR', (add_t2 P).2, neg_sq]
    · apply chi_t8 (w / (c * c'))
      rw [div_pow, div_eq_iff (pow_ne_zero 2 (mul_ne_zero hc0 hc0')), ← hw]
      ring

end ElasticElgamal.Ristretto255
