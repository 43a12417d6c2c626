import Verif.Lemmas.Curves.Ristretto

/-!
# The codec of Ristretto255

Every coset of the points of order dividing 4 has one representative with nonnegative `x` and `xy` and nonzero `y`;
`decode` finds it, and `encode` computes `s` with `y = (1 - s²) / (1 + s²)` from any representative.
-/

set_option autoImplicit false

namespace ElasticElgamal.Ristretto255

open Curves Ed25519

local notation "i" => ((sqrtM1 : ℕ) : ZMod p)

theorem two_ne : (2 : ZMod p) ≠ 0 := EdwardsComplete.two_ne_zero (d := (d : ZMod p))

theorem isNegative_zero : isNegative 0 = false := by simp [isNegative]

theorem isNegative_neg {x : ZMod p} (hx : x ≠ 0) : isNegative (-x) = !isNegative x := by
  have h := neg_parity hx
  have hlt := Nat.mod_lt x.val (by norm_num : 2 > 0)
  unfold isNegative
  rw [h, ← decide_not, decide_eq_decide]
  omega

/-- `P` is the representative for the field element `s`. -/
structure Canon (P : Point) (s : ZMod p) : Prop where
  x_nonneg : isNegative P.x = false
  xy_nonneg : isNegative (P.x * P.y) = false
  y_ne_zero : P.y ≠ 0
  s_nonneg : isNegative s = false
  y_eq : P.y * (1 + s ^ 2) = 1 - s ^ 2

theorem Canon.y_ne_neg_one {P : Point} {s : ZMod p} (h : Canon P s) : P.y ≠ -1 := by
  intro h1
  have := h.y_eq
  rw [h1] at this
  exact two_ne (by linear_combination -this)

/-- `Canon P s` determines `s`. -/
theorem Canon.unique {P : Point} {s s' : ZMod p} (h : Canon P s) (h' : Canon P s') : s = s' := by
  refine eq_of_sq_eq ?_ h.s_nonneg h'.s_nonneg
  have hne : 1 + P.y ≠ 0 := fun h0 => h.y_ne_neg_one (by linear_combination h0)
  refine mul_left_cancel₀ hne ?_
  linear_combination h.y_eq - h'.y_eq

/-- `Canon P s` determines `P`. -/
theorem Canon.unique_point {P P' : Point} {s : ZMod p} (h : Canon P s) (h' : Canon P' s) : P = P' := by
  have hs : 1 + s ^ 2 ≠ 0 := by
    intro h0
    have := h.y_eq
    rw [h0] at this
    exact two_ne (by linear_combination h0 - this)
  have hy : P.y = P'.y := mul_right_cancel₀ hs (h.y_eq.trans h'.y_eq.symm)
  refine EdPoint.ext ?_ hy
  refine eq_of_sq_eq ?_ h.x_nonneg h'.x_nonneg
  have e1 := P.onCurve
  have e2 := P'.onCurve
  unfold OnEdwards at e1 e2
  rw [← hy] at e2
  have hne : 1 + d * P.y ^ 2 ≠ 0 := by
    intro h0
    have hy0 := h.y_ne_zero
    refine d_nonsquare (i / P.y) ?_
    rw [div_mul_div_comm, div_eq_iff (mul_ne_zero hy0 hy0), sqrtM1_sq]
    linear_combination -h0
  refine mul_left_cancel₀ hne ?_
  linear_combination e2 - e1

/-- The representative is a doubled point. -/
theorem Canon.mem_even {P : Point} {s : ZMod p} (h : Canon P s) : P ∈ Even := by
  have hs : 1 + s ^ 2 ≠ 0 := by
    intro h0
    have := h.y_eq
    rw [h0] at this
    exact two_ne (by linear_combination h0 - this)
  refine (mem_even_iff P).mpr ⟨2 * s / (1 + s ^ 2), ?_⟩
  rw [div_pow, div_eq_iff (pow_ne_zero 2 hs)]
  linear_combination (P.y * (1 + s ^ 2) + (1 - s ^ 2)) * h.y_eq

/-! ## Points of order dividing 4 -/

theorem eq_of_double_zero {P : Point} (h : 2 • P = 0) : P = 0 ∨ P = t2 := by
  have hneg : P = -P := by rw [eq_neg_iff_add_eq_zero, ← two_nsmul, h]
  have hx : P.x = -P.x := congrArg EdPoint.x hneg
  have hx0 : P.x = 0 := by
    have : 2 * P.x = 0 := by linear_combination hx
    exact (mul_eq_zero.mp this).resolve_left two_ne
  refine eq_zero_or_t2 ?_
  have := P.onCurve
  unfold OnEdwards at this
  rw [hx0] at this
  linear_combination -this

/-- The points of order dividing 4. -/
theorem four_nsmul_eq_zero_iff (T : Point) : 4 • T = 0 ↔ T = 0 ∨ T = t2 ∨ T = t4 ∨ T = t4 + t2 := by
  constructor
  · intro h
    rw [show 4 = 2 * 2 from rfl, mul_nsmul'] at h
    rcases eq_of_double_zero h with h | h
    · rcases eq_of_double_zero h with h | h
      · exact .inl h
      · exact .inr (.inl h)
    · have h' : 2 • (T - t4) = 0 := by rw [nsmul_sub, h, two_nsmul t4, t4_add_t4, sub_self]
      rcases eq_of_double_zero h' with h | h
      · exact .inr (.inr (.inl (sub_eq_zero.mp h)))
      · exact .inr (.inr (.inr (by rw [← h]; abel)))
  · have h2 : 4 • t2 = 0 := by
      rw [show 4 = 2 * 2 from rfl, mul_nsmul', two_nsmul t2, t2_add_t2, nsmul_zero]
    rintro (rfl | rfl | rfl | rfl)
    · exact nsmul_zero 4
    · exact h2
    · exact four_t4
    · rw [nsmul_add, four_t4, h2, add_zero]

/-- There is at most one representative in a coset. -/
theorem Canon.coset {P T : Point} {s s' : ZMod p} (h : Canon P s) (hT : 4 • T = 0) (h' : Canon (P + T) s') :
    T = 0 ∧ s = s' := by
  have hT0 : T = 0 := by
    rcases (four_nsmul_eq_zero_iff T).mp hT with hT | hT | hT | hT
    · exact hT
    · exfalso
      rw [hT] at h'
      obtain ⟨hx, hy⟩ := add_t2 P
      have hx0 : P.x = 0 := by
        by_contra h0
        have := h'.x_nonneg
        rw [hx, isNegative_neg h0, h.x_nonneg] at this
        cases this
      have hsq : P.y ^ 2 = 1 := by
        have := P.onCurve
        unfold OnEdwards at this
        rw [hx0] at this
        linear_combination this
      have h1 : (P.y - 1) * (P.y + 1) = 0 := by linear_combination hsq
      rcases mul_eq_zero.mp h1 with h2 | h2
      · exact h'.y_ne_neg_one (by rw [hy]; linear_combination -h2)
      · exact h.y_ne_neg_one (by linear_combination h2)
    · exfalso
      rw [hT] at h'
      obtain ⟨hx, hy⟩ := add_t4 P
      have hxy : P.x * P.y = 0 := by
        by_contra h0
        have := h'.xy_nonneg
        rw [hx, hy, show P.y * i * (P.x * i) = -(P.x * P.y) by linear_combination P.x * P.y * sqrtM1_sq,
          isNegative_neg h0, h.xy_nonneg] at this
        cases this
      have hx0 : P.x = 0 := (mul_eq_zero.mp hxy).resolve_right h.y_ne_zero
      apply h'.y_ne_zero
      rw [hy, hx0, zero_mul]
    · exfalso
      rw [hT, ← add_assoc] at h'
      obtain ⟨hx, hy⟩ := add_t4 P
      obtain ⟨hx', hy'⟩ := add_t2 (P + t4)
      have hxy : P.x * P.y = 0 := by
        by_contra h0
        have := h'.xy_nonneg
        rw [hx', hy', hx, hy, show -(P.y * i) * -(P.x * i) = -(P.x * P.y) by linear_combination P.x * P.y * sqrtM1_sq,
          isNegative_neg h0, h.xy_nonneg] at this
        cases this
      have hx0 : P.x = 0 := (mul_eq_zero.mp hxy).resolve_right h.y_ne_zero
      apply h'.y_ne_zero
      rw [hy', hy, hx0, zero_mul, neg_zero]
  rw [hT0, add_zero] at h'
  exact ⟨hT0, h.unique h'⟩

/-! ## Encoding -/

theorem sqrtRatioI_zero : (sqrtRatioI 1 0).2 = 0 := by
  have ha : ctAbs 0 = 0 := by simp [ctAbs]
  simp only [sqrtRatioI, power_eq]
  rw [show (1 : ZMod p) * 0 ^ 3 * (1 * 0 ^ 7) ^ ((p - 5) / 8) = 0 by
    rw [zero_pow (by norm_num), mul_zero, zero_mul]]
  simp [ha]

attribute [local irreducible] sqrtRatioI

/-- The last steps of the encoding. -/
theorem canon_of_den {P : Point} {den : ZMod p} (hden : den ^ 2 * (1 - P.y ^ 2) = 1) (hx : P.x ≠ 0) (hy : P.y ≠ 0)
    (hxy : isNegative (P.x * P.y) = false) :
    ∃ T, (T = 0 ∨ T = t2) ∧ Canon (P + T) (ctAbs (den * (1 - if isNegative P.x then -P.y else P.y))) := by
  by_cases hn : isNegative P.x = true
  · refine ⟨t2, .inr rfl, ?_⟩
    obtain ⟨ex, ey⟩ := add_t2 P
    rw [if_pos hn]
    refine ⟨?_, ?_, ?_, isNegative_ctAbs _, ?_⟩
    · rw [ex, isNegative_neg hx, hn]; rfl
    · rw [ex, ey, neg_mul_neg]; exact hxy
    · rw [ey]; exact neg_ne_zero.mpr hy
    · rw [ey, ctAbs_sq]
      have h0 : 1 + P.y ≠ 0 := by
        intro h0
        rw [show 1 - P.y ^ 2 = (1 + P.y) * (1 - P.y) by ring, h0] at hden
        simp at hden
      refine mul_left_cancel₀ h0 ?_
      linear_combination (1 + P.y) ^ 2 * hden
  · refine ⟨0, .inl rfl, ?_⟩
    rw [if_neg hn, add_zero]
    refine ⟨by simpa using hn, hxy, hy, isNegative_ctAbs _, ?_⟩
    rw [ctAbs_sq]
    have h0 : 1 - P.y ≠ 0 := by
      intro h0
      rw [show 1 - P.y ^ 2 = (1 + P.y) * (1 - P.y) by ring, h0] at hden
      simp at hden
    refine mul_left_cancel₀ h0 ?_
    linear_combination (1 - P.y) ^ 2 * hden

/-- The encoding of a doubled point is that of the representative. -/
theorem encode_canon {P : Point} (hP : P ∈ Even) : ∃ T, 4 • T = 0 ∧ Canon (P + T) (encode P.x P.y) := by
  by_cases hxy : P.x * P.y = 0
  · -- one of the points of order dividing 4
    have he : encode P.x P.y = 0 := by
      have ha : ctAbs 0 = 0 := by simp [ctAbs]
      unfold encode
      simp only
      rw [hxy, show (1 + P.y) * (1 - P.y) * (0 : ZMod p) ^ 2 = 0 by ring, sqrtRatioI_zero]
      simp [ha, isNegative_zero]
    have h4 : 4 • P = 0 := by
      rw [four_nsmul_eq_zero_iff]
      have hc := P.onCurve
      unfold OnEdwards at hc
      rcases mul_eq_zero.mp hxy with h | h
      · rw [h] at hc
        rcases eq_zero_or_t2 (P := P) (by linear_combination -hc) with h | h
        · exact .inl h
        · exact .inr (.inl h)
      · rw [h] at hc
        have h1 : (P.x - i) * (P.x + i) = 0 := by linear_combination -hc - sqrtM1_sq
        rcases mul_eq_zero.mp h1 with h2 | h2
        · refine .inr (.inr (.inl ?_))
          ext
          · change P.x = i
            linear_combination h2
          · exact h
        · refine .inr (.inr (.inr ?_))
          ext
          · rw [(add_t2 t4).1]
            change P.x = -i
            linear_combination h2
          · rw [(add_t2 t4).2, h]
            change 0 = -(0 : ZMod p)
            rw [neg_zero]
    refine ⟨-P, by rw [smul_neg, h4, neg_zero], ?_⟩
    rw [he, add_neg_cancel]
    exact ⟨isNegative_zero, by simp [isNegative_zero], one_ne_zero, isNegative_zero, by simp⟩
  · have hx : P.x ≠ 0 := fun h => hxy (by rw [h, zero_mul])
    have hy : P.y ≠ 0 := fun h => hxy (by rw [h, mul_zero])
    obtain ⟨c, hc⟩ := (mem_even_iff P).mp hP
    have hc0 : c ≠ 0 := by
      rintro rfl
      exact hx (x_eq_zero (by rw [← hc]; ring))
    have hw : (1 + P.y) * (1 - P.y) * (P.x * P.y) ^ 2 ≠ 0 := by
      rw [show (1 + P.y) * (1 - P.y) = c ^ 2 by rw [hc]; ring]
      exact mul_ne_zero (pow_ne_zero 2 hc0) (pow_ne_zero 2 hxy)
    obtain ⟨h1, h2, -⟩ := sqrtRatioI_spec 1 hw
    have ht := h2 (h1.mpr ⟨1 / (c * (P.x * P.y)), by
      rw [show (1 + P.y) * (1 - P.y) = c ^ 2 by rw [hc]; ring, div_pow, ← mul_pow, one_pow, mul_one_div,
        div_self (pow_ne_zero 2 (mul_ne_zero hc0 hxy))]⟩)
    unfold encode
    simp only
    generalize (sqrtRatioI 1 ((1 + P.y) * (1 - P.y) * (P.x * P.y) ^ 2)).2 = ι at *
    have hz : ι * ((1 + P.y) * (1 - P.y)) * (ι * (P.x * P.y)) * (P.x * P.y) = 1 := by linear_combination ht
    rw [hz, mul_one]
    by_cases hn : isNegative (P.x * P.y) = true
    · simp only [hn, if_true, mul_one]
      obtain ⟨ex, ey⟩ := add_t4 P
      have hK := invsqrtAMinusD_sq
      have hcurve := P.onCurve
      unfold OnEdwards at hcurve
      have hi : i ≠ 0 := by
        intro h0
        have := sqrtM1_sq
        rw [h0] at this
        simp at this
      obtain ⟨T, hT, hcan⟩ := canon_of_den (P := P + t4) (den := ι * ((1 + P.y) * (1 - P.y)) * invsqrtAMinusD)
        (by
          rw [ey]
          generalize (invsqrtAMinusD : ZMod p) = K at *
          have hd1 : (1 - P.y ^ 2) * (1 + P.x ^ 2) = (-1 - d) * (P.x * P.y) ^ 2 := by linear_combination -hcurve
          have e1 : (1 - (P.x * i) ^ 2) = 1 + P.x ^ 2 := by linear_combination -P.x ^ 2 * sqrtM1_sq
          rw [e1]
          linear_combination ι ^ 2 * (1 - P.y ^ 2) * K ^ 2 * hd1 + ι ^ 2 * (1 - P.y ^ 2) * (P.x * P.y) ^ 2 * hK + ht)
        (by rw [ex]; exact mul_ne_zero hy hi) (by rw [ey]; exact mul_ne_zero hx hi)
        (by
          rw [ex, ey, show P.y * i * (P.x * i) = -(P.x * P.y) by linear_combination P.x * P.y * sqrtM1_sq,
            isNegative_neg hxy, hn]
          rfl)
      rw [ex, ey] at hcan
      refine ⟨t4 + T, ?_, ?_⟩
      · rw [four_nsmul_eq_zero_iff]
        rcases hT with rfl | rfl
        · rw [add_zero]; exact .inr (.inr (.inl rfl))
        · exact .inr (.inr (.inr rfl))
      · rw [← add_assoc]
        exact hcan
    · have hn' : isNegative (P.x * P.y) = false := by simpa using hn
      simp only [hn', mul_one, Bool.false_eq_true, if_false]
      obtain ⟨T, hT, hcan⟩ := canon_of_den (P := P) (den := ι * (P.x * P.y))
        (by linear_combination ht) hx hy hn'
      refine ⟨T, ?_, hcan⟩
      rw [four_nsmul_eq_zero_iff]
      rcases hT with rfl | rfl
      · exact .inl rfl
      · exact .inr (.inl rfl)

/-- The encoding depends on the coset only, and characterizes it. -/
theorem encode_eq_iff {P : Point} (hP : P ∈ Even) (s : ZMod p) :
    encode P.x P.y = s ↔ ∃ T, 4 • T = 0 ∧ Canon (P + T) s := by
  obtain ⟨T, hT, hcan⟩ := encode_canon hP
  constructor
  · rintro rfl
    exact ⟨T, hT, hcan⟩
  · rintro ⟨T', hT', hcan'⟩
    refine (hcan.coset (T := T' - T) (by rw [nsmul_sub, hT, hT', sub_zero]) ?_).2
    rwa [show P + T + (T' - T) = P + T' by abel]

/-! ## Decoding -/

/-- `decode` finds the representative. -/
theorem decode_iff (s x y : ZMod p) : decode s = some (x, y) ↔ ∃ P : Point, P.x = x ∧ P.y = y ∧ Canon P s := by
  have hdne : ∀ u₁ u₂ : ZMod p, u₂ ≠ 0 → -(d * u₁ ^ 2) - u₂ ^ 2 ≠ 0 := by
    intro u₁ u₂ hu h0
    have hu₁ : u₁ ≠ 0 := by
      rintro rfl
      apply pow_ne_zero 2 hu
      linear_combination -h0
    refine d_nonsquare (i * u₂ / u₁) ?_
    rw [div_mul_div_comm, div_eq_iff (mul_ne_zero hu₁ hu₁)]
    linear_combination u₂ ^ 2 * sqrtM1_sq + h0
  by_cases hs : isNegative s = true
  · constructor
    · intro h
      unfold decode at h
      rw [if_pos hs] at h
      cases h
    · rintro ⟨P, -, -, hcan⟩
      rw [hcan.s_nonneg] at hs
      cases hs
  by_cases hu : 1 + s ^ 2 = 0
  · constructor
    · intro h
      unfold decode at h
      rw [if_neg hs] at h
      simp only [hu] at h
      have h0 : (sqrtRatioI 1 ((-(d * (1 - s ^ 2) ^ 2) - 0 ^ 2) * 0 ^ 2)).2 = 0 := by
        rw [show (-(d * (1 - s ^ 2) ^ 2) - 0 ^ 2) * (0 : ZMod p) ^ 2 = 0 by ring, sqrtRatioI_zero]
      rw [h0] at h
      simp at h
    · rintro ⟨P, -, -, hcan⟩
      have := hcan.y_eq
      rw [hu] at this
      exact absurd (by linear_combination hu - this) two_ne
  have hs' : isNegative s = false := by simpa using hs
  have hv := hdne (1 - s ^ 2) (1 + s ^ 2) hu
  have hw := mul_ne_zero hv (pow_ne_zero 2 hu)
  obtain ⟨h1, h2, -⟩ := sqrtRatioI_spec 1 hw
  unfold decode
  rw [if_neg hs]
  simp only
  generalize hq : sqrtRatioI 1 ((-(d * (1 - s ^ 2) ^ 2) - (1 + s ^ 2) ^ 2) * (1 + s ^ 2) ^ 2) = q at *
  obtain ⟨was, ι⟩ := q
  simp only at h1 h2 ⊢
  generalize hvv : -((d : ZMod p) * (1 - s ^ 2) ^ 2) - (1 + s ^ 2) ^ 2 = v at *
  constructor
  · intro h
    split at h
    · cases h
    · next hc =>
      simp only [not_or, Bool.not_eq_false, Bool.not_eq_true] at hc
      obtain ⟨hwas, hneg, hy0⟩ := hc
      have ht := h2 hwas
      obtain ⟨hx, hy⟩ := Prod.mk.inj (Option.some.inj h)
      rw [hx, hy] at hneg
      rw [hy] at hy0
      have hyu : y * (1 + s ^ 2) = 1 - s ^ 2 := by
        rw [← hy]
        linear_combination (1 - s ^ 2) * ht
      have hxv : x ^ 2 * v = 4 * s ^ 2 := by
        rw [← hx, ctAbs_sq]
        linear_combination 4 * s ^ 2 * ht
      have hcurve : OnEdwards (d : ZMod p) x y := by
        unfold OnEdwards
        refine mul_right_cancel₀ hw ?_
        linear_combination (-(1 + s ^ 2) ^ 2 - d * y ^ 2 * (1 + s ^ 2) ^ 2) * hxv
          + (v - 4 * s ^ 2 * d) * (y * (1 + s ^ 2) + (1 - s ^ 2)) * hyu + 4 * s ^ 2 * hvv
      refine ⟨⟨x, y, hcurve⟩, rfl, rfl, ?_, hneg, hy0, hs', hyu⟩
      change isNegative x = false
      rw [← hx]
      exact isNegative_ctAbs _
  · rintro ⟨P, rfl, rfl, hcan⟩
    have hyu := hcan.y_eq
    have hcurve := P.onCurve
    unfold OnEdwards at hcurve
    have hxv : P.x ^ 2 * v = 4 * s ^ 2 := by
      rw [← hvv]
      linear_combination (1 + s ^ 2) ^ 2 * hcurve
        - (1 - d * P.x ^ 2) * (P.y * (1 + s ^ 2) + (1 - s ^ 2)) * hyu
    have hwas : was = true := by
      apply h1.mpr
      by_cases hs0 : s = 0
      · obtain ⟨r, hr0, hr⟩ := exists_sqrt
        refine ⟨1 / r, ?_⟩
        rw [div_pow, hr, ← hvv, hs0]
        have hne : (-1 - d : ZMod p) ≠ 0 := by rw [← hr]; exact pow_ne_zero 2 hr0
        rw [mul_div_assoc', div_eq_iff hne]
        ring
      · have hx0 : P.x ≠ 0 := by
          intro h0
          rw [h0] at hxv
          have : (2 * s) ^ 2 = 0 := by linear_combination -hxv
          exact mul_ne_zero two_ne hs0 (pow_eq_zero_iff two_ne_zero |>.mp this)
        have hne : 2 * s * (1 + s ^ 2) ≠ 0 := mul_ne_zero (mul_ne_zero two_ne hs0) hu
        refine ⟨P.x / (2 * s * (1 + s ^ 2)), ?_⟩
        rw [div_pow, mul_div_assoc', div_eq_iff (pow_ne_zero 2 hne)]
        linear_combination (1 + s ^ 2) ^ 2 * hxv
    have ht := h2 hwas
    have hy : (1 - s ^ 2) * (ι * (ι * (1 + s ^ 2)) * v) = P.y := by
      refine mul_right_cancel₀ hu ?_
      linear_combination (1 - s ^ 2) * ht - hyu
    have hx : ctAbs (2 * s * (ι * (1 + s ^ 2))) = P.x := by
      refine eq_of_sq_eq ?_ (isNegative_ctAbs _) hcan.x_nonneg
      rw [ctAbs_sq]
      refine mul_right_cancel₀ hv ?_
      linear_combination 4 * s ^ 2 * ht - hxv
    rw [hy, hx, if_neg]
    rw [hwas, hcan.xy_nonneg]
    simp [hcan.y_ne_zero]

end ElasticElgamal.Ristretto255
