import Verif.Lemmas.RangeDecomp
import Verif.Spec.Float
import Mathlib.Tactic.Linarith
import Mathlib.Tactic.Positivity
import Mathlib.Tactic.FieldSimp

/-!
# Floating-point estimate of the proof length
-/

set_option autoImplicit false

namespace ElasticElgamal

open Spec RangeDecomposition

/-! ## Rounding -/

theorem roundEven_error (x : ℚ) : |(roundEven x : ℚ) - x| ≤ 1 / 2 := by
  have h0 := Int.fract_nonneg x
  have h1 := Int.fract_lt_one x
  have h2 : (⌊x⌋ : ℚ) = x - Int.fract x := by rw [Int.fract]; ring
  unfold roundEven
  rw [abs_le]
  split
  · constructor <;> linarith
  · split
    · constructor <;> push_cast <;> linarith
    · split
      · constructor <;> linarith
      · constructor <;> push_cast <;> linarith

theorem roundEven_int (k : ℤ) : roundEven (k : ℚ) = k := by
  simp [roundEven]

theorem roundF64_error (x : ℚ) : |roundF64 x - x| ≤ |x| / 2 ^ 53 := by
  unfold roundF64
  split
  · rename_i h; simp [h]
  · rename_i h
    have hpos : 0 < |x| := abs_pos.mpr h
    have hu : (0 : ℚ) < 2 ^ (Int.log 2 |x| - 52) := by positivity
    have h1 := roundEven_error (x / 2 ^ (Int.log 2 |x| - 52))
    have h2 : (2 : ℚ) ^ (Int.log 2 |x|) ≤ |x| := by
      have := Int.zpow_log_le_self (b := 2) (by norm_num) hpos
      simpa using this
    have h3 : (2 : ℚ) ^ (Int.log 2 |x|) = 2 ^ (Int.log 2 |x| - 52) * 2 ^ 52 := by
      rw [← zpow_natCast, ← zpow_add₀ (by norm_num)]
      norm_num
    rw [h3] at h2
    simp only
    generalize (2 : ℚ) ^ (Int.log 2 |x| - 52) = u at *
    have h4 : (roundEven (x / u) : ℚ) * u - x = (roundEven (x / u) - x / u) * u := by field_simp
    rw [h4, abs_mul, abs_of_pos hu]
    have h5 := mul_le_mul_of_nonneg_right h1 hu.le
    have h6 : u / 2 ≤ |x| / 2 ^ 53 := by
      rw [div_le_div_iff₀ (by norm_num) (by norm_num)]
      linarith
    linarith

theorem roundF64_of_mul {x : ℚ} (j : ℤ) (h : x = j * 2 ^ (Int.log 2 |x| - 52)) : roundF64 x = x := by
  unfold roundF64
  split
  · rename_i h; exact h.symm
  · have hu : (2 : ℚ) ^ (Int.log 2 |x| - 52) ≠ 0 := by positivity
    have : x / 2 ^ (Int.log 2 |x| - 52) = j := by rw [div_eq_iff hu]; exact h
    simp only [this, roundEven_int]
    exact h.symm

theorem roundF64_nat {n : ℕ} (h : n < 2 ^ 53) : roundF64 n = n := by
  have hl : Nat.log 2 n ≤ 52 := by
    have := Nat.log_lt_of_lt_pow' (b := 2) (x := 53) (by norm_num) h
    omega
  refine roundF64_of_mul (n * 2 ^ (52 - Nat.log 2 n) : ℕ) ?_
  rw [abs_of_nonneg (by positivity), Int.log_natCast]
  have e : ((Nat.log 2 n : ℕ) : ℤ) - 52 = -((52 - Nat.log 2 n : ℕ) : ℤ) := by omega
  rw [e, zpow_neg, zpow_natCast]
  push_cast
  field_simp

theorem roundF64_two_pow (k : ℕ) : roundF64 (2 ^ k) = 2 ^ k := by
  refine roundF64_of_mul (2 ^ 52) ?_
  have : Int.log 2 |(2 : ℚ) ^ k| = k := by
    rw [abs_of_pos (by positivity)]
    have := Int.log_zpow (R := ℚ) (b := 2) (by norm_num) (k : ℤ)
    simpa using this
  rw [this, zpow_sub₀ (by norm_num), zpow_natCast]
  push_cast
  ring

/-! ## Lengths of decompositions -/

theorem cube_gap (n : ℕ) (h : 2 ≤ n) : n = 4 ∨ 128 * n ^ 3 ≤ 125 * 2 ^ (n + 2) := by
  rcases Nat.lt_or_ge n 8 with h8 | h8
  · interval_cases n <;> norm_num
  · right
    clear h
    induction n, h8 using Nat.le_induction with
    | base => norm_num
    | succ n hn ih =>
      have : (n + 1) ^ 3 ≤ 2 * n ^ 3 := by
        have h1 : 8 * n ^ 2 ≤ n ^ 3 := by
          rw [pow_succ n 2, Nat.mul_comm]; exact Nat.mul_le_mul_left _ hn
        have h2 : 8 * n ≤ n ^ 2 := by rw [pow_two]; exact Nat.mul_le_mul_right _ hn
        have h3 : (n + 1) ^ 3 = n ^ 3 + 3 * n ^ 2 + 3 * n + 1 := by ring
        omega
      have h2 : 2 ^ (n + 1 + 2) = 2 * 2 ^ (n + 2) := by ring
      omega

/-- The cube of the upper bound is either exactly the power of two or well below it. -/
theorem Spec.Nested.cube_gap {n : ℕ} {rings : List RingSpec} (h : Nested n rings) :
    n ^ 3 = 2 ^ decLen rings ∨ 128 * n ^ 3 ≤ 125 * 2 ^ decLen rings := by
  induction h with
  | just n h =>
    have e : decLen [⟨n, 1⟩] = n + 2 := by simp [decLen]
    rw [e]
    rcases ElasticElgamal.cube_gap n h with rfl | h
    · left; norm_num
    · exact Or.inr h
  | mul t k T rings hk hkt hT inner ih =>
    have h2 : decLen (rings.map (fun s => (⟨s.size, s.step * k⟩ : RingSpec)) ++ [⟨t, 1⟩]) =
        decLen rings + (t + 2) := by
      rw [decLen_append]
      exact congrArg₂ _ (decLen_scale k rings) (by simp [decLen])
    have h1 : t + k * (T - 1) ≤ t * T := by
      have : k * (T - 1) ≤ t * (T - 1) := Nat.mul_le_mul_right _ hkt
      obtain ⟨T', rfl⟩ : ∃ T', T = T' + 1 := ⟨T - 1, by omega⟩
      rw [Nat.add_sub_cancel] at *
      rw [Nat.mul_add, Nat.mul_one]
      omega
    have h3 : (t + k * (T - 1)) ^ 3 ≤ t ^ 3 * T ^ 3 := by
      calc _ ≤ (t * T) ^ 3 := Nat.pow_le_pow_left h1 3
        _ = _ := by ring
    rw [h2, pow_add]
    rcases ElasticElgamal.cube_gap t (by omega) with rfl | ht
    · rcases ih with ih | ih
      · have hT4 : 4 ≤ T := by
          have hl : 4 ≤ decLen rings := by
            cases inner with
            | just n h => simp [decLen]; omega
            | mul t' k' T' r' a b c d => rw [decLen_append]; simp [decLen]; omega
          have : 2 ^ 4 ≤ T ^ 3 := by rw [ih]; exact Nat.pow_le_pow_right (by norm_num) hl
          by_contra hc
          obtain rfl | rfl : T = 2 ∨ T = 3 := by omega
          · norm_num at this
          · have h3 : 3 ∣ 2 ^ decLen rings := by rw [← ih]; norm_num
            have := Nat.prime_three.dvd_of_dvd_pow h3
            norm_num at this
        rcases Nat.lt_or_ge k 4 with h4 | h4
        · right
          have h5 : 4 * (4 + k * (T - 1)) ≤ 13 * T := by
            have : k * (T - 1) ≤ 3 * (T - 1) := Nat.mul_le_mul_right _ (by omega)
            omega
          have h6 : (4 * (4 + k * (T - 1))) ^ 3 ≤ (13 * T) ^ 3 := Nat.pow_le_pow_left h5 3
          rw [mul_pow, mul_pow, ih] at h6
          norm_num at h6 ⊢
          generalize (4 + k * (T - 1)) ^ 3 = x at *
          generalize 2 ^ decLen rings = y at *
          omega
        · left
          have : k = 4 := by omega
          subst this
          have : 4 + 4 * (T - 1) = 4 * T := by omega
          rw [this, mul_pow, ih]
          norm_num [mul_comm]
      · right
        generalize (4 + k * (T - 1)) ^ 3 = x at *
        generalize 2 ^ decLen rings = y at *
        norm_num at h3 ⊢
        omega
    · right
      have h4 : T ^ 3 ≤ 2 ^ decLen rings := inner.cube_le
      calc 128 * (t + k * (T - 1)) ^ 3 ≤ 128 * (t ^ 3 * T ^ 3) := Nat.mul_le_mul_left _ h3
        _ = (128 * t ^ 3) * T ^ 3 := by ring
        _ ≤ (125 * 2 ^ (t + 2)) * 2 ^ decLen rings := Nat.mul_le_mul ht h4
        _ = _ := by ring

/-! ## The estimate -/

theorem floatEstimate_le {log2 : ℚ → ℚ} (hl : Log2Ok log2) {m L : ℕ} (hm2 : 2 ≤ m) (hm : m < 2 ^ 64)
    (h : 128 * m ^ 3 ≤ 125 * 2 ^ L) : floatLowerLenEstimate log2 m ≤ L := by
  have hmq : (2 : ℚ) ≤ m := by exact_mod_cast hm2
  have hmq' : (m : ℚ) < 2 ^ 64 := by exact_mod_cast hm
  have hx := roundF64_error (m : ℚ)
  rw [abs_of_nonneg (by positivity : (0 : ℚ) ≤ m), abs_le] at hx
  unfold floatLowerLenEstimate
  set x := roundF64 (m : ℚ) with hxdef
  have hx1 : 1 ≤ x := by linarith
  have hx2 : x ≤ 2 ^ 65 := by linarith
  have hx3 : x ≤ m * (1 + 1 / 2 ^ 53) := by linarith
  have hacc := hl.accurate x hx1 hx2
  set y := log2 x
  rw [abs_le] at hacc
  have hxr : (0 : ℝ) < (x : ℝ) := by exact_mod_cast (by linarith : (0 : ℚ) < x)
  -- `3 log₂ x ≤ L - 1/32`
  have hlog : 32 * (3 * Real.logb 2 (x : ℝ)) ≤ 32 * L - 1 := by
    have h1 : ((x : ℝ) ^ 3) ^ 32 ≤ 2 ^ (32 * (L : ℝ) - 1) := by
      have h2 : (x : ℝ) ^ 3 ≤ 125 / 128 * (1 + 1 / 2 ^ 53) ^ 3 * 2 ^ L := by
        have h3 : (x : ℝ) ≤ m * (1 + 1 / 2 ^ 53) := by
          have : (x : ℝ) ≤ ((m * (1 + 1 / 2 ^ 53) : ℚ) : ℝ) := Rat.cast_le.mpr hx3
          push_cast at this
          exact this
        have h4 : (128 : ℝ) * m ^ 3 ≤ 125 * 2 ^ L := by exact_mod_cast h
        calc (x : ℝ) ^ 3 ≤ (m * (1 + 1 / 2 ^ 53)) ^ 3 := pow_le_pow_left₀ hxr.le h3 3
          _ = m ^ 3 * (1 + 1 / 2 ^ 53) ^ 3 := by ring
          _ ≤ (125 / 128 * 2 ^ L) * (1 + 1 / 2 ^ 53) ^ 3 := by
            refine mul_le_mul_of_nonneg_right ?_ (by positivity)
            linarith
          _ = _ := by ring
      calc ((x : ℝ) ^ 3) ^ 32 ≤ (125 / 128 * (1 + 1 / 2 ^ 53) ^ 3 * 2 ^ L) ^ 32 :=
            pow_le_pow_left₀ (by positivity) h2 32
        _ = (125 / 128 * (1 + 1 / 2 ^ 53) ^ 3) ^ 32 * (2 ^ L) ^ 32 := by rw [mul_pow]
        _ ≤ 1 / 2 * (2 ^ L) ^ 32 := by
          refine mul_le_mul_of_nonneg_right ?_ (by positivity)
          norm_num
        _ = 2 ^ (32 * (L : ℝ) - 1) := by
          rw [Real.rpow_sub (by norm_num), Real.rpow_one, mul_comm (32 : ℝ), Real.rpow_mul (by norm_num),
            Real.rpow_natCast]
          norm_cast
          ring
    have h2 := Real.logb_le_logb_of_le (b := 2) (by norm_num) (by positivity) h1
    rw [Real.logb_rpow (by norm_num) (by norm_num), Real.logb_pow, Real.logb_pow] at h2
    exact_mod_cast h2
  have hlog0 : 0 ≤ Real.logb 2 (x : ℝ) := Real.logb_nonneg (by norm_num) (by exact_mod_cast hx1)
  have hlog65 : Real.logb 2 (x : ℝ) ≤ 65 := by
    have := Real.logb_le_logb_of_le (b := 2) (by norm_num) hxr (y := 2 ^ (65 : ℝ)) (by exact_mod_cast hx2)
    rwa [Real.logb_rpow (by norm_num) (by norm_num)] at this
  have hy1 : (y : ℝ) ≤ 66 := by norm_num at hacc; linarith
  have hy2 : (-1 : ℝ) ≤ y := by norm_num at hacc; linarith
  have hy1' : y ≤ 66 := by exact_mod_cast hy1
  have hy2' : -1 ≤ y := by exact_mod_cast hy2
  have hy3 : (y : ℝ) * 3 ≤ L - 1 / 40 := by norm_num at hacc; linarith
  have hy3' : y * 3 ≤ L - 1 / 40 := by
    have : ((y * 3 : ℚ) : ℝ) ≤ ((L - 1 / 40 : ℚ) : ℝ) := by push_cast; exact hy3
    exact_mod_cast this
  have hz := roundF64_error (y * 3)
  rw [abs_le] at hz
  have hb : |y * 3| ≤ 198 := by rw [abs_le]; constructor <;> linarith
  rw [Nat.ceil_le]
  have : |y * 3| / 2 ^ 53 ≤ 198 / 2 ^ 53 := by
    rw [div_le_div_iff_of_pos_right (by norm_num)]; exact hb
  norm_num at this hz
  linarith

theorem floatEstimate_pow {log2 : ℚ → ℚ} (hl : Log2Ok log2) {k : ℕ} (hk : k ≤ 64) :
    floatLowerLenEstimate log2 (2 ^ k) = 3 * k := by
  unfold floatLowerLenEstimate
  push_cast
  rw [roundF64_two_pow, hl.exact k hk]
  have : (k : ℚ) * 3 = (3 * k : ℕ) := by push_cast; ring
  rw [this, roundF64_nat (by omega), Nat.ceil_natCast]

theorem floatEstimate_ok {log2 : ℚ → ℚ} (hl : Log2Ok log2) : EstimateOk (floatLowerLenEstimate log2) := by
  intro m rings hm h
  rcases h.cube_gap with he | he
  · have hd : m ∣ 2 ^ decLen rings := by rw [← he]; exact Dvd.intro_left _ rfl
    obtain ⟨k, -, rfl⟩ := (Nat.dvd_prime_pow Nat.prime_two).mp hd
    have hk : k < 64 := (Nat.pow_lt_pow_iff_right (by norm_num)).mp hm
    rw [floatEstimate_pow hl hk.le]
    rw [← pow_mul] at he
    have := Nat.pow_right_injective (le_refl 2) he
    rw [mul_comm, this, decLen]
  · exact floatEstimate_le hl h.two_le hm he

end ElasticElgamal
