import Verif.Lemmas.Canon
import Verif.Lemmas.Float
import Verif.Props.RangeDecomposition

/-!
# C62: range decompositions do not depend on the build

Prover and verifier must use the same decomposition of a range: it is hashed in the transcript of a range
proof (`src/proofs/range.rs:492, 562`) and fixes its rings. Builds with the `std` feature prune the search by
a floating-point estimate, other builds by an integer one.
-/

set_option autoImplicit false
set_option linter.unusedSectionVars false

namespace ElasticElgamal

open Spec RangeDecomposition

/-- C62: the floating-point estimate never exceeds the length of any decomposition, in spite of rounding, if
`log2` is exact for powers of two and reasonably accurate otherwise. -/
theorem C62_float_estimate (log2 : ℚ → ℚ) (hl : Log2Ok log2) : EstimateOk (floatLowerLenEstimate log2) :=
  floatEstimate_ok hl

/-- C62: all admissible estimates lead to the same decomposition, in debug and release builds, also if there
are several decompositions of the same length with the same number of rings. -/
theorem C62_same (dbg dbg' : Bool) (est est' : ℕ → ℕ) (he : EstimateOk est) (he' : EstimateOk est') (n : ℕ)
    (h2 : 2 ≤ n) (hn : n ≤ 2 ^ 64 - 3) :
    ∃ d, optimal dbg est n = some d ∧ optimal dbg' est' n = some d := by
  have key : ∀ (dbg : Bool) (est : ℕ → ℕ), EstimateOk est → optimal dbg est n = some (canon n).decomposition := by
    intro dbg est he
    cases dbg with
    | true => exact optimal_canon he h2 hn
    | false => exact optimal_release (optimal_canon he h2 hn)
  exact ⟨_, key dbg est he, key dbg' est' he'⟩

/-- C62: builds with and without `std` agree. -/
theorem C62_std_agrees (dbg dbg' : Bool) (log2 : ℚ → ℚ) (hl : Log2Ok log2) (n : ℕ) (h2 : 2 ≤ n)
    (hn : n ≤ 2 ^ 64 - 3) :
    ∃ d, optimal dbg (floatLowerLenEstimate log2) n = some d ∧ optimal dbg' intLowerLenEstimate n = some d :=
  C62_same dbg dbg' _ _ (floatEstimate_ok hl) (EstimateOk.of_cube fun m k hm hk => by
    unfold intLowerLenEstimate at hk
    rw [if_neg (by omega)] at hk
    calc 2 ^ k < 2 ^ (Nat.log 2 m * 3) := Nat.pow_lt_pow_right (by norm_num) hk
      _ = (2 ^ Nat.log 2 m) ^ 3 := by rw [pow_mul]
      _ ≤ m ^ 3 := Nat.pow_le_pow_left (Nat.pow_log_le_self 2 (by omega)) 3) n h2 hn

theorem innerLoop_le {est : ℕ → ℕ} {opt : ℕ → Memo → Option (OptimalDecomposition × Memo)} {t rem : ℕ}
    {dbg : Bool} (ks : List ℕ) : ∀ {o o' : OptimalDecomposition} {memo memo' : Memo},
    innerLoop dbg est opt t rem ks o memo = some (o', memo') → o'.optimalLen ≤ o.optimalLen := by
  induction ks with
  | nil =>
    intro o o' memo memo' h
    simp only [innerLoop, Option.some.injEq, Prod.mk.injEq] at h
    rw [h.1]
  | cons k ks ih =>
    intro o o' memo memo' h
    rw [innerLoop] at h
    split at h
    · exact ih h
    · simp only [Option.bind_eq_bind, Option.bind_eq_some_iff] at h
      obtain ⟨T, -, h⟩ := h
      split at h
      · simp only [Option.pure_def, Option.some.injEq, Prod.mk.injEq] at h
        rw [h.1]
      · simp only [Option.bind_eq_some_iff] at h
        obtain ⟨fl, -, be, -, h⟩ := h
        split at h
        · exact ih h
        · simp only [Option.bind_eq_some_iff, Prod.exists] at h
          obtain ⟨oi, memo1, -, cl, -, h⟩ := h
          split at h
          · rename_i hb
            simp only [Option.bind_eq_some_iff] at h
            obtain ⟨d, -, h⟩ := h
            have := ih h
            simp only at this
            omega
          · exact ih h

theorem outerLoop_le {est : ℕ → ℕ} {opt : ℕ → Memo → Option (OptimalDecomposition × Memo)} {n : ℕ} {dbg : Bool}
    (fuel : ℕ) : ∀ {t : ℕ} {o o' : OptimalDecomposition} {memo memo' : Memo},
    outerLoop dbg est opt n fuel t o memo = some (o', memo') → o'.optimalLen ≤ o.optimalLen := by
  induction fuel with
  | zero => intro t o o' memo memo' h; simp [outerLoop] at h
  | succ fuel ih =>
    intro t o o' memo memo' h
    simp only [outerLoop, Option.bind_eq_bind, Option.bind_eq_some_iff] at h
    obtain ⟨fl, -, h⟩ := h
    split at h
    · simp only [Option.pure_def, Option.some.injEq, Prod.mk.injEq] at h
      rw [h.1]
    · simp only [Option.bind_eq_some_iff, Prod.exists] at h
      obtain ⟨rem, -, o1, memo1, h1, h2⟩ := h
      exact (ih h2).trans (innerLoop_le _ h1)

/-- C62: an estimate which is too large makes the optimization fail in debug builds. -/
theorem C62_too_large (est : ℕ → ℕ) (n : ℕ) (h : n + 2 < est n) : optimal true est n = none := by
  cases hc : optimal true est n with
  | none => rfl
  | some d =>
    exfalso
    simp only [optimal, Option.bind_eq_bind, Option.bind_eq_some_iff, guard_eq_some', Option.pure_def,
      Prod.exists] at hc
    obtain ⟨-, h2, o, memo, ho, -⟩ := hc
    cases n with
    | zero => omega
    | succ m =>
      simp only [optimize, List.lookup_nil, Option.bind_eq_bind, Option.bind_eq_some_iff, guard_eq_some',
        Option.pure_def, Prod.exists, Option.some.injEq, Prod.mk.injEq] at ho
      obtain ⟨fl, hfl, o1, memo1, h1, -, hg, rfl, -⟩ := ho
      have := outerLoop_le _ h1
      obtain rfl := addU64_true hfl
      simp only [Bool.true_eq_false, false_or] at hg this
      omega

/-- C62: exactness of `log2` for powers of two is needed. If `log2(4)` were the next `f64` after 2 or
larger, then `optimal(4)` would panic in debug builds. -/
theorem C62_inexact_log2 (log2 : ℚ → ℚ) (h : 2 + 1 / 2 ^ 51 ≤ log2 4) :
    optimal true (floatLowerLenEstimate log2) 4 = none := by
  apply C62_too_large
  unfold floatLowerLenEstimate
  rw [Nat.lt_ceil]
  have h4 : roundF64 ((4 : ℕ) : ℚ) = 4 := by rw [roundF64_nat (by norm_num)]; norm_num
  rw [h4]
  have hz := roundF64_error (log2 4 * 3)
  rw [abs_of_nonneg (a := log2 4 * 3) (by norm_num at h; linarith), abs_le] at hz
  norm_num at h hz ⊢
  linarith

/-- A function with the properties asked of `log2`: `⌊log₂(x^1024)⌋ / 1024`. -/
def exampleLog2 (x : ℚ) : ℚ := (Int.log 2 (x ^ 1024) : ℚ) / 1024

theorem exampleLog2_ok : Log2Ok exampleLog2 := by
  constructor
  · intro k _
    have h1 := Int.log_zpow (R := ℚ) (b := 2) (by norm_num) (k * 1024 : ℤ)
    have h2 : ((2 : ℚ) ^ k) ^ 1024 = ((2 : ℕ) : ℚ) ^ (k * 1024 : ℤ) := by
      rw [← pow_mul]
      norm_cast
    rw [exampleLog2, h2, h1]
    push_cast
    ring
  · intro x hx _
    have hx0 : (0 : ℚ) < x ^ 1024 := by positivity
    have h1 := Int.zpow_log_le_self (b := 2) (by norm_num) hx0
    have h2 := Int.lt_zpow_succ_log_self (b := 2) (by norm_num) (x ^ 1024)
    unfold exampleLog2
    generalize Int.log 2 (x ^ 1024) = j at h1 h2
    have hxr : (0 : ℝ) < (x : ℝ) := by exact_mod_cast (by linarith : (0 : ℚ) < x)
    have h1' : (2 : ℝ) ^ (j : ℝ) ≤ (x : ℝ) ^ 1024 := by
      have := (Rat.cast_le (K := ℝ)).mpr h1
      rw [Real.rpow_intCast]
      push_cast at this
      exact this
    have h2' : (x : ℝ) ^ 1024 < (2 : ℝ) ^ ((j + 1 : ℤ) : ℝ) := by
      have := (Rat.cast_lt (K := ℝ)).mpr h2
      rw [Real.rpow_intCast]
      push_cast at this
      exact this
    have h3 := Real.logb_le_logb_of_le (b := 2) (by norm_num) (by positivity) h1'
    have h4 := Real.logb_lt_logb (b := 2) (by norm_num) (by positivity) h2'
    rw [Real.logb_rpow (by norm_num) (by norm_num), Real.logb_pow] at h3
    rw [Real.logb_rpow (by norm_num) (by norm_num), Real.logb_pow] at h4
    push_cast at h3 h4 ⊢
    rw [abs_le]
    constructor <;> norm_num <;> linarith

/-- Values of the estimate for powers of two and others; the shortest decompositions of 64 and 5 have
lengths 18 and 7. -/
example : floatLowerLenEstimate exampleLog2 64 = 18 ∧ floatLowerLenEstimate exampleLog2 5 = 7 ∧
    floatLowerLenEstimate exampleLog2 1000 = 30 := by
  decide +kernel

/-- The decomposition of 17 in builds with and without `std`. -/
example : optimal true (floatLowerLenEstimate exampleLog2) 17 = some ⟨[⟨4, 4⟩, ⟨5, 1⟩]⟩ := by
  obtain ⟨d, h1, h2⟩ := C62_std_agrees true true exampleLog2 exampleLog2_ok 17 (by norm_num) (by norm_num)
  rw [h1, ← h2]
  decide +kernel

/-- A `log2` which overshoots at 4. -/
example : optimal true (floatLowerLenEstimate fun x => if x = 4 then 2 + 1 / 2 ^ 51 else exampleLog2 x) 4 = none :=
  C62_inexact_log2 _ (by simp)

example : floatLowerLenEstimate exampleLog2 17 ≤ (4 + 2) + (5 + 2) := by
  refine C62_float_estimate exampleLog2 exampleLog2_ok 17 [⟨4, 4⟩, ⟨5, 1⟩] (by norm_num) ?_
  obtain ⟨d, h1, h2⟩ := C25_nested true _ C27_estimate_exact 17 (by norm_num) (by norm_num)
  cases h1.symm.trans (by decide +kernel : _ = some ⟨[⟨4, 4⟩, ⟨5, 1⟩]⟩)
  exact h2

/-- A debug build with `std` and a release build without, for a bound too large for computing the decomposition here. -/
example : ∃ d, optimal true (floatLowerLenEstimate exampleLog2) (10 ^ 18) = some d ∧
    optimal false intLowerLenEstimate (10 ^ 18) = some d :=
  C62_same true false _ _ (C62_float_estimate _ exampleLog2_ok) C27_estimate_int (10 ^ 18) (by norm_num) (by norm_num)

example : optimal true (fun n => n + 3) 17 = none := C62_too_large _ 17 (by norm_num)

end ElasticElgamal
