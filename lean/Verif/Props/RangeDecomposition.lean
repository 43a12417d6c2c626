import Verif.Lemmas.RangeDecomp
import Verif.Lemmas.Display
import Mathlib.Tactic.IntervalCases

/-!
# C25–C29: range decompositions

All theorems hold for debug and release builds (`dbg`) and both estimates used for pruning
(`EstimateOk`, see `C62_float_estimate`, `C27_estimate_int`).
-/

set_option autoImplicit false
set_option linter.unusedSectionVars false

namespace ElasticElgamal

open Spec RangeDecomposition

/-- C25: `optimal(n)` returns a decomposition whose `upper_bound()` is `n`, and the sums of one value per
ring are exactly `0, …, n - 1`. -/
theorem C25_covers (dbg : Bool) (est : ℕ → ℕ) (he : EstimateOk est) (n : ℕ) (h2 : 2 ≤ n)
    (hn : n ≤ 2 ^ 64 - 3) :
    ∃ d, optimal dbg est n = some d ∧ d.upperBound dbg = some n ∧
      ∀ x, (∃ indexes, Represents d.rings indexes x) ↔ x < n := by
  obtain ⟨o, h1, h3⟩ := optimal_spec (dbg := dbg) he h2 hn
  refine ⟨o.decomposition, h1, upperBound_nested dbg (by omega) h3.nested, fun x => ⟨?_, ?_⟩⟩
  · rintro ⟨idx, hi⟩
    exact h3.nested.represents_lt hi
  · intro hx
    obtain ⟨idx, -, hi⟩ := h3.nested.decomposeLoop dbg (m := 1) (v := x) (by omega) (by omega)
    rw [Nat.div_one, Nat.min_eq_left (by omega)] at hi
    exact ⟨idx, hi⟩

/-- C25: the result has the documented nested form. -/
theorem C25_nested (dbg : Bool) (est : ℕ → ℕ) (he : EstimateOk est) (n : ℕ) (h2 : 2 ≤ n)
    (hn : n ≤ 2 ^ 64 - 3) : ∃ d, optimal dbg est n = some d ∧ Nested n d.rings := by
  obtain ⟨o, h1, h3⟩ := optimal_spec (dbg := dbg) he h2 hn
  exact ⟨o.decomposition, h1, h3.nested⟩

/-- C26: `decompose(v)` for `v` below the upper bound returns one index per ring, each less than the ring
size, which sum up to `v`. -/
theorem C26_decompose (dbg : Bool) (est : ℕ → ℕ) (he : EstimateOk est) (n : ℕ) (h2 : 2 ≤ n)
    (hn : n ≤ 2 ^ 64 - 3) (d : RangeDecomposition) (hd : optimal dbg est n = some d) (v : ℕ)
    (hv : v < n) : ∃ indexes, d.decompose dbg v = some indexes ∧ Represents d.rings indexes v := by
  obtain ⟨o, h1, h3⟩ := optimal_spec (dbg := dbg) he h2 hn
  rw [h1] at hd
  cases hd
  obtain ⟨idx, h4, hi⟩ := h3.nested.decomposeLoop dbg (m := 1) (v := v) (by omega) (by omega)
  rw [Nat.div_one, Nat.min_eq_left (by omega)] at hi h4
  rw [scale_one] at h4
  refine ⟨idx, ?_, hi⟩
  simp [decompose, h4, guard]

/-- C26: with debug assertions, `decompose(v)` panics for `v` at or above the upper bound. -/
theorem C26_decompose_out_of_range (est : ℕ → ℕ) (he : EstimateOk est) (n : ℕ) (h2 : 2 ≤ n)
    (hn : n ≤ 2 ^ 64 - 3) (d : RangeDecomposition) (hd : optimal true est n = some d) (v : ℕ)
    (hv : n ≤ v) (hv64 : v < 2 ^ 64) : d.decompose true v = none := by
  obtain ⟨o, h1, h3⟩ := optimal_spec (dbg := true) he h2 hn
  rw [h1] at hd
  cases hd
  obtain ⟨idx, h4, hi⟩ := h3.nested.decomposeLoop true (m := 1) (v := v) (by omega) hv64
  rw [Nat.div_one, Nat.min_eq_right (by omega)] at hi h4
  rw [scale_one] at h4
  have : ¬ v - (n - 1) = 0 := by omega
  simp [decompose, h4, guard, this]

/-- C27: among all decompositions of the documented form, the returned one has the smallest proof size,
and among those of the same proof size the smallest number of rings; `proof_size()` computes this
size. -/
theorem C27_optimal (dbg : Bool) (est : ℕ → ℕ) (he : EstimateOk est) (n : ℕ) (h2 : 2 ≤ n)
    (hn : n ≤ 2 ^ 64 - 3) (d : RangeDecomposition) (hd : optimal dbg est n = some d) :
    d.proofSize dbg = some (Spec.proofSize d.rings) ∧
    ∀ rings, Nested n rings → Spec.proofSize d.rings < Spec.proofSize rings ∨
      (Spec.proofSize d.rings = Spec.proofSize rings ∧ d.rings.length ≤ rings.length) := by
  obtain ⟨o, h1, h3⟩ := optimal_spec (dbg := dbg) he h2 hn
  rw [h1] at hd
  cases hd
  have hs := proofSize_eq h3.nested.ne_nil
  constructor
  · have hle : decLen o.decomposition.rings ≤ n + 2 := by
      have := h3.best _ (Nested.just n h2)
      simp only [Beats, lexLe, decLen, List.map_cons, List.map_nil, List.sum_cons, List.sum_nil,
        h3.len] at this
      simp only [decLen]
      omega
    have hd := decLen_eq o.decomposition.rings
    simp only [RangeDecomposition.proofSize, Option.bind_eq_bind]
    rw [ringsSize_eq dbg (by omega), Option.bind_some, mulU64_of_lt (by omega), Option.bind_some,
      addU64_of_lt (by omega), Option.bind_some, subU64_of_le (by omega)]
    simp only [Option.some.injEq]
    omega
  · intro rings hr
    have hs' := proofSize_eq hr.ne_nil
    have := h3.best rings hr
    simp only [Beats, lexLe, h3.len] at this
    omega

/-- C27: proof sizes are at least `3 log₂ n`, the bound that justifies pruning. -/
theorem C27_lower_bound (n : ℕ) (rings : List RingSpec) (h : Nested n rings) :
    n ^ 3 ≤ 2 ^ (Spec.proofSize rings + 1) := by
  rw [proofSize_eq h.ne_nil]
  exact h.cube_le

/-- C27: the `std` estimate, computed without rounding, is admissible (with rounding: `C62_float_estimate`). -/
theorem C27_estimate_exact : EstimateOk exactLowerLenEstimate := by
  refine EstimateOk.of_cube fun m k _ hk => ?_
  exact Nat.lt_of_not_le fun h => absurd (Nat.clog_le_of_le_pow h) (by
    unfold exactLowerLenEstimate at hk; omega)

/-- C27: the `no_std` estimate is admissible. -/
theorem C27_estimate_int : EstimateOk intLowerLenEstimate := by
  refine EstimateOk.of_cube fun m k hm hk => ?_
  unfold intLowerLenEstimate at hk
  rw [if_neg (by omega)] at hk
  calc 2 ^ k < 2 ^ (Nat.log 2 m * 3) := Nat.pow_lt_pow_right (by norm_num) hk
    _ = (2 ^ Nat.log 2 m) ^ 3 := by rw [pow_mul]
    _ ≤ m ^ 3 := Nat.pow_le_pow_left (Nat.pow_log_le_self 2 (by omega)) 3

/-- C28: for every `n` in `2..=2^64 - 3` the optimization terminates without overflow, underflow or failed
assertions: in debug builds, where these panic, it returns a decomposition, and release builds return
the same. -/
theorem C28_total (est : ℕ → ℕ) (he : EstimateOk est) (n : ℕ) (h2 : 2 ≤ n) (hn : n ≤ 2 ^ 64 - 3) :
    ∃ d, optimal true est n = some d ∧ optimal false est n = some d := by
  obtain ⟨o, h1, h3⟩ := optimal_spec (dbg := true) he h2 hn
  exact ⟨_, h1, optimal_release h1⟩

/-- C28: `optimal(0)` and `optimal(1)` panic. -/
theorem C28_small (dbg : Bool) (est : ℕ → ℕ) (n : ℕ) (hn : n < 2) : optimal dbg est n = none := by
  have : ¬ 2 ≤ n := by omega
  simp [optimal, guard, this]

/-- C28, finding: the two largest `u64` bounds overflow, which panics in debug builds. -/
theorem C28_overflow_debug (est : ℕ → ℕ) (n : ℕ) (hn : 2 ^ 64 - 2 ≤ n) (hn' : n < 2 ^ 64) :
    optimal true est n = none := by
  have h2 : 2 ≤ n := by omega
  obtain ⟨m, rfl⟩ : ∃ m, n = m + 1 := ⟨n - 1, by omega⟩
  have hadd : addU64 true (m + 1) 2 = none := by
    rw [addU64, if_neg (by omega)]; rfl
  simp [optimal, guard, h2, optimize, hadd]

/-- C27/C28, finding: in release builds the overflow makes `optimal` return a single ring with `n` items,
which is not optimal. -/
theorem C28_overflow_release (est : ℕ → ℕ) (n : ℕ) (hn : 2 ^ 64 - 2 ≤ n) (hn' : n < 2 ^ 64) :
    optimal false est n = some ⟨[⟨n, 1⟩]⟩ ∧
      ∃ rings, Nested n rings ∧ Spec.proofSize rings < Spec.proofSize [⟨n, 1⟩] := by
  have h2 : 2 ≤ n := by omega
  constructor
  · obtain ⟨m, rfl⟩ : ∃ m, n = m + 1 := ⟨n - 1, by omega⟩
    have hadd : addU64 false (m + 1) 2 = some ((m + 1 + 2) % 2 ^ 64) := by
      rw [addU64, if_neg (by omega)]; rfl
    have hlt : 2 + 2 > (m + 1 + 2) % 2 ^ 64 := by omega
    have hadd2 : addU64 false 2 2 = some (2 + 2) := addU64_of_lt (by norm_num)
    rw [optimal, optimize]
    simp only [guard, h2, if_true, List.lookup_nil, hadd, outerLoop, hadd2, Option.bind_eq_bind,
      Option.bind_some, hlt, Option.pure_def, true_or, just]
  · rcases Nat.mod_two_eq_zero_or_one n with hm | hm
    · have := Nested.mul 2 2 (n / 2) _ (le_refl _) (le_refl _) (by omega)
        (Nested.just (n / 2) (by omega))
      rw [show 2 + 2 * (n / 2 - 1) = n by omega] at this
      refine ⟨_, this, ?_⟩
      simp [Spec.proofSize]
      omega
    · have := Nested.mul 3 2 ((n - 1) / 2) _ (le_refl _) (by omega) (by omega)
        (Nested.just ((n - 1) / 2) (by omega))
      rw [show 3 + 2 * ((n - 1) / 2 - 1) = n by omega] at this
      refine ⟨_, this, ?_⟩
      simp [Spec.proofSize]
      omega

/-- C29: decompositions with the same textual form are equal. Steps are positive in all decompositions
produced by the crate (`C29_optimal_steps`). -/
theorem C29_display_injective (d d' : RangeDecomposition) (h : ∀ s ∈ d.rings, 1 ≤ s.step)
    (h' : ∀ s ∈ d'.rings, 1 ≤ s.step) (heq : d.display = d'.display) : d = d' := by
  have := go_inj d.rings h h' heq
  cases d; cases d'; simp_all

/-- C29: ranges returned by `optimal` satisfy the condition above. -/
theorem C29_optimal_steps (dbg : Bool) (est : ℕ → ℕ) (he : EstimateOk est) (n : ℕ) (h2 : 2 ≤ n)
    (hn : n ≤ 2 ^ 64 - 3) (d : RangeDecomposition) (hd : optimal dbg est n = some d) :
    ∀ s ∈ d.rings, 1 ≤ s.step := by
  obtain ⟨o, h1, h3⟩ := optimal_spec (dbg := dbg) he h2 hn
  rw [h1] at hd
  cases hd
  exact fun s hs => (h3.nested.size_step s hs).2.1

/-- C29: different upper bounds have different textual forms. -/
theorem C29_bounds_distinct (dbg : Bool) (est : ℕ → ℕ) (he : EstimateOk est) (n n' : ℕ) (h2 : 2 ≤ n)
    (hn : n ≤ 2 ^ 64 - 3) (h2' : 2 ≤ n') (hn' : n' ≤ 2 ^ 64 - 3) (d d' : RangeDecomposition)
    (hd : optimal dbg est n = some d) (hd' : optimal dbg est n' = some d')
    (heq : d.display = d'.display) : n = n' := by
  have he1 := C29_display_injective d d' (C29_optimal_steps dbg est he n h2 hn d hd)
    (C29_optimal_steps dbg est he n' h2' hn' d' hd') heq
  subst he1
  obtain ⟨e, h3, h4, -⟩ := C25_covers dbg est he n h2 hn
  obtain ⟨e', h3', h4', -⟩ := C25_covers dbg est he n' h2' hn'
  rw [hd] at h3
  rw [hd'] at h3'
  cases h3; cases h3'
  rw [h4] at h4'
  exact Option.some.inj h4'

/-- The documented example `optimal(17)`: two rings, with a decomposition of 16. -/
example : optimal true exactLowerLenEstimate 17 = some ⟨[⟨4, 4⟩, ⟨5, 1⟩]⟩ ∧
    (⟨[⟨4, 4⟩, ⟨5, 1⟩]⟩ : RangeDecomposition).decompose true 16 = some [3, 4] ∧
    (⟨[⟨4, 4⟩, ⟨5, 1⟩]⟩ : RangeDecomposition).display = asciiBytes "4 * 0..4 + 0..5" := by
  refine ⟨by decide +kernel, by decide +kernel, by decide +kernel⟩

/-- A competitor for 64: `Nested` contains binary decompositions (6 rings of size 2). -/
example : Nested 8 [⟨2, 4⟩, ⟨2, 2⟩, ⟨2, 1⟩] :=
  Nested.mul 2 2 4 [⟨2, 2⟩, ⟨2, 1⟩] (by norm_num) (by norm_num) (by norm_num)
    (Nested.mul 2 2 2 [⟨2, 1⟩] (by norm_num) (by norm_num) (by norm_num) (Nested.just 2 (by norm_num)))

/-- Every number below 17 is a sum of a value from `{0, 4, 8, 12}` and one from `{0, …, 4}`, and no other is. -/
example : ∀ x, (∃ indexes, Represents [⟨4, 4⟩, ⟨5, 1⟩] indexes x) ↔ x < 17 := by
  obtain ⟨d, h1, -, h2⟩ := C25_covers true _ C27_estimate_exact 17 (by norm_num) (by norm_num)
  cases h1.symm.trans (by decide +kernel : _ = some ⟨[⟨4, 4⟩, ⟨5, 1⟩]⟩)
  exact h2

example : Nested 17 [⟨4, 4⟩, ⟨5, 1⟩] := by
  obtain ⟨d, h1, h2⟩ := C25_nested true _ C27_estimate_exact 17 (by norm_num) (by norm_num)
  cases h1.symm.trans (by decide +kernel : _ = some ⟨[⟨4, 4⟩, ⟨5, 1⟩]⟩)
  exact h2

/-- Both with the exact and with the `no_std` estimate. -/
example : (∃ indexes, (⟨[⟨4, 4⟩, ⟨5, 1⟩]⟩ : RangeDecomposition).decompose true 11 = some indexes ∧
      Represents [⟨4, 4⟩, ⟨5, 1⟩] indexes 11) ∧
    (⟨[⟨4, 4⟩, ⟨5, 1⟩]⟩ : RangeDecomposition).decompose true 17 = none :=
  ⟨C26_decompose true _ C27_estimate_int 17 (by norm_num) (by norm_num) _ (by decide +kernel) 11 (by norm_num),
    C26_decompose_out_of_range _ C27_estimate_exact 17 (by norm_num) (by norm_num) _ (by decide +kernel) 17
      (by norm_num) (by norm_num)⟩

/-- 10 elements for 17 are fewer than with any other decomposition, such as `0..17`. -/
example : ∀ rings, Nested 17 rings → Spec.proofSize [⟨4, 4⟩, ⟨5, 1⟩] ≤ Spec.proofSize rings := fun rings h =>
  ((C27_optimal true _ C27_estimate_exact 17 (by norm_num) (by norm_num) ⟨[⟨4, 4⟩, ⟨5, 1⟩]⟩ (by decide +kernel)).2
    rings h).elim Nat.le_of_lt fun h => h.1.le

example : 17 ^ 3 ≤ 2 ^ (Spec.proofSize [⟨17, 1⟩] + 1) := C27_lower_bound 17 _ (Nested.just 17 (by norm_num))

/-- The largest bound for which the optimization does not overflow. -/
example : ∃ d, optimal true exactLowerLenEstimate (2 ^ 64 - 3) = some d ∧
    optimal false exactLowerLenEstimate (2 ^ 64 - 3) = some d :=
  C28_total _ C27_estimate_exact (2 ^ 64 - 3) (by norm_num) le_rfl

example : optimal false exactLowerLenEstimate 1 = none := C28_small false _ 1 (by norm_num)

example : optimal true exactLowerLenEstimate (2 ^ 64 - 2) = none ∧
    optimal false exactLowerLenEstimate (2 ^ 64 - 2) = some ⟨[⟨2 ^ 64 - 2, 1⟩]⟩ :=
  ⟨C28_overflow_debug _ (2 ^ 64 - 2) le_rfl (by norm_num), (C28_overflow_release _ (2 ^ 64 - 2) le_rfl (by norm_num)).1⟩

example : (⟨[⟨4, 4⟩, ⟨5, 1⟩]⟩ : RangeDecomposition).display ≠ (⟨[⟨4, 4⟩, ⟨4, 1⟩]⟩ : RangeDecomposition).display := fun h =>
  absurd (C29_display_injective _ _ (by decide) (by decide) h) (by decide)

example : ∀ s ∈ [(⟨4, 4⟩ : RingSpec), ⟨5, 1⟩], 1 ≤ s.step :=
  C29_optimal_steps true _ C27_estimate_exact 17 (by norm_num) (by norm_num) ⟨_⟩ (by decide +kernel)

example (d d' : RangeDecomposition) (h : optimal true exactLowerLenEstimate (10 ^ 9) = some d)
    (h' : optimal true exactLowerLenEstimate (10 ^ 9 + 1) = some d') : d.display ≠ d'.display := fun hd =>
  absurd (C29_bounds_distinct true _ C27_estimate_exact _ _ (by norm_num) (by norm_num) (by norm_num) (by norm_num)
    d d' h h' hd) (by norm_num)

end ElasticElgamal
