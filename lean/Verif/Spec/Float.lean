import Mathlib.Analysis.SpecialFunctions.Log.Base

/-!
# Assumptions on floating-point functions
-/

set_option autoImplicit false

namespace ElasticElgamal.Spec

/-- What is assumed of the floating-point `log2`: exact for powers of two, and otherwise an error of at most
`2^-10`, where the largest value in question is 64. (Libraries have errors of about `2^-47`.) -/
structure Log2Ok (log2 : ℚ → ℚ) : Prop where
  exact : ∀ k : ℕ, k ≤ 64 → log2 (2 ^ k) = k
  accurate : ∀ x : ℚ, 1 ≤ x → x ≤ 2 ^ 65 → |((log2 x : ℚ) : ℝ) - Real.logb 2 x| ≤ 1 / 2 ^ 10

end ElasticElgamal.Spec
