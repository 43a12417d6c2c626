import Verif.Spec.Oracle
import Mathlib.Data.Nat.Choose.Basic
import Mathlib.Data.Rat.Defs

/-!
# Bounds for proofs that are accepted in two places
-/

set_option autoImplicit false

namespace ElasticElgamal.Spec

/-- Bound for the probability that two of `q` random values out of `N` are equal. -/
def collisionBound (N q : ℕ) : ℚ := (q.choose 2 : ℚ) / N

/-- Number of hash values that are computed by the verifier of a ring proof for rings of the given sizes. -/
def ringHashes (sizes : List ℕ) : ℕ := (sizes.map (· - 1)).sum + 1

end ElasticElgamal.Spec
