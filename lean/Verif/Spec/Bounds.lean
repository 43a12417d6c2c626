import Verif.Spec.Oracle
import Verif.Model.App.Choice
import Verif.Model.App.QuadraticVoting
import Mathlib.Data.Nat.Choose.Basic

/-!
# Specifications: bounds on the success of forgers

`order` is the order of the group, `q` the number of hash evaluations of the attacker.
-/

set_option autoImplicit false

namespace ElasticElgamal.Spec

variable {E : Type}

/-- Probability that one of `q` hash evaluations of the attacker, or the one made by the verifier, is equal to a
prescribed one among `order` values. -/
def hashBound (order q : ℕ) : ℚ := (q + 1 : ℕ) / order

/-- Bound for forging a ring proof with rings of the given sizes: the number of pairs among `q` hash evaluations
of the attacker and those made by the verifier (one for each pair of successive equations in a ring, and
the common challenge), divided by `order`. -/
def ringsBound (order q : ℕ) (sizes : List ℕ) : ℚ :=
  ((q + (sizes.map fun s => s - 1).sum + 1).choose 2 : ℕ) / order

/-- Bound for forging one of the proofs of a ballot with `o` options. -/
def choiceBound (order q o : ℕ) (kind : ChoiceKind) : ℚ :=
  ringsBound order q (List.replicate o 2) + match kind with
    | .single => hashBound order q
    | .multi => 0

/-- Bound for forging one of the proofs of a quadratic voting ballot. -/
def ballotBound (order q : ℕ) (params : QuadraticVotingParams E) : ℚ :=
  params.optionsCount * ringsBound order q (params.voteCountRange.inner.rings.map (·.size)) +
    (ringsBound order q (params.creditRange.inner.rings.map (·.size)) + hashBound order q)

end ElasticElgamal.Spec
