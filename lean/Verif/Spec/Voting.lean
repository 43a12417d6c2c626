import Verif.Spec.Choice
import Verif.Spec.Prepared
import Verif.Model.App.QuadraticVoting

/-!
# Specifications for quadratic voting
-/

set_option autoImplicit false

namespace ElasticElgamal.Spec

variable {F E : Type} [Field F] [AddCommGroup E] [Module F E]

/-- Parameters for `options` options, a budget of `credits` and at most `maxVotes` votes per option. -/
structure VotingParamsFor (B : Backend F E) (params : QuadraticVotingParams E)
    (options credits maxVotes : ℕ) : Prop where
  options : params.optionsCount = options
  votes : PreparedFor B (maxVotes + 1) params.voteCountRange
  credits : PreparedFor B (credits + 1) params.creditRange

/-- Cost of votes. -/
def cost (votes : List ℕ) : ℕ := (votes.map fun v => v * v).sum

/-- One of the rings of a range proof was forged. -/
def RangeForged [DecidableEq F] (B : Backend F E) (context : List Entry) (K : PublicKey E) (range : PreparedRange E)
    (ct : Ciphertext E) (proof : RangeProof F E) : Prop :=
  SomeRingForged B (rangeContext context range.inner.display) K (range.inner.rings.map (ringValues B))
    (rangeCiphertexts proof.partialCiphertexts ct) proof.inner

end ElasticElgamal.Spec
