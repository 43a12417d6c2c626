import Verif.Spec.Sharing
import Verif.Spec.Choice
import Verif.Spec.Voting

/-!
# Specifications for tallies under threshold keys
-/

set_option autoImplicit false

namespace ElasticElgamal.Spec

variable {F E : Type} [Field F] [AddCommGroup E] [Module F E] [DecidableEq F] [DecidableEq E]

/-- Decryption shares of distinct participants, at least as many as the threshold, each accepted by
`verify_share` (only the first `threshold` ones are used for decryption). -/
structure VerifiedShares (B : Backend F E) (ks : PublicKeySet E) (ct : Ciphertext E)
    (contributions : List (ℕ × VerifiableDecryption E)) (proofs : ℕ → LogEqualityProof F) : Prop where
  enough : ks.params.threshold ≤ contributions.length
  distinct : ((contributions.take ks.params.threshold).map Prod.fst).Nodup
  verified : ∀ c ∈ contributions.take ks.params.threshold, ∃ cand,
    ks.verifyShare B cand ct c.1 (proofs c.1) = some (.ok c.2)

/-- One of the used decryption shares comes with a forged proof. -/
def ShareForged (B : Backend F E) (ks : PublicKeySet E) (ct : Ciphertext E)
    (contributions : List (ℕ × VerifiableDecryption E)) (proofs : ℕ → LogEqualityProof F) : Prop :=
  ∃ c ∈ contributions.take ks.params.threshold, ∃ base pk, IsKey B base ct.random ∧
    ks.participantKeys[c.1]? = some pk ∧
    LogEqForged B (shareLog ks.params ks.sharedKey.bytes c.1) base (pk.element, c.2.dhElement) (proofs c.1)

/-- A quadratic voting ballot contains a forged proof; `bad` gives the exceptional hash values of credit
equivalence proofs. -/
def BallotForged (B : Backend F E) (bad : List Entry → F) (params : QuadraticVotingParams E)
    (ballot : QuadraticVotingBallot F E) : Prop :=
  (∃ v ∈ ballot.votes, RangeForged B (Transcript.new "quadratic_voting_variant").log params.receiver
    params.voteCountRange v.ciphertext v.rangeProof) ∨
  RangeForged B (Transcript.new "quadratic_voting_credit_range").log params.receiver params.creditRange
    ballot.credit.ciphertext ballot.credit.rangeProof ∨
  ∃ t', ballot.creditEquivalenceProof.verify B (ballot.votes.map (·.ciphertext)) ballot.credit.ciphertext
      params.receiver (Transcript.new "quadratic_voting_credit_equiv") = some (.ok (), t') ∧
    B.challenge t'.log = bad t'.log

end ElasticElgamal.Spec
