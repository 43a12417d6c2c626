import Verif.Spec.Format

/-!
# What may be left in memory (C97)
-/

set_option autoImplicit false

namespace ElasticElgamal.Spec

variable {F E : Type}

/-- Rings that differ at most in the randomness of the ciphertext and of the proof. -/
def SameRing (a b : Ring F E) : Prop :=
  a.index = b.index ∧ a.admissibleValues = b.admissibleValues ∧ a.ciphertext = b.ciphertext ∧ a.transcript = b.transcript ∧
    a.responses = b.responses ∧ a.terminalCommitments = b.terminalCommitments ∧ a.valueIndex = b.valueIndex

end ElasticElgamal.Spec
