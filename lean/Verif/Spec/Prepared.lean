import Verif.Model.Proofs.Range
import Verif.Spec.Range
import Verif.Spec.Ring

/-!
# Specifications for range proofs
-/

set_option autoImplicit false

namespace ElasticElgamal.Spec

variable {F E : Type} [Field F] [AddCommGroup E] [Module F E]

/-- Admissible values of a ring: `[0]G, [step]G, …, [(size - 1) * step]G`. -/
def ringValues (B : Backend F E) (s : RingSpec) : List E :=
  (List.range s.size).map fun i => ((i * s.step : ℕ) : F) • B.gen

/-- `range` is obtained from the public constructors for the upper bound `n`:
`PreparedRange::from(RangeDecomposition::optimal(n))`. -/
def PreparedFor (B : Backend F E) (n : ℕ) (range : PreparedRange E) : Prop :=
  ∃ est, EstimateOk est ∧ 2 ≤ n ∧ n ≤ 2 ^ 64 - 3 ∧ ∃ d,
    RangeDecomposition.optimal B.debug est n = some d ∧ PreparedRange.new B d = some range

/-- Hashed data preceding the ring proof inside of a range proof. -/
def rangeContext (context : List Entry) (display : Bytes) : List Entry :=
  context ++ [.msg "dom-sep" (asciiBytes "encryption_range_proof"), .msg "range" display]

/-- Ciphertexts the rings of a range proof are about: the partial ciphertexts, and the difference of the
ciphertext and their sum. -/
def rangeCiphertexts (partials : List (Ciphertext E)) (ct : Ciphertext E) : List (Ciphertext E) :=
  partials ++ [⟨ct.random - (partials.map (·.random)).sum, ct.blinded - (partials.map (·.blinded)).sum⟩]

/-- A ciphertext of an integer together with its opening. -/
def OpenedNat (B : Backend F E) (K : E) (ct : CiphertextWithValue F E ℕ) : Prop :=
  ct.ciphertext.random = ct.randomness • B.gen ∧
    ct.ciphertext.blinded = (ct.value : F) • B.gen + ct.randomness • K

end ElasticElgamal.Spec
