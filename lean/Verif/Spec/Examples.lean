import Verif.Model.Examples
import Verif.Spec.Tally

/-!
# Specifications for the example programs
-/

set_option autoImplicit false

namespace ElasticElgamal.Spec

open Examples

/-- What the documentation of `rand` promises about the functions used by the examples: numbers and indexes are in
range, and `sample` returns distinct items, as many as requested or as there are. -/
structure LawfulRand {R : Type} (ext : RandExt R) : Prop where
  range_lt : ∀ n r, 0 < n → (ext.randomRange n r).1 < n
  choose_lt : ∀ n r, 0 < n → (ext.chooseIndex n r).1 < n
  sample_lt : ∀ n k r, ∀ i ∈ (ext.sample n k r).1, i < n
  sample_nodup : ∀ n k r, (ext.sample n k r).1.Nodup
  sample_length : ∀ n k r, (ext.sample n k r).1.length = min k n

/-- Decimal notation of a `usize`, with an optional `+`. -/
def Numeral (s : List Char) (v : ℕ) : Prop :=
  ∃ digits : List Char, (s = digits ∨ s = '+' :: digits) ∧ digits ≠ [] ∧ (∀ c ∈ digits, c.isDigit = true) ∧
    v = digits.foldl (fun a c => 10 * a + (c.toNat - 48)) 0 ∧ v < 2 ^ 64

end ElasticElgamal.Spec
