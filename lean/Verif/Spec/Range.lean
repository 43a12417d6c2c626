import Verif.Model.Proofs.RangeDecomposition

/-!
# Specifications for range decompositions
-/

set_option autoImplicit false

namespace ElasticElgamal.Spec

/-- The documented construction (`RangeDecomposition` docs): `0..n` is either a single ring `0..n`, or
`0..n = 0..t + k * (0..T)` with `T` decomposed recursively, `2 ≤ k ≤ t` (no gaps) and
`n = t + k * (T - 1)` (exact upper bound). Rings of `0..T` come first, with steps multiplied by `k`. -/
inductive Nested : ℕ → List RingSpec → Prop
  | just (n : ℕ) (h : 2 ≤ n) : Nested n [⟨n, 1⟩]
  | mul (t k T : ℕ) (rings : List RingSpec) (hk : 2 ≤ k) (hkt : k ≤ t) (hT : 2 ≤ T)
      (inner : Nested T rings) :
      Nested (t + k * (T - 1)) (rings.map (fun s => ⟨s.size, s.step * k⟩) ++ [⟨t, 1⟩])

/-- `x` is a sum of one value per ring, ring `(size, step)` consisting of `0, step, …, (size-1)*step`;
`indexes` are the positions in the rings. -/
def Represents (rings : List RingSpec) (indexes : List ℕ) (x : ℕ) : Prop :=
  List.Forall₂ (fun i s => i < s.size) indexes rings ∧
    (List.zipWith (fun i s => i * s.step) indexes rings).sum = x

/-- Number of scalars and group elements in a range proof: one response per ring item, the common
challenge, and a ciphertext (2 elements) for all rings but one. -/
def proofSize (rings : List RingSpec) : ℕ := (rings.map (·.size)).sum + 1 + 2 * (rings.length - 1)

/-- The pruning estimate never exceeds the length tracked by the optimizer (size + 2 for each ring), of any
decomposition: pruning discards no decomposition which is at least as good as the current one. -/
def EstimateOk (est : ℕ → ℕ) : Prop :=
  ∀ m rings, m < 2 ^ 64 → Nested m rings → est m ≤ (rings.map fun s => s.size + 2).sum

end ElasticElgamal.Spec
