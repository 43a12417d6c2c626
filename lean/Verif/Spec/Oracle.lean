import Verif.Spec.Transcript
import Mathlib.Data.Fintype.Pi
import Mathlib.Data.Set.Finite.Range
import Mathlib.Data.Finite.Prod
import Mathlib.Data.Fintype.EquivFin
import Mathlib.Data.Rat.Defs
import Mathlib.Algebra.Order.Ring.Rat

/-!
# Specifications: algorithms with access to a random hash function

The attacker is an arbitrary algorithm that may evaluate the hash function a bounded number of times. It is
deterministic; a randomized attacker is a distribution over such algorithms, so that bounds for every
deterministic one carry over. It may know everything, in particular all secret keys: nothing is assumed
about its running time.
-/

set_option autoImplicit false

namespace ElasticElgamal

/-- An algorithm that evaluates the hash function (`Q` = hashed data, `A` = hash values) and finally outputs
an `α`. -/
inductive OracleAlg (Q A α : Type) where
  | done (output : α)
  | ask (query : Q) (next : A → OracleAlg Q A α)

namespace OracleAlg

variable {Q A α β : Type}

/-- The output for the hash function `H`. -/
def run (H : Q → A) : OracleAlg Q A α → α
  | done output => output
  | ask query next => run H (next (H query))

/-- The hash function is evaluated at most `n` times, whatever the hash values are. -/
def AtMost : ℕ → OracleAlg Q A α → Prop
  | _, done _ => True
  | 0, ask _ _ => False
  | n + 1, ask _ next => ∀ a, AtMost n (next a)

/-- Run one algorithm, then another one that depends on the output of the first. -/
def bind : OracleAlg Q A α → (α → OracleAlg Q A β) → OracleAlg Q A β
  | done a, f => f a
  | ask q next, f => ask q fun a => (next a).bind f

/-- Data at which the hash function is evaluated. -/
def queries (H : Q → A) : OracleAlg Q A α → List Q
  | done _ => []
  | ask q next => q :: queries H (next (H q))

end OracleAlg

namespace Spec

/-- Hash functions that agree with `H₀` outside of a finite set `D`; there are `|A|^|D|` of them. -/
noncomputable def hashFamily {Q A : Type} [Finite A] (D : Finset Q) (H₀ : Q → A) : Finset (Q → A) :=
  (show Set.Finite {H : Q → A | ∀ q ∉ D, H q = H₀ q} by
    classical
    refine (Set.finite_range fun h : D → A => fun q => if hq : q ∈ D then h ⟨q, hq⟩ else H₀ q).subset ?_
    intro H hH
    refine ⟨fun q => H q, funext fun q => ?_⟩
    by_cases hq : q ∈ D
    · simp [hq]
    · simp [hq, hH q hq]).toFinset

open Classical in
/-- "The event `P` has probability at most `ε` for a uniformly random hash function." There are infinitely many
hash functions; the events of interest depend on the hash values of finitely many data `D₀`. So the statement is:
if all hash values in any finite `D ⊇ D₀` are chosen uniformly at random, and all others are fixed in
any way, then the fraction of hash functions with `P` is at most `ε`. -/
def ProbLe {Q A : Type} [Finite A] (P : (Q → A) → Prop) (ε : ℚ) : Prop :=
  ∃ D₀ : Finset Q, ∀ D, D₀ ⊆ D → ∀ H₀ : Q → A,
    (((hashFamily D H₀).filter P).card : ℚ) ≤ ε * (hashFamily D H₀).card

end Spec

end ElasticElgamal
