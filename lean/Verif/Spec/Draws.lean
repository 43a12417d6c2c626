import Verif.Model.Base

/-!
# Specification: how much randomness is read
-/

set_option autoImplicit false

namespace ElasticElgamal.Spec

variable {F E : Type}

/-- The next `d` random scalars of a generator, and the generator after them. -/
def drawScalars (B : Backend F E) : ℕ → B.Rng → List F × B.Rng
  | 0, rng => ([], rng)
  | d + 1, rng =>
    let (x, rng) := B.genScalar rng
    let (xs, rng) := drawScalars B d rng
    (x :: xs, rng)

/-- The operation `f` reads exactly `d` random scalars, in order: whether it panics and what it returns is a function of
the next `d` scalars, and it leaves the generator after them. `out` puts together the returned value and the generator. -/
def Draws (B : Backend F E) (d : ℕ) {α γ : Type} (out : α → B.Rng → γ) (f : B.Rng → Option γ) : Prop :=
  ∃ g : List F → Option α, ∀ rng, f rng = (g (drawScalars B d rng).1).map fun a => out a (drawScalars B d rng).2

/-- A returned value with a transcript, and the generator. -/
def withTranscript {B : Backend F E} {α : Type} (p : α × Transcript) (rng : B.Rng) : α × Transcript × B.Rng :=
  (p.1, p.2, rng)

end ElasticElgamal.Spec
