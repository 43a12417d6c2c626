import Verif.Model.Merlin

/-!
# Specifications: transcripts that hash differently

The part of the state that is not touched by absorbed data, the capacity, is 32 bytes long. Two inputs of the
permutation whose outputs have the same capacity are an *inner collision*; the security of the sponge
construction is that of finding such inputs, or one whose output has the capacity of the initial state.
-/

set_option autoImplicit false

namespace ElasticElgamal.Spec

open Merlin

/-- The states agree in the last 32 bytes, those which are never changed by data. -/
def SameCapacity (x y : KeccakState) : Prop := ∀ i : Fin 200, 168 ≤ i.val → x i = y i

/-- Among the inputs there are two different ones with the same capacity of the outputs, or one which is mapped to
the zero capacity (that of the initial state). -/
def InnerCollision (f : KeccakState → KeccakState) (inputs : List KeccakState) : Prop :=
  (∃ x ∈ inputs, ∃ y ∈ inputs, x ≠ y ∧ SameCapacity (f x) (f y)) ∨
    ∃ x ∈ inputs, SameCapacity (f x) fun _ => 0

/-- Labels in the crate are ASCII. -/
def IsAscii (s : String) : Prop := ∀ c ∈ s.toList, c.toNat < 128

/-- The label of an entry of a log. -/
def entryLabel : Entry → String
  | .msg label _ => label
  | .chal label => label

/-- All labels are ASCII. -/
def AsciiLog (log : List Entry) : Prop := ∀ e ∈ log, IsAscii (entryLabel e)

/-- The message of an entry is shorter than 4 GiB. -/
def ShortEntry : Entry → Prop
  | .msg _ data => data.length < 2 ^ 32
  | .chal _ => True

/-- Two different logs with challenges, given with the labels of the challenges, that are read from states with the
same capacity. At most `m` evaluations of the permutation are needed to compute these states. -/
def TranscriptsCollide (f : KeccakState → KeccakState) (n m : ℕ) (x y : List Entry × String) : Prop :=
  x ≠ y ∧ AsciiLog x.1 ∧ IsAscii x.2 ∧ AsciiLog y.1 ∧ IsAscii y.2 ∧
    ∃ s s', challengeState f n x.1 x.2 = some s ∧ challengeState f n y.1 y.2 = some s' ∧
      s.calls.length + s'.calls.length ≤ m ∧ SameCapacity s.state s'.state

end ElasticElgamal.Spec
