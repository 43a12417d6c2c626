import Verif.Spec.Keys
import Verif.Spec.Transcript
import Verif.Model.Proofs.Ring

/-!
# Specifications for ring proofs
-/

set_option autoImplicit false

namespace ElasticElgamal.Spec

variable {F E : Type}

/-- Hashed data common to all equations of ring number `i` for a ciphertext with encoding `enc`. -/
def ringBase (context : List Entry) (k enc : Bytes) (i : ℕ) : List Entry :=
  context ++ [.msg "dom-sep" (asciiBytes "multi_ring_enc"), .msg "K" k,
    .msg "dom-sep" (asciiBytes "ring_enc"), .msg "enc" enc, .msg "i" (leBytes 8 i)]

/-- Hashed data for equation `j` of a ring, with commitments encoded as `x`, `y`. -/
def ringQuery (base : List Entry) (j : ℕ) (x y : Bytes) : List Entry :=
  base ++ [.msg "j" (leBytes 8 j), .msg "R_G" x, .msg "R_K" y, .chal "c"]

/-- Hashed data for the common challenge: the encoded terminal commitments of all rings. -/
def commonQuery (context : List Entry) (k : Bytes) (terms : List (Bytes × Bytes)) : List Entry :=
  context ++ [.msg "dom-sep" (asciiBytes "multi_ring_enc"), .msg "K" k] ++
    terms.flatMap (fun p => [.msg "R_G" p.1, .msg "R_K" p.2]) ++ [.chal "c"]

variable [Field F] [AddCommGroup E] [Module F E]

/-- The statement "`powers.1 = [r]G` and `powers.2 = [r]K`" is false, and yet the challenge `c` can be
answered for the given commitments. For a false statement and given commitments there is at most one
such challenge (`Forgeable.unique` in `Lemmas/Ring.lean`). -/
def Forgeable (B : Backend F E) (K : E) (powers commitments : E × E) (c : F) : Prop :=
  ¬ SameLog B K powers ∧
    ∃ s : F, commitments.1 = s • B.gen - c • powers.1 ∧ commitments.2 = s • K - c • powers.2

/-- Commitments of one equation of a ring, computed from the admissible value `v`, the response `s` and the
challenge `c`. -/
def ringComm (B : Backend F E) (K : E) (ct : Ciphertext E) (v : E) (s c : F) : E × E :=
  (s • B.gen - c • ct.random, s • K - c • (ct.blinded - v))

/-- Responses that belong to ring number `i` with `size` admissible values. -/
def responsesOf (values : List (List E)) (responses : List F) (i size : ℕ) : List F :=
  (responses.drop ((values.take i).map List.length).sum).take size

/-- A successful attack on one ring with the given responses: for the commitments `comms` computed from
the responses, one per admissible value, going around the ring every hash value is the single challenge
that can be answered: the common challenge for the first equation, and the hash of equation `j` for
equation `j + 1`. `last` is the encoding of the commitments of the last equation. -/
def RingForged (B : Backend F E) (K : E) (base : List Entry) (values : List E) (responses : List F)
    (ct : Ciphertext E) (common : F) (last : Bytes × Bytes) : Prop :=
  ∃ (comms : List (E × E)) (cs : List F),
    responses.length = values.length ∧ comms.length = values.length ∧ cs.length = values.length ∧
    (∀ (j : ℕ) v s m c, values[j]? = some v → responses[j]? = some s → comms[j]? = some m →
      cs[j]? = some c → Forgeable B K (ct.random, ct.blinded - v) m c ∧
        m = (s • B.gen - c • ct.random, s • K - c • (ct.blinded - v))) ∧
    cs.head? = some common ∧
    (∀ (j : ℕ) m c, comms[j]? = some m → cs[j + 1]? = some c →
      ∃ x y, B.serElem m.1 = some x ∧ B.serElem m.2 = some y ∧
        c = B.challenge (ringQuery base j x y)) ∧
    (∃ m, comms.getLast? = some m ∧ B.serElem m.1 = some last.1 ∧ B.serElem m.2 = some last.2)

/-- One call made on a `RingProofBuilder`: `add_value` (no precomputed ciphertext) or
`add_precomputed_value`. -/
structure RingStep (F E : Type) where
  precomputed : Option (ExtendedCiphertext F E)
  values : List E
  index : ℕ

/-- Make one call. -/
def runRingStep [DecidableEq E] (B : Backend F E) (step : RingStep F E) (b : RingProofBuilder B) :
    Option (ExtendedCiphertext F E × RingProofBuilder B) :=
  match step.precomputed with
  | none => b.addValue B step.values step.index
  | some ct => (b.addPrecomputedValue B ct step.values step.index).map fun b => (ct, b)

/-- Make the calls in order; collects the ciphertexts. -/
def runRingSteps [DecidableEq E] (B : Backend F E) :
    List (RingStep F E) → RingProofBuilder B → Option (List (Ciphertext E) × RingProofBuilder B)
  | [], b => some ([], b)
  | step :: steps, b => do
    let (ct, b) ← runRingStep B step b
    let (cts, b) ← runRingSteps B steps b
    return (ct.inner :: cts, b)

/-- One ring of a proof: a ciphertext, which is created by the builder if `fresh`, admissible values and
the index of the encrypted one. -/
structure RingInput (F E : Type) where
  ct : ExtendedCiphertext F E
  values : List E
  index : ℕ
  fresh : Bool

/-- The corresponding builder call: `add_value` if fresh, `add_precomputed_value` otherwise. -/
def RingInput.step (r : RingInput F E) : RingStep F E :=
  ⟨if r.fresh then none else some r.ct, r.values, r.index⟩

/-- Number of random scalars for a ring: one per admissible value, and one for a fresh ciphertext. -/
def RingInput.draws (r : RingInput F E) : ℕ := r.values.length + if r.fresh then 1 else 0

/-- The ciphertext encrypts the selected value, with the recorded randomness. -/
def RingInput.Honest (B : Backend F E) (K : E) (r : RingInput F E) : Prop :=
  ∃ v, r.values[r.index]? = some v ∧
    r.ct.inner.random = r.ct.randomScalar • B.gen ∧ r.ct.inner.blinded = v + r.ct.randomScalar • K

/-- Create a builder with a zeroed response buffer of the right size, add all rings, and build; returns
the ciphertexts and the proof. -/
def proveRings [DecidableEq E] [DecidableEq F] (B : Backend F E) (K : PublicKey E)
    (rings : List (RingInput F E)) (t : Transcript) (rng : B.Rng) :
    Option ((List (Ciphertext E) × RingProof F) × Transcript × B.Rng) := do
  let buffer := List.replicate (rings.map (·.values.length)).sum (0 : F)
  let (ciphertexts, builder) ← runRingSteps B (rings.map (·.step)) (RingProofBuilder.new B K buffer t rng)
  let (commonChallenge, ringResponses, t, rng) ← builder.build B
  return ((ciphertexts, { commonChallenge, ringResponses }), t, rng)

/-- A precomputed ciphertext encrypts the admissible value it is added with, for the given receiver. -/
def RingStep.Honest (B : Backend F E) (K : E) (step : RingStep F E) : Prop :=
  ∀ ct, step.precomputed = some ct → ∃ v, step.values[step.index]? = some v ∧
    ct.inner.random = ct.randomScalar • B.gen ∧ ct.inner.blinded = v + ct.randomScalar • K

end ElasticElgamal.Spec
