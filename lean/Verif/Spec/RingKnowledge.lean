import Verif.Spec.Oracle
import Verif.Spec.Ring
import Verif.Spec.Prepared
import Verif.Spec.Knowledge
import Verif.Model.App.QuadraticVoting

/-!
# Specifications: extraction of the plaintext and randomness from provers of ring proofs

The extractor runs the prover and the verifier, selects one of the evaluations of the hash function, changes the hash
value and runs both again. If an equation of a ring has the same commitments in both runs, but different challenges, then
the randomness of the ciphertext is computed from the responses.
-/

set_option autoImplicit false

namespace ElasticElgamal.Spec

variable {F E : Type} [Field F] [AddCommGroup E] [Module F E]

/-! ## Hash values used by the verifier -/

/-- The loop over equations of one ring. -/
def ringAlg (B : Backend F E) (K : E) (ct : Ciphertext E) (base : List Entry) :
    ℕ → List (E × F) → F → OracleAlg (List Entry) F (Option (E × E))
  | _, [], _ => .done none
  | _, [(v, s)], c => .done (some (ringComm B K ct v s c))
  | j, (v, s) :: p :: l, c =>
    match B.serElem (ringComm B K ct v s c).1, B.serElem (ringComm B K ct v s c).2 with
    | some x, some y => .ask (ringQuery base j x y) fun c' => ringAlg B K ct base (j + 1) (p :: l) c'
    | _, _ => .done none

/-- The loop over rings; outputs the encoded terminal commitments. -/
def ringsAlg (B : Backend F E) (proof : RingProof F) (K : PublicKey E) (ctx : List Entry) :
    ℕ → ℕ → List (List E × Ciphertext E) → OracleAlg (List Entry) F (Option (List (Bytes × Bytes)))
  | _, _, [] => .done (some [])
  | i, off, (vs, ct) :: l =>
    match ct.toBytes B with
    | none => .done none
    | some enc =>
      (ringAlg B K.element ct (ringBase ctx K.bytes enc i) 0 (vs.zip (proof.ringResponses.drop off))
        proof.commonChallenge).bind fun m =>
      match m with
      | none => .done none
      | some m =>
        match B.serElem m.1, B.serElem m.2 with
        | some x, some y =>
          (ringsAlg B proof K ctx (i + 1) (off + vs.length) l).bind fun terms =>
            .done (terms.map fun ts => (x, y) :: ts)
        | _, _ => .done none

/-- The whole verifier: rings, then the common challenge. -/
def ringVerifierAlg (B : Backend F E) (K : PublicKey E) (ctx : List Entry) (values : List (List E))
    (cts : List (Ciphertext E)) (proof : RingProof F) : OracleAlg (List Entry) F Unit :=
  (ringsAlg B proof K ctx 0 0 (values.zip cts)).bind fun terms =>
    match terms with
    | none => .done ()
    | some terms => .ask (commonQuery ctx K.bytes terms) fun _ => .done ()

/-! ## The extractor -/

/-- Equations of one ring, from equation `j` with challenge `c` on: admissible value, response, challenge. -/
def ringEquations (B : Backend F E) (K : E) (ct : Ciphertext E) (base : List Entry) :
    ℕ → List (E × F) → F → List (E × F × F)
  | _, [], _ => []
  | j, (v, s) :: l, c =>
    (v, s, c) ::
      match B.serElem (ringComm B K ct v s c).1, B.serElem (ringComm B K ct v s c).2 with
      | some x, some y => ringEquations B K ct base (j + 1) l (B.challenge (ringQuery base j x y))
      | _, _ => []

/-- Equations of ring number `i` with ciphertext `ct` in a proof. -/
def proofEquations (B : Backend F E) (K : PublicKey E) (context : List Entry) (values : List (List E)) (i : ℕ)
    (ct : Ciphertext E) (proof : RingProof F) : List (E × F × F) :=
  match values[i]?, ct.toBytes B with
  | some vs, some enc =>
    ringEquations B K.element ct (ringBase context K.bytes enc i) 0
      (vs.zip (responsesOf values proof.ringResponses i vs.length)) proof.commonChallenge
  | _, _ => []

/-- The admissible value and the randomness computed from equations of one ring in two runs: the first equation with
the same commitments and different challenges is used. -/
def ringOpening [DecidableEq F] [DecidableEq E] (B : Backend F E) (K : E) (ct : Ciphertext E)
    (eqs eqs' : List (E × F × F)) : Option (E × F) :=
  ((eqs.zip eqs').find? fun p => p.1.2.2 ≠ p.2.2.2 ∧
    ringComm B K ct p.1.1 p.1.2.1 p.1.2.2 = ringComm B K ct p.1.1 p.2.2.1 p.2.2.2).map
  fun p => (p.1.1, (p.1.2.1 - p.2.2.1) / (p.1.2.2 - p.2.2.2))

/-- The ciphertext in ring `i` encrypts one of the admissible values, with randomness computed from two outputs
(ciphertexts and proof) for the hash functions `H` and `H'`. -/
def OpensRing [DecidableEq F] [DecidableEq E] (B : Backend F E) (K : PublicKey E) (context : List Entry)
    (values : List (List E)) (i : ℕ) (o o' : List (Ciphertext E) × RingProof F) (H H' : List Entry → F) : Prop :=
  ∃ (ct ct' : Ciphertext E) (vs : List E) (v : E) (r : F), o.1[i]? = some ct ∧ o'.1[i]? = some ct' ∧
    values[i]? = some vs ∧ v ∈ vs ∧
    ringOpening B K.element ct (proofEquations (B.withHash H) K context values i ct o.2)
      (proofEquations (B.withHash H') K context values i ct' o'.2) = some (v, r) ∧
    ct = ⟨r • B.gen, v + r • K.element⟩

/-- A prover followed by the verifier of a ring proof. `out` selects the ciphertexts and the ring proof in an output of the
prover. -/
def withVerifier {α : Type} (B : Backend F E) (K : PublicKey E) (context : List Entry) (values : List (List E))
    (out : α → List (Ciphertext E) × RingProof F) (alg : OracleAlg (List Entry) F α) : OracleAlg (List Entry) F Unit :=
  alg.bind fun a => ringVerifierAlg B K context values (out a).1 (out a).2

/-- Number of evaluations of the hash function by a prover with `n` evaluations and the verifier of rings with
given sizes. -/
def evaluations (n : ℕ) (sizes : List ℕ) : ℕ := n + ((sizes.map (· - 1)).sum + 1)

/-- Rings of a range proof. -/
def rangeOut (o : Ciphertext E × RangeProof F E) : List (Ciphertext E) × RingProof F :=
  (rangeCiphertexts o.2.partialCiphertexts o.1, o.2.inner)

/-- Admissible values of all rings of a range proof. -/
def rangeValues (B : Backend F E) (range : PreparedRange E) : List (List E) := range.inner.rings.map (ringValues B)

/-- Vote number `j` in a ballot with its proof. -/
def voteOut (j : ℕ) (ballot : QuadraticVotingBallot F E) : Ciphertext E × RangeProof F E :=
  match ballot.votes[j]? with
  | some v => (v.ciphertext, v.rangeProof)
  | none => (⟨0, 0⟩, ⟨[], ⟨0, []⟩⟩)

/-- The credit in a ballot with its proof. -/
def creditOut (ballot : QuadraticVotingBallot F E) : Ciphertext E × RangeProof F E :=
  (ballot.credit.ciphertext, ballot.credit.rangeProof)

end ElasticElgamal.Spec
