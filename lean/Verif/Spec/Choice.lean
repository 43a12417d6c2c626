import Verif.Spec.Ring
import Verif.Model.App.Choice

/-!
# Specifications for encrypted choices
-/

set_option autoImplicit false

namespace ElasticElgamal.Spec

variable {F E : Type} [Field F] [AddCommGroup E] [Module F E]

/-- The ciphertexts encrypt the given bits, `true` as the generator and `false` as the identity. -/
def EncryptsBits (B : Backend F E) (k : F) (cts : List (Ciphertext E)) (bits : List Bool) : Prop :=
  List.Forall₂ (fun ct bit => Encrypts B k ct (if bit then B.gen else 0)) cts bits

/-- A successful attack on a log equality proof: the statement is false, but the hash of the proof data
is the single challenge that can be answered for its commitments. -/
def LogEqForged (B : Backend F E) (context : List Entry) (K : PublicKey E) (powers : E × E)
    (proof : LogEqualityProof F) : Prop :=
  ∃ (commitments : E × E) (a d x y : Bytes),
    commitments = (proof.response • B.gen - proof.challenge • powers.1,
      proof.response • K.element - proof.challenge • powers.2) ∧
    B.serElem powers.1 = some a ∧
    B.serElem powers.2 = some d ∧ B.serElem commitments.1 = some x ∧
    B.serElem commitments.2 = some y ∧
    Forgeable B K.element powers commitments (B.challenge (logEqQuery context K.bytes a d x y))

/-- One of the rings of a ring proof was forged (see `RingForged`). The common challenge is the hash of the
data `commonQuery` with which verification of the proof ends. -/
def SomeRingForged [DecidableEq F] (B : Backend F E) (context : List Entry) (K : PublicKey E)
    (values : List (List E)) (cts : List (Ciphertext E)) (proof : RingProof F) : Prop :=
  ∃ (i : ℕ) (vs : List E) (ct : Ciphertext E) (enc : Bytes) (terms : List (Bytes × Bytes))
    (last : Bytes × Bytes), values[i]? = some vs ∧ cts[i]? = some ct ∧ ct.toBytes B = some enc ∧
      proof.verify B K values cts ⟨context⟩ = some (.ok (), ⟨commonQuery context K.bytes terms⟩) ∧
      terms[i]? = some last ∧ RingForged B K.element (ringBase context K.bytes enc i) vs
        (responsesOf values proof.ringResponses i vs.length) ct
        (B.challenge (commonQuery context K.bytes terms)) last

/-- Component-wise sum of ciphertexts. -/
def ctSum (cts : List (Ciphertext E)) : Ciphertext E :=
  ⟨(cts.map (·.random)).sum, (cts.map (·.blinded)).sum⟩

/-- One of the proofs in a ballot was forged. -/
def ChoiceForged [DecidableEq F] (B : Backend F E) (K : PublicKey E) {kind : ChoiceKind}
    (ballot : EncryptedChoice F E kind) : Prop :=
  SomeRingForged B (Transcript.new "encrypted_choice_ranges").log K
    (ballot.choices.map fun _ => [0, B.gen]) ballot.choices ballot.rangeProof ∨
  match kind, ballot.sumProof with
  | .single, sumProof => LogEqForged B (Transcript.new "choice_encryption_sum").log K
      ((ctSum ballot.choices).random, (ctSum ballot.choices).blinded - B.gen) sumProof
  | .multi, _ => False

/-- Tally of ballots: for every option, the sum of ciphertexts of all ballots. -/
def tally (optionsCount : ℕ) (ballots : List (List (Ciphertext E))) : List (Ciphertext E) :=
  (List.range optionsCount).map fun j =>
    (ballots.map fun cts => (cts[j]?).getD Ciphertext.zero).foldl Ciphertext.add Ciphertext.zero

end ElasticElgamal.Spec
