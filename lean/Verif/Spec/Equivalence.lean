import Verif.Spec.VotingPrivacy
import Verif.Spec.Knowledge
import Verif.Model.Equivalence

/-!
# Specifications for commitment equivalence and sum-of-squares proofs as they are used by applications
-/

set_option autoImplicit false

namespace ElasticElgamal.Spec

open Examples

variable {F E : Type} [Field F] [AddCommGroup E] [Module F E]

/-! ## The example program -/

/-- What is assumed of `bulletproofs`: its points and scalars are those of the backend (with the same encodings),
and honest range proofs for 64-bit values are created and accepted, with the Pedersen commitment to the value. -/
structure LawfulBulletproofs (B : Backend F E) (bp : Bulletproofs B.Rng) where
  point : bp.Point → E
  scalar : bp.Scalar → F
  compress_eq : ∀ P, B.serElem (point P) = some (bp.compress P)
  scalar_bytes : ∀ x : F, scalar (bp.scalarFromBytes (B.serScalar x)) = x
  complete : ∀ (t : Transcript) (v : ℕ) (b : bp.Scalar) (rng : B.Rng), v < 2 ^ 64 →
    ∃ proof C t' rng' t'', bp.proveSingle t v b rng = some ((proof, C), t', rng') ∧
      B.serElem ((v : F) • B.gen + scalar b • point bp.blinding) = some C ∧
      bp.verifySingle proof t C = (true, t'')

/-- The output of a prover that knows an opening of the commitment with a 64-bit value, as range proofs ensure, and
proves that a ciphertext is equivalent to the commitment. -/
structure RangedOutput (F E : Type) where
  output : CommitmentOutput F E
  value : ℕ
  blinding : F

/-- The opening is one of the commitment, the value has 64 bits, and the equivalence proof is accepted. -/
def RangedOutput.Accepted [DecidableEq F] (B : Backend F E) (base : E) (o : RangedOutput F E) (H : List Entry → F) : Prop :=
  o.value < 2 ^ 64 ∧ o.output.commitment = (o.value : F) • B.gen + o.blinding • base ∧ o.output.Accepted B base H

/-- The ciphertext is an encryption of the value with given randomness. -/
def EncryptsWith (B : Backend F E) (K : E) (ct : Ciphertext E) (v : ℕ) (r : F) : Prop :=
  ct = ⟨r • B.gen, (v : F) • B.gen + r • K⟩

/-! ## Privacy -/

variable [Fintype F] [DecidableEq F]

/-- Ciphertext, commitment and equivalence proof for five random scalars, as in the example. -/
def equivalenceOutput (B : Backend F E) (K : PublicKey E) (base : E) (t : Transcript) (value : F) (tape : List F) :
    Option (Ciphertext E × E × CommitmentEquivalenceProof F) := do
  let (ct, tape) := CiphertextWithValue.new B.withTape value K tape
  let (blinding, tape) := SecretKey.generate B.withTape tape
  let ((proof, C), _, _) ← CommitmentEquivalenceProof.new B.withTape ct K blinding base t tape
  return (ct.ciphertext, C, proof)

/-- The hash value with which verification of the proof succeeds. -/
def commitmentPoint (B : Backend F E) (K : PublicKey E) (base : E) (t : Transcript) (ct : Ciphertext E) (C : E)
    (proof : CommitmentEquivalenceProof F) : List (List Entry × F) :=
  match proof.verify B ct K C base t with
  | none => []
  | some (_, t') => [(t'.log, proof.challenge)]

/-- The game: a key is generated, the value is chosen from the public key, and the attacker sees the ciphertext, the
commitment, the proof and all of the random hash function. -/
noncomputable def equivalenceGame (B : Backend F E) (D : Finset (List Entry)) (H₀ : List Entry → F) (base : E)
    (t : Transcript) (value : PublicKey E → F)
    (guess : (List Entry → F) → PublicKey E → Option (Ciphertext E × E × CommitmentEquivalenceProof F) → ℚ) : ℚ :=
  mean fun k : F =>
    match Keypair.generate B.withTape [k] with
    | none => 0
    | some (keypair, _) => meanHash D H₀ fun H => mean fun tape : Fin 5 → F =>
      guess H keypair.publicKey
        (equivalenceOutput (B.withHash H) keypair.publicKey base t (value keypair.publicKey) (List.ofFn tape))

/-- The attacker with a simulated commitment and proof for a given ciphertext: the commitment is a random group
element, the scalars of the proof are random, then the hash function is changed such that the proof is valid. -/
noncomputable def simulatedEquivalence (B : Backend F E) (D : Finset (List Entry)) (H₀ : List Entry → F) (base : E)
    (t : Transcript)
    (guess : (List Entry → F) → PublicKey E → Option (Ciphertext E × E × CommitmentEquivalenceProof F) → ℚ)
    (K : PublicKey E) (cts : Fin 1 → Ciphertext E) : ℚ :=
  mean fun b : F => mean fun p : F × F × F × F => meanHash D H₀ fun H =>
    let proof : CommitmentEquivalenceProof F := ⟨p.1, p.2.1, p.2.2.1, p.2.2.2⟩
    guess (program H (commitmentPoint (B.withHash H) K base t (cts 0) (b • B.gen) proof)) K
      (some (cts 0, b • B.gen, proof))

/-- The game with several values. -/
noncomputable def equivalencesGame (B : Backend F E) (D : Finset (List Entry)) (H₀ : List Entry → F) (base : E)
    (t : Transcript) {n : ℕ} (values : PublicKey E → Fin n → F)
    (guess : (List Entry → F) → PublicKey E → (Fin n → Option (Ciphertext E × E × CommitmentEquivalenceProof F)) → ℚ) : ℚ :=
  mean fun k : F =>
    match Keypair.generate B.withTape [k] with
    | none => 0
    | some (keypair, _) => meanHash D H₀ fun H => mean fun tapes : Fin n → Fin 5 → F =>
      guess H keypair.publicKey fun v =>
        equivalenceOutput (B.withHash H) keypair.publicKey base t (values keypair.publicKey v) (List.ofFn (tapes v))

/-- An attacker against one value, made of an attacker against `n` values. -/
def embedEquivalence (B : Backend F E) (base : E) (t : Transcript) {n : ℕ} (values values' : PublicKey E → Fin n → F)
    (guess : (List Entry → F) → PublicKey E → (Fin n → Option (Ciphertext E × E × CommitmentEquivalenceProof F)) → ℚ)
    (v : Fin n) (H : List Entry → F) (K : PublicKey E)
    (out : Option (Ciphertext E × E × CommitmentEquivalenceProof F)) : ℚ :=
  mean fun tapes : Fin n → Fin 5 → F => guess H K fun i =>
    if i = v then out
    else equivalenceOutput (B.withHash H) K base t (if i < v then values' K i else values K i) (List.ofFn (tapes i))

/-- Values and, at the end, the sum of their squares. -/
def withSumOfSquares {o : ℕ} (values : Fin o → F) : Fin (o + 1) → F :=
  Fin.snoc values (∑ i, values i * values i)

/-- The game for sum-of-squares proofs: the values and the sum of their squares are encrypted, and the attacker sees the
ciphertexts, the proof and all of the random hash function. -/
noncomputable def sumSqGame (B : Backend F E) (D : Finset (List Entry)) (H₀ : List Entry → F) {o : ℕ} (t : Transcript)
    (values : PublicKey E → Fin o → F)
    (guess : (List Entry → F) → PublicKey E → (Fin (o + 1) → Ciphertext E) → Option (SumOfSquaresProof F) → ℚ) : ℚ :=
  mean fun k : F =>
    match Keypair.generate B.withTape [k] with
    | none => 0
    | some (keypair, _) =>
      let K := keypair.publicKey
      meanHash D H₀ fun H => mean fun rs : Fin (o + 1) → F => mean fun tape : Fin (o * 2 + 1) → F =>
        let cts : Fin (o + 1) → CiphertextWithValue F E := fun i =>
          (CiphertextWithValue.new B.withTape (withSumOfSquares (values K) i) K [rs i]).1
        guess H K (fun i => (cts i).ciphertext)
          ((SumOfSquaresProof.new (B.withHash H).withTape (List.ofFn fun i : Fin o => cts i.castSucc) (cts (Fin.last o)) K t
            (List.ofFn tape)).map Prod.fst)

/-- The attacker with a simulated proof for given ciphertexts. -/
noncomputable def simulatedSumSq (B : Backend F E) (D : Finset (List Entry)) (H₀ : List Entry → F) {o : ℕ}
    (t : Transcript)
    (guess : (List Entry → F) → PublicKey E → (Fin (o + 1) → Ciphertext E) → Option (SumOfSquaresProof F) → ℚ)
    (K : PublicKey E) (cts : Fin (o + 1) → Ciphertext E) : ℚ :=
  mean fun p : SumSqScalars F o => meanHash D H₀ fun H =>
    guess (program H (sumSqPoint (B.withHash H) K (List.ofFn fun i : Fin o => cts i.castSucc) (cts (Fin.last o)) t
      (makeSumSq p))) K cts (some (makeSumSq p))

end ElasticElgamal.Spec
