import Verif.Spec.Privacy
import Verif.Spec.Ring

/-!
# Specifications: games about values encrypted with ring proofs

For any number of rings, each with its own admissible values, and for booleans (`encrypt_bool`).
-/

set_option autoImplicit false

namespace ElasticElgamal.Spec

variable {F E : Type} [Field F] [Fintype F] [AddCommGroup E] [Module F E]

/-- Number of admissible values in all rings. -/
def ringItems {n : ℕ} (values : Fin n → List E) : ℕ := ((List.ofFn values).map List.length).sum

/-- Number of random scalars read by the prover: one per ciphertext and one per admissible value. -/
def ringDraws {n : ℕ} (values : Fin n → List E) : ℕ := n + ringItems values

/-- Ciphertexts and proof for given random scalars: one call of `add_value` for each ring, then `build`. -/
def ringOutput [DecidableEq F] [DecidableEq E] (B : Backend F E) (K : PublicKey E) {n : ℕ} (values : Fin n → List E)
    (t : Transcript) (index : Fin n → ℕ) (tape : List F) : Option (List (Ciphertext E) × RingProof F) := do
  let buffer := List.replicate (ringItems values) (0 : F)
  let (cts, builder) ← runRingSteps B.withTape (List.ofFn fun i => ⟨none, values i, index i⟩)
    (RingProofBuilder.new B.withTape K buffer t tape)
  let (commonChallenge, ringResponses, _, _) ← builder.build B.withTape
  return (cts, { commonChallenge, ringResponses })

/-- The scalars in a ring proof. -/
abbrev RingScalars (F : Type) {E : Type} {n : ℕ} (values : Fin n → List E) : Type := F × (Fin (ringItems values) → F)

/-- The output made of given ciphertexts and scalars. -/
def makeRings {n : ℕ} {values : Fin n → List E} (cts : Fin n → Ciphertext E) (p : RingScalars F values) :
    List (Ciphertext E) × RingProof F :=
  (List.ofFn cts, ⟨p.1, List.ofFn p.2⟩)

/-- The encrypted admissible value. -/
def selectedValue {n : ℕ} (values : Fin n → List E) (index : Fin n → ℕ) (j : Fin n) : E := (values j).getD (index j) 0

/-- The game: a key is generated, the values to encrypt are chosen from the public key, and the attacker sees the
ciphertexts with the ring proof and all of the random hash function. -/
noncomputable def ringGame [DecidableEq F] [DecidableEq E] (B : Backend F E) (D : Finset (List Entry))
    (H₀ : List Entry → F) {n : ℕ} (values : Fin n → List E) (t : Transcript) (index : PublicKey E → Fin n → ℕ)
    (guess : (List Entry → F) → PublicKey E → Option (List (Ciphertext E) × RingProof F) → ℚ) : ℚ :=
  mean fun k : F =>
    match Keypair.generate B.withTape [k] with
    | none => 0
    | some (keypair, _) => meanHash D H₀ fun H => mean fun tape : Fin (ringDraws values) → F =>
      guess H keypair.publicKey
        (ringOutput (B.withHash H) keypair.publicKey values t (index keypair.publicKey) (List.ofFn tape))

/-- The attacker with a simulated proof for given ciphertexts: the scalars of the proof are chosen at random, then the
hash function is changed such that the proof is valid. -/
noncomputable def simulatedRings [DecidableEq F] (B : Backend F E) (D : Finset (List Entry)) (H₀ : List Entry → F)
    {n : ℕ} (values : Fin n → List E) (t : Transcript)
    (guess : (List Entry → F) → PublicKey E → Option (List (Ciphertext E) × RingProof F) → ℚ)
    (K : PublicKey E) (cts : Fin n → Ciphertext E) : ℚ :=
  mean fun p : RingScalars F values => meanHash D H₀ fun H =>
    guess (program H (ringPoint (B.withHash H) K (List.ofFn values) (List.ofFn cts) t (makeRings cts p).2)) K
      (some (makeRings cts p))

/-- The game for `PublicKey::encrypt_bool`, with three random scalars. -/
noncomputable def boolGame [DecidableEq F] [DecidableEq E] (B : Backend F E) (D : Finset (List Entry))
    (H₀ : List Entry → F) (value : PublicKey E → Bool)
    (guess : (List Entry → F) → PublicKey E → Option (Ciphertext E × RingProof F) → ℚ) : ℚ :=
  mean fun k : F =>
    match Keypair.generate B.withTape [k] with
    | none => 0
    | some (keypair, _) => meanHash D H₀ fun H => mean fun tape : Fin 3 → F =>
      guess H keypair.publicKey ((keypair.publicKey.encryptBool (B.withHash H).withTape (value keypair.publicKey)
        (List.ofFn tape)).map Prod.fst)

/-- The attacker against a boolean with a simulated proof. -/
noncomputable def simulatedBool [DecidableEq F] (B : Backend F E) (D : Finset (List Entry)) (H₀ : List Entry → F)
    (guess : (List Entry → F) → PublicKey E → Option (Ciphertext E × RingProof F) → ℚ)
    (K : PublicKey E) (cts : Fin 1 → Ciphertext E) : ℚ :=
  mean fun p : F × (Fin 2 → F) => meanHash D H₀ fun H =>
    let proof : RingProof F := ⟨p.1, [p.2 0, p.2 1]⟩
    guess (program H (ringPoint (B.withHash H) K [[0, B.gen]] [cts 0] (Transcript.new "bool_encryption") proof)) K
      (some (cts 0, proof))

end ElasticElgamal.Spec
