import Verif.Spec.Privacy
import Verif.Spec.Voting

/-!
# Specifications: games about values encrypted with range proofs and about quadratic-voting ballots
-/

set_option autoImplicit false

namespace ElasticElgamal.Spec

variable {F E : Type} [Field F] [Fintype F] [AddCommGroup E] [Module F E]

/-! ## Values in a range -/

/-- Number of rings, i.e., of ciphertexts the value is made of. -/
def rangeRings (range : PreparedRange E) : ℕ := range.inner.rings.length

/-- Number of admissible values in all rings. -/
def rangeItems (range : PreparedRange E) : ℕ := (range.inner.rings.map (·.size)).sum

/-- Number of random scalars read by `RangeProof::new`: one per ciphertext and one per admissible value. -/
def rangeDraws (range : PreparedRange E) : ℕ := rangeRings range + rangeItems range

/-- The part of the value that is encrypted for one of the rings. -/
def ringMessage (B : Backend F E) (range : PreparedRange E) (value : ℕ) (j : Fin (rangeRings range)) : E :=
  (((((range.decompose B.debug value).getD []).getD j 0) * (range.inner.rings.get j).step : ℕ) : F) • B.gen

/-- Output of `RangeProof::new` for given random scalars. -/
def rangeOutput [DecidableEq F] [DecidableEq E] (B : Backend F E) (K : PublicKey E) (range : PreparedRange E)
    (t : Transcript) (value : ℕ) (tape : List F) : Option (Ciphertext E × RangeProof F E) :=
  (RangeProof.new B.withTape K range value t tape).map fun out => (out.1.1.ciphertext, out.1.2)

/-- The scalars in a range proof. -/
abbrev RangeScalars (F : Type) {E : Type} (range : PreparedRange E) : Type := F × (Fin (rangeItems range) → F)

/-- The ciphertext and proof made of given ciphertexts for the rings and given scalars. -/
def makeRange {range : PreparedRange E} (cts : Fin (rangeRings range) → Ciphertext E) (p : RangeScalars F range) :
    Ciphertext E × RangeProof F E :=
  (⟨((List.ofFn cts).map (·.random)).sum, ((List.ofFn cts).map (·.blinded)).sum⟩,
    ⟨(List.ofFn cts).dropLast, ⟨p.1, List.ofFn p.2⟩⟩)

/-- The hash value with which verification of a range proof succeeds. -/
def rangePoint [DecidableEq F] (B : Backend F E) (K : PublicKey E) (range : PreparedRange E) (t : Transcript)
    (out : Ciphertext E × RangeProof F E) : List (List Entry × F) :=
  match out.2.verify B K range out.1 t with
  | none => []
  | some (_, t') => [(t'.log, out.2.inner.commonChallenge)]

/-- The game: a key is generated, the value is chosen from the public key, and the attacker sees the ciphertext with its
range proof and all of the random hash function. -/
noncomputable def rangeGame [DecidableEq F] [DecidableEq E] (B : Backend F E) (D : Finset (List Entry))
    (H₀ : List Entry → F) (range : PreparedRange E) (t : Transcript) (value : PublicKey E → ℕ)
    (guess : (List Entry → F) → PublicKey E → Option (Ciphertext E × RangeProof F E) → ℚ) : ℚ :=
  mean fun k : F =>
    match Keypair.generate B.withTape [k] with
    | none => 0
    | some (keypair, _) => meanHash D H₀ fun H => mean fun tape : Fin (rangeDraws range) → F =>
      guess H keypair.publicKey
        (rangeOutput (B.withHash H) keypair.publicKey range t (value keypair.publicKey) (List.ofFn tape))

/-- The attacker with a simulated proof for given ciphertexts of the rings: the scalars of the proof are chosen at random,
then the hash function is changed such that the proof is valid. -/
noncomputable def simulatedRange [DecidableEq F] (B : Backend F E) (D : Finset (List Entry)) (H₀ : List Entry → F)
    (range : PreparedRange E) (t : Transcript)
    (guess : (List Entry → F) → PublicKey E → Option (Ciphertext E × RangeProof F E) → ℚ)
    (K : PublicKey E) (cts : Fin (rangeRings range) → Ciphertext E) : ℚ :=
  mean fun p : RangeScalars F range => meanHash D H₀ fun H =>
    guess (program H (rangePoint (B.withHash H) K range t (makeRange cts p))) K (some (makeRange cts p))

/-- The game for `PublicKey::encrypt_range`. -/
noncomputable def encryptRangeGame [DecidableEq F] [DecidableEq E] (B : Backend F E) (D : Finset (List Entry))
    (H₀ : List Entry → F) (range : PreparedRange E) (value : PublicKey E → ℕ)
    (guess : (List Entry → F) → PublicKey E → Option (Ciphertext E × RangeProof F E) → ℚ) : ℚ :=
  mean fun k : F =>
    match Keypair.generate B.withTape [k] with
    | none => 0
    | some (keypair, _) => meanHash D H₀ fun H => mean fun tape : Fin (rangeDraws range) → F =>
      guess H keypair.publicKey ((keypair.publicKey.encryptRange (B.withHash H).withTape range
        (value keypair.publicKey) (List.ofFn tape)).map Prod.fst)

/-- The game with several values. -/
noncomputable def rangesGame [DecidableEq F] [DecidableEq E] (B : Backend F E) (D : Finset (List Entry))
    (H₀ : List Entry → F) (range : PreparedRange E) (t : Transcript) {n : ℕ} (values : PublicKey E → Fin n → ℕ)
    (guess : (List Entry → F) → PublicKey E → (Fin n → Option (Ciphertext E × RangeProof F E)) → ℚ) : ℚ :=
  mean fun k : F =>
    match Keypair.generate B.withTape [k] with
    | none => 0
    | some (keypair, _) => meanHash D H₀ fun H => mean fun tapes : Fin n → Fin (rangeDraws range) → F =>
      guess H keypair.publicKey fun v =>
        rangeOutput (B.withHash H) keypair.publicKey range t (values keypair.publicKey v) (List.ofFn (tapes v))

/-- An attacker against one value, made of an attacker against `n` values: the given ciphertext is number `v`, those
before and after are created from `values'` and `values`. -/
def embedRange [DecidableEq F] [DecidableEq E] (B : Backend F E) (range : PreparedRange E) (t : Transcript) {n : ℕ}
    (values values' : PublicKey E → Fin n → ℕ)
    (guess : (List Entry → F) → PublicKey E → (Fin n → Option (Ciphertext E × RangeProof F E)) → ℚ) (v : Fin n)
    (H : List Entry → F) (K : PublicKey E) (out : Option (Ciphertext E × RangeProof F E)) : ℚ :=
  mean fun tapes : Fin n → Fin (rangeDraws range) → F => guess H K fun i =>
    if i = v then out
    else rangeOutput (B.withHash H) K range t (if i < v then values' K i else values K i) (List.ofFn (tapes i))

end ElasticElgamal.Spec
