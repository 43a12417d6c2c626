import Verif.Spec.Privacy

/-!
# Specifications: changing ciphertexts
-/

set_option autoImplicit false

namespace ElasticElgamal.Spec

variable {F E : Type} [Field F] [AddCommGroup E] [Module F E]

/-- Encryptions of zero are added to ciphertexts, one after another with the same generator. -/
def reencryptAll (B : Backend F E) (K : PublicKey E) : List (Ciphertext E) → B.Rng → List (Ciphertext E)
  | [], _ => []
  | c :: cs, rng => c.add (K.encrypt B 0 rng).1 :: reencryptAll B K cs (K.encrypt B 0 rng).2

/-- A key is generated, the attacker chooses `n` ciphertexts from the public key and gets their re-encryptions. `guess`
is the probability that it outputs 1. -/
def mixGame [Fintype F] (B : Backend F E) {n : ℕ} (inputs : PublicKey E → Fin n → Ciphertext E)
    (guess : PublicKey E → (Fin n → Ciphertext E) → ℚ) : ℚ :=
  mean fun krs : F × (Fin n → F) =>
    match Keypair.generate B.withTape [krs.1] with
    | none => 0
    | some (keypair, _) => guess keypair.publicKey fun j =>
      ((reencryptAll B.withTape keypair.publicKey (List.ofFn (inputs keypair.publicKey)) (List.ofFn krs.2))[j.1]?).getD
        Ciphertext.zero

/-- A reduction from the decisional Diffie–Hellman problem `X`, `Y`, `Z` to distinguishing re-encryptions: `X` is the
public key, `Y` and `Z` are added to the ciphertext number `i`, random elements to the ciphertexts before it, and
encryptions of zero with known randomness to those after it. -/
def mixReduction [Fintype F] (B : Backend F E) {n : ℕ} (inputs : PublicKey E → Fin n → Ciphertext E)
    (guess : PublicKey E → (Fin n → Ciphertext E) → ℚ) (i : Fin n) (X Y Z : E) : ℚ :=
  match PublicKey.fromElement B X with
  | none => 0
  | some K => mean fun rs : (Fin n → F) × (Fin n → F) => guess K fun j =>
    (inputs K j).add
      (if j < i then ⟨rs.1 j • B.gen, rs.2 j • B.gen⟩
      else if j = i then ⟨Y, Z⟩
      else ⟨rs.1 j • B.gen, rs.1 j • X⟩)

/-- A chosen-ciphertext attack with one request: the attacker chooses two messages from the public key, gets an
encryption of one of them, and asks to decrypt another ciphertext. -/
structure CcaAttack (E : Type) where
  messages : PublicKey E → E × E
  request : PublicKey E → Ciphertext E → Ciphertext E
  guess : PublicKey E → Ciphertext E → E → Bool

/-- The probability that the attacker outputs 1 if the second or else the first message is encrypted. Requests to
decrypt the given ciphertext itself are not answered. -/
def ccaGame [Fintype F] [DecidableEq E] (B : Backend F E) (attack : CcaAttack E) (second : Bool) : ℚ :=
  mean fun kr : F × F =>
    match Keypair.generate B.withTape [kr.1, kr.2] with
    | none => 0
    | some (keypair, rng) =>
      let (m₀, m₁) := attack.messages keypair.publicKey
      let ct := (keypair.publicKey.encryptElement B.withTape (if second then m₁ else m₀) rng).1
      let request := attack.request keypair.publicKey ct
      if request = ct then 0
      else if attack.guess keypair.publicKey ct (SecretKey.decryptToElement keypair.secret request) then 1 else 0

end ElasticElgamal.Spec
