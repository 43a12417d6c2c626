import Verif.Model.Encryption

/-!
# Specifications for keys and ciphertexts

Small independent definitions used in theorem statements.
-/

set_option autoImplicit false

namespace ElasticElgamal.Spec

variable {F E : Type} [Field F] [AddCommGroup E] [Module F E]

/-- `c` is an ElGamal encryption of the group element `m` for the secret key `k`:
`c = ([r]G, m + [r][k]G)` for some randomness `r`. -/
def Encrypts (B : Backend F E) (k : F) (c : Ciphertext E) (m : E) : Prop :=
  ∃ r : F, c.random = r • B.gen ∧ c.blinded = m + r • k • B.gen

/-- A public key object represents the secret `k`: the element is `[k]G` and the cached bytes are the
encoding of the element. -/
def KeyOf (B : Backend F E) (pk : PublicKey E) (k : F) : Prop :=
  pk.element = k • B.gen ∧ B.serElem (k • B.gen) = some pk.bytes

/-- The ciphertexts `cts` encrypt scalars `x₁, …, xₙ` and `z` encrypts `x₁² + … + xₙ²`. -/
def EncryptsSumOfSquares (B : Backend F E) (k : F) (cts : List (Ciphertext E)) (z : Ciphertext E) :
    Prop :=
  ∃ xs : List F, List.Forall₂ (fun ct x => Encrypts B k ct (x • B.gen)) cts xs ∧
    Encrypts B k z ((xs.map fun x => x * x).sum • B.gen)

/-- Arithmetic expressions over ciphertexts: every operator the crate exposes on `Ciphertext`. -/
inductive CtExpr (F : Type) where
  | leaf (i : ℕ)
  | zero
  | nonBlinded (v : F)
  | add (a b : CtExpr F)
  | sub (a b : CtExpr F)
  | neg (a : CtExpr F)
  | mul (a : CtExpr F) (k : F)
  | mulU64 (a : CtExpr F) (k : ℕ)

/-- Evaluation with the operations of the crate. -/
def CtExpr.evalCiphertext (B : Backend F E) (env : ℕ → Ciphertext E) : CtExpr F → Ciphertext E
  | .leaf i => env i
  | .zero => Ciphertext.zero
  | .nonBlinded v => Ciphertext.nonBlinded B v
  | .add a b => (a.evalCiphertext B env).add (b.evalCiphertext B env)
  | .sub a b => (a.evalCiphertext B env).sub (b.evalCiphertext B env)
  | .neg a => (a.evalCiphertext B env).neg
  | .mul a k => (a.evalCiphertext B env).mul k
  | .mulU64 a k => Ciphertext.mulU64 F (a.evalCiphertext B env) k

/-- Evaluation of the same expression on plaintext group elements. -/
def CtExpr.evalPlain (B : Backend F E) (env : ℕ → E) : CtExpr F → E
  | .leaf i => env i
  | .zero => 0
  | .nonBlinded v => v • B.gen
  | .add a b => a.evalPlain B env + b.evalPlain B env
  | .sub a b => a.evalPlain B env - b.evalPlain B env
  | .neg a => -(a.evalPlain B env)
  | .mul a k => k • a.evalPlain B env
  | .mulU64 a k => (k : F) • a.evalPlain B env

/-- The same on scalar plaintexts. -/
def CtExpr.evalScalar (env : ℕ → F) : CtExpr F → F
  | .leaf i => env i
  | .zero => 0
  | .nonBlinded v => v
  | .add a b => a.evalScalar env + b.evalScalar env
  | .sub a b => a.evalScalar env - b.evalScalar env
  | .neg a => -(a.evalScalar env)
  | .mul a k => k * a.evalScalar env
  | .mulU64 a k => k * a.evalScalar env

/-- Expressions over keys built from the operators available on both secret and public keys. -/
inductive KeyExpr (F : Type) where
  | leaf (secret : F)
  | add (a b : KeyExpr F)
  | mul (a : KeyExpr F) (k : F)
  | mulU64 (a : KeyExpr F) (k : ℕ)

/-- Evaluation with the operators of `SecretKey`. -/
def KeyExpr.secret : KeyExpr F → SecretKey F
  | .leaf s => s
  | .add a b => SecretKey.add a.secret b.secret
  | .mul a k => SecretKey.mul a.secret k
  | .mulU64 a k => SecretKey.mul a.secret (k : F)

/-- Evaluation with the operators of `PublicKey` (`none` = panic). -/
def KeyExpr.publicKey (B : Backend F E) : KeyExpr F → Option (PublicKey E)
  | .leaf s => PublicKey.ofSecret B s
  | .add a b => do PublicKey.add B (← a.publicKey B) (← b.publicKey B)
  | .mul a k => do PublicKey.mul B (← a.publicKey B) k
  | .mulU64 a k => do PublicKey.mulU64 B (← a.publicKey B) k

/-- All ways to obtain a `PublicKey` through the API. -/
inductive Constructed [DecidableEq E] (B : Backend F E) : PublicKey E → Prop where
  | fromBytes {b : Bytes} {pk : PublicKey E} (h : PublicKey.fromBytes B b = .ok pk) :
      Constructed B pk
  | ofSecret {s : F} {pk : PublicKey E} (h : PublicKey.ofSecret B s = some pk) : Constructed B pk
  | fromElement {e : E} {pk : PublicKey E} (h : PublicKey.fromElement B e = some pk) :
      Constructed B pk
  | add {a b pk : PublicKey E} (ha : Constructed B a) (hb : Constructed B b)
      (h : PublicKey.add B a b = some pk) : Constructed B pk
  | mul {a pk : PublicKey E} {k : F} (ha : Constructed B a) (h : PublicKey.mul B a k = some pk) :
      Constructed B pk
  | mulU64 {a pk : PublicKey E} {k : ℕ} (ha : Constructed B a)
      (h : PublicKey.mulU64 B a k = some pk) : Constructed B pk

end ElasticElgamal.Spec
