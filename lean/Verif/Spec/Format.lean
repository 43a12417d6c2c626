import Verif.Model.Format

/-!
# Specifications: text output
-/

set_option autoImplicit false

namespace ElasticElgamal.Spec

variable {F E : Type} [Field F] [AddCommGroup E] [Module F E]

/-- The public parts of the keys in a polynomial. -/
def publicKeys (keys : List (Keypair F E)) : List (PublicKey E) := keys.map fun k => k.publicKey

/-- Dealers that differ only in secrets. -/
def SameDealer (a b : Dealer F E) : Prop :=
  a.params = b.params ∧ publicKeys a.polynomial = publicKeys b.polynomial ∧ a.proofOfPossession = b.proofOfPossession

/-- States of ring proof builders that callers reach: all responses are 0 at first (`src/keys/impls.rs:84`,
`src/app/choice.rs:322`, `src/proofs/range.rs:496`), then values are added. -/
inductive BuilderReach [DecidableEq E] (B : Backend F E) : RingProofBuilder B → Prop where
  | new (receiver : PublicKey E) (n : ℕ) (t : Transcript) (rng : B.Rng) :
    BuilderReach B (RingProofBuilder.new B receiver (List.replicate n 0) t rng)
  | add (b b' : RingProofBuilder B) (ct : ExtendedCiphertext F E) (values : List E) (index : ℕ) :
    BuilderReach B b → b.addPrecomputedValue B ct values index = some b' → BuilderReach B b'

/-- An error message ends with the message of another error. -/
def Explains (text inner : Bytes) : Prop := ∃ context, text = context ++ asciiBytes ": " ++ inner

end ElasticElgamal.Spec
