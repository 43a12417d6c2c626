import Verif.Model.Examples
import Verif.Model.Proofs.Commitment

/-!
# The example program for commitment equivalence proofs

Models `examples/equivalence.rs`. Simplifications: the external crate `bulletproofs` is a structure of arbitrary
functions; printing and JSON are not modelled, except that the program returns what it prints; `CompatRng` forwards to the
generator, so that both crates use one state; the generators for 64 bits (`BulletproofGens::new(64, 1)`) are a part of
the functions of `Bulletproofs`.
-/

set_option autoImplicit false

namespace ElasticElgamal.Examples

open ElasticElgamal

/-- What the example uses of `bulletproofs` (with its own version of the curve crate): types of scalars, points and
range proofs, `Scalar::from_bytes_mod_order`, `RistrettoPoint::compress`, the blinding base of `PedersenGens::default()`,
`RangeProof::prove_single_with_rng` with 64 bits (the compressed commitment is returned; `none` is an error), and
`RangeProof::verify_single`. -/
structure Bulletproofs (Rng : Type) where
  Scalar : Type
  Point : Type
  Proof : Type
  scalarFromBytes : Bytes → Scalar
  compress : Point → Bytes
  blinding : Point
  proveSingle : Transcript → Nat → Scalar → Rng → Option ((Proof × Bytes) × Transcript × Rng)
  verifySingle : Proof → Transcript → Bytes → Bool × Transcript

variable {F E : Type} [Field F] [AddCommGroup E] [Module F E] [DecidableEq F]
variable (B : Backend F E) (bp : Bulletproofs B.Rng)

/-- `examples/equivalence.rs:22-24` `downgrade_scalar`. -/
def downgradeScalar (x : F) : bp.Scalar := bp.scalarFromBytes (B.serScalar x)

/-- `examples/equivalence.rs:26-29` `upgrade_point`; decompression is `deserialize_element` of the Ristretto backend
(`src/group/ristretto.rs:92-100`). -/
def upgradePoint (x : bp.Point) : Option E := B.deElem (bp.compress x)

/-- Values printed by the example. -/
structure EquivalenceOutput where
  value : Nat
  receiver : PublicKey E
  ciphertext : Ciphertext E
  commitment : Bytes
  equiv : CommitmentEquivalenceProof F
  range : bp.Proof

/-- `examples/equivalence.rs:101-121`: both proofs are verified with one transcript. -/
def verifyEquivalence (o : EquivalenceOutput B bp) (commitment : E) : Option Unit := do
  let transcript := Transcript.new "equiv_and_bulletproof"
  match ← o.equiv.verify B o.ciphertext o.receiver commitment (← upgradePoint B bp bp.blinding) transcript with
  | (.error _, _) => none
  | (.ok _, transcript) =>
    match bp.verifySingle o.range transcript o.commitment with
    | (false, _) => none
    | (true, _) => some ()

/-- `examples/equivalence.rs:58-60`: the value to encrypt; `none` is a panic. -/
def parseValue : Option (List Char) → Option Nat
  | none => some 424242
  | some arg => parseUsize arg

/-- `examples/equivalence.rs:55-123` `main`, for the optional argument of the program. -/
def equivalence (arg : Option (List Char)) (rng : B.Rng) : Option (EquivalenceOutput B bp × B.Rng) := do
  let (keypair, rng) ← Keypair.generate B rng
  let receiver := keypair.publicKey
  let value ← parseValue arg
  let (ciphertext, rng) := CiphertextWithValue.newU64 B value receiver rng
  let ciphertext := ciphertext.generalize
  let (blinding, rng) := SecretKey.generate B rng
  let transcript := Transcript.new "equiv_and_bulletproof"
  let ((equiv, commitment), transcript, rng) ← CommitmentEquivalenceProof.new B ciphertext receiver blinding
    (← upgradePoint B bp bp.blinding) transcript rng
  let ((range, sameCommitment), _, rng) ← bp.proveSingle transcript value (downgradeScalar B bp blinding) rng
  guard ((← B.serElem commitment) = sameCommitment)
  let output := ⟨value, receiver, ciphertext.ciphertext, sameCommitment, equiv, range⟩
  verifyEquivalence B bp output commitment
  return (output, rng)

end ElasticElgamal.Examples
