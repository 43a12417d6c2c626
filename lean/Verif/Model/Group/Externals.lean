import Verif.Model.Base
import Mathlib.Algebra.Field.ZMod

/-!
# What the group implementations take from other crates

The implementations of the `Group` trait in `src/group` turn bytes of Merlin transcripts and of RNGs into scalars;
the sources of bytes themselves are arbitrary functions here.
-/

set_option autoImplicit false

namespace ElasticElgamal

/-- Functions of external crates used by the group implementations. -/
structure Externals where
  /-- `merlin::Transcript::challenge_bytes`: the bytes extracted from a transcript with the given log (which includes
  the label of the extraction), as a function of the requested length -/
  prf : List Entry → Nat → Bytes
  /-- state of a `CryptoRng` -/
  Rng : Type
  /-- `rng.fill_bytes` for a buffer of the given length -/
  fill : Nat → Rng → Bytes × Rng
  /-- SHA-256 -/
  sha256 : Bytes → Bytes
  /-- build profile, as in `Backend` -/
  debug : Bool

/-- Lengths of the byte strings produced by the external functions. -/
structure Externals.Ok (X : Externals) : Prop where
  prf_length : ∀ log k, (X.prf log k).length = k
  fill_length : ∀ k r, (X.fill k r).1.length = k
  sha256_length : ∀ b, (X.sha256 b).length = 32

/-- Big-endian bytes (`FieldBytes` of the curves in RustCrypto). -/
def beBytes (k n : Nat) : Bytes := (leBytes k n).reverse

/-- Big-endian value of a byte string. -/
def beValue (b : Bytes) : Nat := leValue b.reverse

end ElasticElgamal
