import Mathlib.Algebra.Module.Basic
import Mathlib.Algebra.Field.Defs

/-!
# Backend, transcripts, randomness, byte strings

Models `src/group/mod.rs` (traits `ScalarOps`, `ElementOps`, `Group`) and the transcript helpers in
`src/proofs/mod.rs`.  `none : Option α` always means "the Rust call panics".
-/

set_option autoImplicit false

namespace ElasticElgamal

/-- `Vec<u8>` / `&[u8]`. -/
abbrev Bytes := List UInt8

/-- ASCII byte-string literals `b"..."` used as labels throughout the crate.
Simplification: labels are ASCII, so a byte per character. -/
def asciiBytes (s : String) : Bytes := s.toList.map fun c => UInt8.ofNat c.toNat

/-- `k` little-endian bytes of `n` (`u64::to_le_bytes` for `k = 8`). -/
def leBytes : Nat → Nat → Bytes
  | 0, _ => []
  | k + 1, n => UInt8.ofNat (n % 256) :: leBytes k (n / 256)

/-- Little-endian value of a byte string. -/
def leValue : Bytes → Nat
  | [] => 0
  | b :: bs => b.toNat + 256 * leValue bs

/-- One operation on a Merlin transcript: appending a labelled message, or extracting a challenge
(which also mutates the sponge state). Models the external crate `merlin`; the framing of Merlin
(label, length, data) is unambiguous, hence a log of structured entries. -/
inductive Entry where
  | msg (label : String) (data : Bytes)
  | chal (label : String)
  deriving DecidableEq

/-- `merlin::Transcript`: the log of everything that was fed to it, oldest first. -/
structure Transcript where
  log : List Entry
  deriving DecidableEq

namespace Transcript

/-- `merlin::Transcript::append_message`. -/
def appendMessage (t : Transcript) (label : String) (data : Bytes) : Transcript :=
  ⟨t.log ++ [.msg label data]⟩

/-- `merlin::Transcript::append_u64` (8 bytes little-endian). -/
def appendU64 (t : Transcript) (label : String) (x : Nat) : Transcript :=
  t.appendMessage label (leBytes 8 x)

/-- `merlin::Transcript::new(label)`: the constructor appends the label as a `dom-sep` message. -/
def new (label : String) : Transcript :=
  (⟨[]⟩ : Transcript).appendMessage "dom-sep" (asciiBytes label)

/-- `src/proofs/mod.rs:40-42` `TranscriptForGroup::start_proof`. -/
def startProof (t : Transcript) (label : String) : Transcript :=
  t.appendMessage "dom-sep" (asciiBytes label)

/-- `src/proofs/mod.rs:44-46` `TranscriptForGroup::append_element_bytes`. -/
def appendElementBytes (t : Transcript) (label : String) (bytes : Bytes) : Transcript :=
  t.appendMessage label bytes

end Transcript

/-- Everything the crate takes from the outside: an implementation of the `Group` trait
(`src/group/mod.rs:65-255`), the Merlin / ChaCha challenge derivation
(`src/group/mod.rs:98-103`, `src/proofs/mod.rs:54-56`), an RNG, SHA-256, and the build profile.

`F` is the scalar type, `E` the element type; their arithmetic is the `Field` / `Module` structure.
`From<u64>` for scalars is the natural number cast. -/
structure Backend (F E : Type) where
  /-- `ElementOps::generator` (`src/group/mod.rs:153`) -/
  gen : E
  /-- `ScalarOps::SCALAR_SIZE` (`src/group/mod.rs:83`) -/
  scalarSize : Nat
  /-- `ElementOps::ELEMENT_SIZE` (`src/group/mod.rs:144`) -/
  elementSize : Nat
  /-- `ScalarOps::serialize_scalar` (`src/group/mod.rs:122`) -/
  serScalar : F → Bytes
  /-- `ScalarOps::deserialize_scalar` (`src/group/mod.rs:127`) -/
  deScalar : Bytes → Option F
  /-- `ElementOps::serialize_element` (`src/group/mod.rs:157`). `none` = panic: the
  implementation in `src/group/generic.rs:87-90` copies a SEC1 encoding (1 byte for the identity)
  into a buffer of fixed size with `copy_from_slice`. -/
  serElem : E → Option Bytes
  /-- `ElementOps::deserialize_element` (`src/group/mod.rs:162`) -/
  deElem : Bytes → Option E
  /-- Challenge scalar extracted from a transcript with the given log (Merlin PRF followed by
  `ScalarOps::scalar_from_random_bytes`, `src/group/mod.rs:98-103`): an arbitrary function. -/
  challenge : List Entry → F
  /-- state of a `CryptoRng` -/
  Rng : Type
  /-- `ScalarOps::generate_scalar` (`src/group/mod.rs:87`) -/
  genScalar : Rng → F × Rng
  /-- `rng.fill_bytes` on a 32-byte buffer (used in `src/dkg.rs:207-208`) -/
  fill32 : Rng → Bytes × Rng
  /-- SHA-256 (external crate `sha2`) -/
  sha256 : Bytes → Bytes
  /-- `true` for builds with debug assertions and overflow checks (Cargo `dev` profile),
  `false` for the `release` profile -/
  debug : Bool

variable {F E : Type}

namespace Backend

section Ops
variable [Field F] [AddCommGroup E] [Module F E] (B : Backend F E)

/-- `Group::mul_generator`, `Group::vartime_mul_generator` (`src/group/mod.rs:191-205`). -/
def mulGen (k : F) : E := k • B.gen

/-- `Group::multi_mul` / `vartime_multi_mul` default (`src/group/mod.rs:214-224, 248-254`):
zip the iterators (stopping at the shorter one) and fold from the identity. -/
def multiMul (scalars : List F) (elements : List E) : E :=
  (scalars.zip elements).foldl (fun output se => output + se.1 • se.2) 0

/-- `Group::vartime_double_mul_generator` (`src/group/mod.rs:232-238`). -/
def doubleMulGen (k : F) (kElement : E) (r : F) : E := k • kElement + r • B.gen

/-- `ScalarOps::invert_scalar` (`src/group/mod.rs:107`), "guaranteed to be non-zero" by the caller;
`Generic` unwraps (`src/group/generic.rs:47`), so zero is a panic. -/
def invertScalar [DecidableEq F] (x : F) : Option F := if x = 0 then none else some x⁻¹

/-- `ScalarOps::invert_scalars` default (`src/group/mod.rs:114-118`). -/
def invertScalars [DecidableEq F] (xs : List F) : Option (List F) := xs.mapM invertScalar

end Ops

variable (B : Backend F E)

/-- `src/proofs/mod.rs:48-52` `append_element`; panics when serialization does. -/
def appendElement (t : Transcript) (label : String) (e : E) : Option Transcript := do
  let output ← B.serElem e
  return t.appendElementBytes label output

/-- `src/proofs/mod.rs:54-56` `challenge_scalar`. -/
def challengeScalar (t : Transcript) (label : String) : F × Transcript :=
  (B.challenge (t.log ++ [.chal label]), ⟨t.log ++ [.chal label]⟩)

/-- `debug_assert!`: panics in debug builds only. -/
def debugAssert (p : Prop) [Decidable p] : Option Unit :=
  if B.debug && !(decide p) then none else some ()

/-- Contract of the `Group` trait (`src/group/mod.rs:65-183`): scalars form a (prime) field, elements
form a group of prime order generated by `generator()`, the codecs are fixed-size and decoding inverts
encoding; scalar encodings are canonical (`from_canonical_bytes` in `ristretto.rs` / `curve25519.rs`,
`PrimeField::from_repr` in `generic.rs`). -/
structure Lawful [Field F] [AddCommGroup E] [Module F E] (B : Backend F E) : Prop where
  gen_ne_zero : B.gen ≠ 0
  gen_spans : ∀ e : E, ∃ k : F, e = k • B.gen
  scalarSize_pos : 0 < B.scalarSize
  serScalar_length : ∀ s, (B.serScalar s).length = B.scalarSize
  deScalar_serScalar : ∀ s, B.deScalar (B.serScalar s) = some s
  serScalar_deScalar : ∀ b s, b.length = B.scalarSize → B.deScalar b = some s → B.serScalar s = b
  serElem_length : ∀ e b, B.serElem e = some b → b.length = B.elementSize
  deElem_serElem : ∀ e b, B.serElem e = some b → B.deElem b = some e
  serElem_ne_zero : ∀ e : E, e ≠ 0 → ∃ b, B.serElem e = some b
  sha256_length : ∀ b, (B.sha256 b).length = 32
  fill32_length : ∀ r, (B.fill32 r).1.length = 32

/-- Every element, including the identity, has a fixed-size encoding (Ristretto, Curve25519). -/
def TotalSer (B : Backend F E) : Prop := ∀ e, ∃ b, B.serElem e = some b

/-- SEC1-style encodings (`src/group/generic.rs:87-90`): serialization panics exactly on the identity. -/
def Sec1Ser [Zero E] (B : Backend F E) : Prop := ∀ e, B.serElem e = none ↔ e = 0

/-- Decoding accepts canonical encodings only: true for Ristretto (RFC 9496), and for SEC1 curves whose decoder
does not support compact points; false for `Curve25519Subgroup` because of the identity, and for SEC1 curves with
compact points (see `Verif/Props/GroupImpl.lean`). -/
def CanonicalElems (B : Backend F E) : Prop :=
  ∀ b e, b.length = B.elementSize → B.deElem b = some e → B.serElem e = some b

/-- Decoding accepts only canonical encodings of elements other than the identity. -/
def CanonicalNonzero [Zero E] (B : Backend F E) : Prop :=
  ∀ b e, b.length = B.elementSize → e ≠ 0 → B.deElem b = some e → B.serElem e = some b

/-- `u64` values are distinct scalars: the group order exceeds `2^64`. -/
def U64Inj (F : Type) [Field F] : Prop :=
  ∀ a b : Nat, a < 2 ^ 64 → b < 2 ^ 64 → (a : F) = (b : F) → a = b

end Backend

/-! ## `u64` arithmetic -/

/-- `u64` addition: overflow panics in debug builds and wraps in release builds. -/
def addU64 (debug : Bool) (a b : Nat) : Option Nat :=
  if a + b < 2 ^ 64 then some (a + b) else if debug then none else some ((a + b) % 2 ^ 64)

/-- `u64` subtraction. -/
def subU64 (debug : Bool) (a b : Nat) : Option Nat :=
  if b ≤ a then some (a - b) else if debug then none else some ((a + 2 ^ 64 - b) % 2 ^ 64)

/-- `u64` multiplication. -/
def mulU64 (debug : Bool) (a b : Nat) : Option Nat :=
  if a * b < 2 ^ 64 then some (a * b) else if debug then none else some (a * b % 2 ^ 64)

end ElasticElgamal
