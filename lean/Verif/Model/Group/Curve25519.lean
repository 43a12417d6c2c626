import Verif.Model.Group.Externals
import Mathlib.Algebra.Module.ZMod
import Mathlib.Algebra.Group.Subgroup.Ker

/-!
# `Ristretto` and `Curve25519Subgroup`

Models `src/group/ristretto.rs:24-150` and `src/group/curve25519.rs:35-150`. The arithmetic of the curve is an
arbitrary commutative group `P` whose elements are identified by their affine coordinates on a twisted Edwards curve
`-x² + y² = 1 + d x² y²`; the codec of the `curve25519-dalek` crate (`CompressedEdwardsY`) is written out from its
documentation. The codec of Ristretto is an arbitrary pair of functions.

The sizes are parameters: `p = 2^255 - 19`, `ℓ = 2^252 + 277…`, `size = 32` for the real curve.
-/

set_option autoImplicit false

namespace ElasticElgamal.Curve25519

/-- `Scalar::from_bytes_mod_order_wide`: little-endian value modulo the group order. -/
def fromBytesModOrderWide (ℓ : ℕ) (b : Bytes) : ZMod ℓ := (leValue b : ZMod ℓ)

/-- `Scalar::from_canonical_bytes`. -/
def fromCanonicalBytes (ℓ : ℕ) (b : Bytes) : Option (ZMod ℓ) :=
  if leValue b < ℓ then some (leValue b : ZMod ℓ) else none

/-- `src/group/ristretto.rs:28-32`, `src/group/curve25519.rs:39-43` `generate_scalar`: twice as many bytes as a
scalar has, reduced. -/
def generateScalar (ℓ size : ℕ) (X : Externals) (rng : X.Rng) : ZMod ℓ × X.Rng :=
  let (bytes, rng) := X.fill (2 * size) rng
  (fromBytesModOrderWide ℓ bytes, rng)

/-- `src/group/ristretto.rs:34-38`, `src/group/curve25519.rs:45-49` `scalar_from_random_bytes`. -/
def scalarFromRandomBytes (ℓ size : ℕ) (X : Externals) (log : List Entry) : ZMod ℓ :=
  fromBytesModOrderWide ℓ (X.prf log (2 * size))

/-- Points of the curve (`EdwardsPoint`). -/
structure Edwards (p : ℕ) (P : Type) where
  /-- the coefficient of the curve -/
  d : ZMod p
  /-- encoded size; 32 bytes, and the top bit is the sign of `x` -/
  size : ℕ
  /-- affine coordinates of a point -/
  coords : P → ZMod p × ZMod p
  /-- the point with the given coordinates, if they satisfy the equation of the curve -/
  ofCoords : ZMod p → ZMod p → Option P
  /-- `FieldElement::sqrt_ratio_i(u, v)`: the even square root of `u / v`, if there is one -/
  sqrtRatio : ZMod p → ZMod p → Option (ZMod p)
  /-- `ED25519_BASEPOINT_POINT` -/
  basepoint : P
  /-- external functions -/
  ext : Externals

/-- What is assumed about the curve: the coordinates of points are the solutions of the equation, the identity is
`(0, 1)` and negation flips the sign of `x`, the points killed by the prime `ℓ` are the multiples of the base point, field arithmetic is right. -/
structure Edwards.Ok {p : ℕ} {P : Type} [AddCommGroup P] (ℓ : ℕ) (C : Edwards p P) : Prop where
  p_odd : p ≠ 2
  ℓ_odd : ℓ ≠ 2
  p_le : 2 * p ≤ 256 ^ C.size
  ℓ_le : ℓ ≤ 256 ^ C.size
  on_curve : ∀ e, -(C.coords e).1 ^ 2 + (C.coords e).2 ^ 2 =
    1 + C.d * (C.coords e).1 ^ 2 * (C.coords e).2 ^ 2
  ofCoords : ∀ x y e, C.ofCoords x y = some e ↔ C.coords e = (x, y)
  all_points : ∀ x y, -x ^ 2 + y ^ 2 = 1 + C.d * x ^ 2 * y ^ 2 → ∃ e, C.coords e = (x, y)
  denominator : ∀ y, C.d * y ^ 2 + 1 ≠ 0
  coords_zero : C.coords 0 = (0, 1)
  coords_neg : ∀ e, C.coords (-e) = (-(C.coords e).1, (C.coords e).2)
  sqrtRatio : ∀ u v r, v ≠ 0 → (C.sqrtRatio u v = some r ↔ v * r ^ 2 = u ∧ r.val % 2 = 0)
  base_ne_zero : C.basepoint ≠ 0
  base_order : ℓ • C.basepoint = 0
  spans : ∀ e : P, ℓ • e = 0 → ∃ k : ℕ, e = k • C.basepoint
  ext : C.ext.Ok

section
variable {p : ℕ} {P : Type} [AddCommGroup P] [DecidableEq P] (ℓ : ℕ) (C : Edwards p P)

/-- `EdwardsPoint::compress`: the `y` coordinate, with the parity of `x` in the top bit. -/
def compress (e : P) : Bytes :=
  let (x, y) := C.coords e
  leBytes C.size (y.val + (256 ^ C.size / 2) * (x.val % 2))

/-- `CompressedEdwardsY::decompress`: the top bit is the sign; the other bits are `y`, *not* required to be less
than `p`; `x` is the even square root of `(y² - 1) / (dy² + 1)`, negated if the sign bit is set. -/
def decompress (b : Bytes) : Option P := do
  let y : ZMod p := (leValue b % (256 ^ C.size / 2) : ℕ)
  let x ← C.sqrtRatio (y ^ 2 - 1) (C.d * y ^ 2 + 1)
  let x := if leValue b / (256 ^ C.size / 2) % 2 = 1 then -x else x
  C.ofCoords x y

/-- `src/group/curve25519.rs:104-118` `deserialize_element`. -/
def deserializeElement (b : Bytes) : Option P :=
  if b.length = C.size then
    (decompress C b).filter fun e => ℓ • e = 0
  else none

variable (P) in
/-- The elements of `Curve25519Subgroup`: the points killed by `ℓ` (`is_torsion_free`). -/
abbrev Subgroup : AddSubgroup P := (nsmulAddMonoidHom ℓ : P →+ P).ker

/-- Multiplication of a point of the subgroup by a scalar. -/
instance [Fact ℓ.Prime] : Module (ZMod ℓ) (Subgroup P ℓ) :=
  haveI : NeZero ℓ := ⟨(Fact.out : ℓ.Prime).ne_zero⟩
  AddCommGroup.zmodModule fun x => Subtype.ext x.2

/-- `src/group/curve25519.rs:35-150`: `impl ScalarOps, ElementOps, Group for Curve25519Subgroup`. Simplification: the
type of elements is the subgroup. (The Rust type is `EdwardsPoint`; points enter the crate through the generator and
`deserialize_element` only, and all operations stay in the subgroup.) -/
def backend (hb : ℓ • C.basepoint = 0) : Backend (ZMod ℓ) (Subgroup P ℓ) where
  gen := ⟨C.basepoint, hb⟩
  scalarSize := C.size
  elementSize := C.size
  serScalar s := leBytes C.size s.val
  deScalar := fromCanonicalBytes ℓ
  serElem e := some (compress C e.1)
  deElem b := do
    let e ← deserializeElement ℓ C b
    if h : ℓ • e = 0 then some ⟨e, h⟩ else none
  challenge := scalarFromRandomBytes ℓ C.size C.ext
  Rng := C.ext.Rng
  genScalar := generateScalar ℓ C.size C.ext
  fill32 := C.ext.fill 32
  sha256 := C.ext.sha256
  debug := C.ext.debug

end

/-- `RistrettoPoint` and its codec (RFC 9496). -/
structure Ristretto (E : Type) where
  size : ℕ
  basepoint : E
  /-- `RistrettoPoint::compress` -/
  compress : E → Bytes
  /-- `CompressedRistretto::decompress` -/
  decompress : Bytes → Option E
  ext : Externals

/-- Properties of Ristretto by RFC 9496: a group of prime order with a canonical codec. -/
structure Ristretto.Ok {E : Type} [AddCommGroup E] (ℓ : ℕ) (R : Ristretto E) : Prop where
  ℓ_le : ℓ ≤ 256 ^ R.size
  base_ne_zero : R.basepoint ≠ 0
  spans : ∀ e : E, ∃ k : ℕ, e = k • R.basepoint
  compress_length : ∀ e, (R.compress e).length = R.size
  decompress_iff : ∀ b e, b.length = R.size → (R.decompress b = some e ↔ R.compress e = b)
  ext : R.ext.Ok

/-- `src/group/ristretto.rs:24-150`: `impl ScalarOps, ElementOps, Group for Ristretto`. -/
def ristrettoBackend {E : Type} (ℓ : ℕ) (R : Ristretto E) : Backend (ZMod ℓ) E where
  gen := R.basepoint
  scalarSize := R.size
  elementSize := R.size
  serScalar s := leBytes R.size s.val
  deScalar := fromCanonicalBytes ℓ
  serElem e := some (R.compress e)
  deElem b := if b.length = R.size then R.decompress b else none
  challenge := scalarFromRandomBytes ℓ R.size R.ext
  Rng := R.ext.Rng
  genScalar := generateScalar ℓ R.size R.ext
  fill32 := R.ext.fill 32
  sha256 := R.ext.sha256
  debug := R.ext.debug

end ElasticElgamal.Curve25519
