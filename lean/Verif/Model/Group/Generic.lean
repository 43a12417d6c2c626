import Verif.Model.Group.Externals
import Mathlib.AlgebraicGeometry.EllipticCurve.Affine.Point
import Mathlib.Algebra.Module.ZMod

/-!
# `Generic<C>`: groups of the `elliptic-curve` crate

Models `src/group/generic.rs:32-105` over short Weierstrass curves `y² = x³ + ax + b` (Mathlib's affine points), with
the SEC1 codec of the `sec1` / `elliptic-curve` crates written out from their documentation (SEC1 v2, sections 2.3.3
and 2.3.4; the sources of the dependencies are not available here).
-/

set_option autoImplicit false

namespace ElasticElgamal.Generic

/-- The curve `y² = x³ + ax + b`. -/
abbrev curve {p : ℕ} (a b : ZMod p) : WeierstrassCurve.Affine (ZMod p) :=
  ({ a₁ := 0, a₂ := 0, a₃ := 0, a₄ := a, a₆ := b } : WeierstrassCurve (ZMod p))

/-- `ProjectivePoint<C>`. Simplification: affine coordinates and a separate point at infinity. -/
abbrev Point {p : ℕ} (a b : ZMod p) : Type := (curve a b).Point

/-- The curve parameters (`C: CurveArithmetic`): base field `ZMod p`, group order `n`. -/
structure Curve (p n : ℕ) where
  a : ZMod p
  b : ZMod p
  /-- `FieldBytesSize<C>`: size of coordinates and of scalars -/
  size : ℕ
  /-- `C::ProjectivePoint::generator()` -/
  gen : Point a b
  /-- square roots in the base field (`Field::sqrt`) -/
  sqrt : ZMod p → Option (ZMod p)
  /-- whether `from_sec1_point` of the curve accepts compact points (tag 5), by `DecompactPoint` -/
  compact : Bool
  /-- external functions -/
  ext : Externals
  /-- `Scalar::<C>::random(rng)` for the RNG of the caller -/
  random : ext.Rng → ZMod n × ext.Rng
  /-- `Scalar::<C>::random` for `ChaChaRng::from_seed(seed)` -/
  randomSeeded : Bytes → ZMod n

/-- What is assumed about the curve: it has prime order `n`, no singular points, and the base field arithmetic is
right. -/
structure Curve.Ok {p n : ℕ} [Fact p.Prime] (C : Curve p n) : Prop where
  p_odd : p ≠ 2
  n_odd : n ≠ 2
  p_le : p ≤ 256 ^ C.size
  n_le : n ≤ 256 ^ C.size
  size_pos : 0 < C.size
  disc : (curve C.a C.b).Δ ≠ 0
  gen_ne_zero : C.gen ≠ 0
  spans : ∀ P : Point C.a C.b, ∃ k : ℕ, P = k • C.gen
  sqrt_sound : ∀ x y, C.sqrt x = some y → y * y = x
  sqrt_complete : ∀ y, ∃ z, C.sqrt (y * y) = some z
  ext : C.ext.Ok

/-- The curve has exponent `n`, which makes its points a vector space over the scalars. -/
class Killed {p : ℕ} [Fact p.Prime] (n : ℕ) (a b : ZMod p) : Prop where
  nsmul : ∀ P : Point a b, n • P = 0

/-- Multiplication of a point by a scalar (`C::ProjectivePoint: Mul<Scalar>`): repeated addition. -/
instance {p n : ℕ} [Fact p.Prime] [Fact n.Prime] (a b : ZMod p) [h : Killed n a b] :
    Module (ZMod n) (Point a b) :=
  haveI : NeZero n := ⟨(Fact.out : n.Prime).ne_zero⟩
  AddCommGroup.zmodModule h.nsmul

section
variable {p n : ℕ} [Fact p.Prime] [Fact n.Prime] (C : Curve p n)

/-- `PrimeField::from_repr`: big-endian, canonical. -/
def fromRepr (m : ℕ) (b : Bytes) : Option (ZMod m) :=
  if beValue b < m then some (beValue b : ZMod m) else none

/-- Parity of a field element (`is_odd`). -/
def isOdd (y : ZMod p) : Bool := y.val % 2 = 1

/-- `to_sec1_point(true)`: compressed SEC1 encoding; the identity is the single byte 0. -/
def toSec1 : Point C.a C.b → Bytes
  | .zero => [0]
  | .some x y _ => (if isOdd y then 3 else 2) :: beBytes C.size x.val

/-- `buffer.copy_from_slice(bytes)` for a buffer of `len` bytes: panics if the lengths differ. -/
def copyFromSlice (len : ℕ) (bytes : Bytes) : Option Bytes :=
  if bytes.length = len then some bytes else none

/-- A point with the given coordinates, if they satisfy the equation of the curve. -/
def mkPoint (x y : ZMod p) : Option (Point C.a C.b) :=
  if h : y * y = x * x * x + C.a * x + C.b ∧ (curve C.a C.b).Δ ≠ 0 then
    some (.some x y (((curve C.a C.b).equation_iff_nonsingular_of_Δ_ne_zero h.2).mp
      (by rw [WeierstrassCurve.Affine.equation_iff]; linear_combination h.1)))
  else none

/-- `DecompressPoint::decompress(x_bytes, y_is_odd)`. -/
def decompress (xBytes : Bytes) (yIsOdd : Bool) : Option (Point C.a C.b) := do
  let x ← fromRepr p xBytes
  let β ← C.sqrt (x * x * x + C.a * x + C.b)
  let y := if isOdd β = yIsOdd then β else -β
  mkPoint C x y

/-- `Sec1Point::from_bytes` (tag and length checks) followed by `from_sec1_point`. -/
def fromSec1 : Bytes → Option (Point C.a C.b)
  | [] => none
  | tag :: rest =>
    if tag = 0 then
      if rest = [] then some 0 else none
    else if tag = 2 ∨ tag = 3 then
      if rest.length = C.size then decompress C rest (tag = 3) else none
    else if tag = 4 then
      if rest.length = 2 * C.size then do
        let x ← fromRepr p (rest.take C.size)
        let y ← fromRepr p (rest.drop C.size)
        mkPoint C x y
      else none
    else if tag = 5 then
      if rest.length = C.size ∧ C.compact = true then decompress C rest false else none
    else none

/-- `src/group/generic.rs:32-105`: `impl ScalarOps, ElementOps, Group for Generic<C>`. -/
def backend : Backend (ZMod n) (Point C.a C.b) where
  gen := C.gen
  scalarSize := C.size
  elementSize := C.size + 1
  serScalar s := beBytes C.size s.val
  deScalar := fromRepr n
  serElem e := copyFromSlice (C.size + 1) (toSec1 C e)
  deElem := fromSec1 C
  -- `src/group/mod.rs:98-103`: a ChaCha RNG seeded with 32 bytes of the transcript
  challenge log := C.randomSeeded (C.ext.prf log 32)
  Rng := C.ext.Rng
  genScalar := C.random
  fill32 := C.ext.fill 32
  sha256 := C.ext.sha256
  debug := C.ext.debug

end

end ElasticElgamal.Generic
