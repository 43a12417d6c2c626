import Verif.Model.Group.Jacobian
import Verif.Lemmas.Curves.Secp256k1
import Verif.Lemmas.Curves.Ristretto255
import Verif.Model.Primitives.Keccak
import Verif.Model.Primitives.ChaCha
import Verif.Model.Primitives.Sha256

/-!
# Groups that can be computed with

`Ristretto`, `Curve25519Subgroup` and `Generic<Secp256k1>` with everything filled in: Merlin over Keccak-f[1600],
`ChaChaRng`, SHA-256, and multiplication of points by doubling and adding. The model over these groups is executable;
`Verif/Tests/Snapshots.lean` compares it with the snapshots in `tests/snapshots`.
-/

set_option autoImplicit false

namespace ElasticElgamal

/-- The functions of external crates, with `ChaChaRng` as the RNG of the caller (`tests/snapshots.rs`). -/
def concreteExt (debug : Bool) : Externals where
  prf := Merlin.challengeBytesOf
  Rng := ChaCha.Rng
  fill := ChaCha.Rng.fill
  sha256 := Sha256.digest
  debug := debug

namespace Secp256k1

/-- `k256::ProjectivePoint`: the points with a computable multiplication. -/
def Element : Type := Generic.Point (0 : ZMod p) 7

namespace Element

instance : DecidableEq Element := inferInstanceAs (DecidableEq (Generic.Point (0 : ZMod p) 7))

/-- Multiplication of a point by a number. -/
def mul (k : ℕ) (P : Element) : Element :=
  Jacobian.toPoint (7 : ZMod p) (Jacobian.mul (b := 7) P k) ⟨_, Jacobian.rep_mul (p := p) (b := 7) P k⟩

/-- The points with multiplication as repeated addition. -/
abbrev points : AddCommGroup Element := inferInstanceAs (AddCommGroup (Generic.Point (0 : ZMod p) 7))

theorem mul_eq (k : ℕ) (P : Element) : mul k P = points.nsmul k P :=
  Jacobian.toPoint_eq (Jacobian.rep_mul (p := p) (b := 7) P k)

instance : AddCommGroup Element where
  __ := points
  nsmul := mul
  nsmul_zero P := (mul_eq 0 P).trans (points.nsmul_zero P)
  nsmul_succ k P := by
    change mul (k + 1) P = points.add (mul k P) P
    rw [mul_eq, mul_eq]
    exact points.nsmul_succ k P
  zsmul := zsmulRec mul
  zsmul_zero' P := (mul_eq 0 P).trans (points.nsmul_zero P)
  zsmul_succ' k P := by
    change mul (k + 1) P = points.add (mul k P) P
    rw [mul_eq, mul_eq]
    exact points.nsmul_succ k P
  zsmul_neg' _ _ := rfl

theorem order_nsmul (P : Element) : n • P = 0 :=
  (mul_eq n P).trans (Generic.Killed.nsmul (n := n) (a := (0 : ZMod p)) (b := 7) P)

instance : Module (ZMod n) Element :=
  haveI : NeZero n := ⟨(Fact.out : n.Prime).ne_zero⟩
  AddCommGroup.zmodModule order_nsmul

end Element

/-- `Scalar::random`: samples 32 bytes until they are the encoding of a scalar. Simplification: gives up with zero
after the given number of attempts (of which each fails with probability less than `2^-127`). -/
def randomScalar : ℕ → ChaCha.Rng → ZMod n × ChaCha.Rng
  | 0, rng => (0, rng)
  | attempts + 1, rng =>
    let (bytes, rng) := rng.fill 32
    match Generic.fromRepr n bytes with
    | some s => (s, rng)
    | none => randomScalar attempts rng

/-- Number of attempts in `randomScalar`. -/
def attempts : ℕ := 256

/-- The parameters of the curve (`k256` does not accept compact points). -/
def concreteParams (debug : Bool) : Generic.Curve p n :=
  params false (concreteExt debug) (randomScalar attempts) fun seed => (randomScalar attempts (.fromSeed seed)).1

/-- `Generic<k256::Secp256k1>`. -/
def concrete (debug : Bool) : Backend (ZMod n) Element := Generic.backend (concreteParams debug)

end Secp256k1

namespace Ristretto255

open Ed25519

/-- The representative of a `RistrettoPoint` in the subgroup of order `ℓ`. -/
abbrev Representative : Type := Curve25519.Subgroup Point ℓ

/-- `8·u` for the inverse `u` of 8 modulo `ℓ`: multiplication by this number is the projection onto the subgroup. -/
def cofactorInv : ℕ := 1 + ℓ * 3

/-- The point with the given coordinates, moved to the subgroup. -/
def ofCoords (x y : ZMod p) : Option Representative :=
  if h : -x ^ 2 + y ^ 2 = 1 + (d : ZMod p) * x ^ 2 * y ^ 2 then
    let P : Point := ⟨x, y, h⟩
    let Q := cofactorInv • P
    if hQ : ℓ • Q = 0 then some ⟨Q, hQ⟩ else none
  else none

/-- `RistrettoPoint` with its codec. Simplification: every element is represented by the point of order dividing `ℓ`,
so that equality is that of coordinates; the crate has the coordinates of any point of the coset. -/
def concreteParams (debug : Bool) : Curve25519.Ristretto Representative where
  size := 32
  basepoint := ⟨base, order_nsmul_base⟩
  compress e := leBytes 32 (encode e.1.x e.1.y).val
  decompress b :=
    if leValue b < p then do
      let (x, y) ← decode (leValue b : ZMod p)
      ofCoords x y
    else none
  ext := concreteExt debug

/-- `Ristretto`. -/
def concrete (debug : Bool) : Backend (ZMod ℓ) Representative := Curve25519.ristrettoBackend ℓ (concreteParams debug)

end Ristretto255

/-- `Curve25519Subgroup`. -/
def Ed25519.concrete (debug : Bool) : Backend (ZMod Ed25519.ℓ) (Curve25519.Subgroup Ed25519.Point Ed25519.ℓ) :=
  Curve25519.backend Ed25519.ℓ (Ed25519.params (concreteExt debug)) Ed25519.order_nsmul_base

end ElasticElgamal
