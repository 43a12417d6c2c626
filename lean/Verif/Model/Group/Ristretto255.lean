import Verif.Lemmas.Curves.Ed25519
import Mathlib.GroupTheory.QuotientGroup.Defs

/-!
# Ristretto255

The group of `Ristretto` (`src/group/ristretto.rs`): RFC 9496, section 4, with affine coordinates.
-/

set_option autoImplicit false

namespace ElasticElgamal.Ristretto255

open Ed25519

/-- `INVSQRT_A_MINUS_D`. -/
def invsqrtAMinusD : ℕ := 54469307008909316920995813868745141605393597292927456921205312896311721017578

/-- `RistrettoPoint::compress` (RFC 9496, section 4.3.2) for `z0 = 1` and `t0 = x0 * y0`, before the conversion to
bytes. -/
def encode (x₀ y₀ : ZMod p) : ZMod p :=
  let t₀ := x₀ * y₀
  let u₁ := (1 + y₀) * (1 - y₀)
  let u₂ := x₀ * y₀
  let invsqrt := (sqrtRatioI 1 (u₁ * u₂ ^ 2)).2
  let den₁ := invsqrt * u₁
  let den₂ := invsqrt * u₂
  let zInv := den₁ * den₂ * t₀
  let ix₀ := x₀ * sqrtM1
  let iy₀ := y₀ * sqrtM1
  let enchanted := den₁ * invsqrtAMinusD
  let rotate := isNegative (t₀ * zInv)
  let x := if rotate then iy₀ else x₀
  let y := if rotate then ix₀ else y₀
  let denInv := if rotate then enchanted else den₂
  let y := if isNegative (x * zInv) then -y else y
  ctAbs (denInv * (1 - y))

/-- `CompressedRistretto::decompress` (RFC 9496, section 4.3.1) after the conversion from canonical bytes: the affine
coordinates. -/
def decode (s : ZMod p) : Option (ZMod p × ZMod p) :=
  if isNegative s then none else
  let ss := s ^ 2
  let u₁ := 1 - ss
  let u₂ := 1 + ss
  let u₂sqr := u₂ ^ 2
  let v := -(d * u₁ ^ 2) - u₂sqr
  let (wasSquare, invsqrt) := sqrtRatioI 1 (v * u₂sqr)
  let denX := invsqrt * u₂
  let denY := invsqrt * denX * v
  let x := ctAbs (2 * s * denX)
  let y := u₁ * denY
  let t := x * y
  if wasSquare = false ∨ isNegative t = true ∨ y = 0 then none else some (x, y)

/-- The points that `RistrettoPoint`s consist of: the doubled ones. -/
abbrev Even : AddSubgroup Point := (nsmulAddMonoidHom 2 : Point →+ Point).range

theorem base_mem : base ∈ Even := by
  have h : ∀ k, k * 2 = ℓ + 1 → 2 • (k • base) = base := by
    intro k hk
    rw [← mul_nsmul, hk, succ_nsmul, order_nsmul_base, zero_add]
  have hk : (ℓ + 1) / 2 * 2 = ℓ + 1 := by decide +kernel
  generalize (ℓ + 1) / 2 = k at hk
  exact AddMonoidHom.mem_range.mpr ⟨k • base, h k hk⟩

/-- Points that are equal as `RistrettoPoint`s differ by a point of order dividing 4. -/
abbrev Torsion : AddSubgroup Even := (nsmulAddMonoidHom 4 : Even →+ Even).ker

/-- `RistrettoPoint`. -/
abbrev Element : Type := Even ⧸ Torsion

open Classical in
/-- The parameters of the group. Simplification: `compress` takes an arbitrary representative (`C78_ristretto_encode`
shows that they all are encoded the same). The coordinates from `decode` are always those of a doubled point (by
`C78_ristretto_decode`), so that the condition in `decompress` can be dropped. -/
noncomputable def params (X : Externals) : Curve25519.Ristretto Element where
  size := 32
  basepoint := QuotientAddGroup.mk ⟨base, base_mem⟩
  compress e := leBytes 32 (encode e.out.1.x e.out.1.y).val
  decompress b :=
    if leValue b < p then do
      let (x, y) ← decode (leValue b : ZMod p)
      if h : ∃ P : Even, P.1.x = x ∧ P.1.y = y then some (QuotientAddGroup.mk h.choose) else none
    else none
  ext := X

end ElasticElgamal.Ristretto255
