import Verif.Props.GroupImpl
import Verif.Lemmas.Curves.Secp256k1
import Verif.Lemmas.Curves.Ristretto255
import Verif.Lemmas.Curves.SmallOrdinates

/-!
# The groups of the crate with their actual parameters (C78)
-/

set_option autoImplicit false
set_option linter.unusedSectionVars false

namespace ElasticElgamal

open Toy Curves

/-! ## secp256k1 -/

/-- C78: the equation of secp256k1 has `n - 1` solutions, where `n` is prime (the point at infinity is the `n`-th
point). -/
theorem C78_secp256k1_order : Secp256k1.p = 2 ^ 256 - 2 ^ 32 - 977 ∧ Secp256k1.p.Prime ∧ Secp256k1.n.Prime ∧
    Nat.card {xy : ZMod Secp256k1.p × ZMod Secp256k1.p // xy.2 ^ 2 = xy.1 ^ 3 + 7} + 1 = Secp256k1.n := by
  refine ⟨by decide +kernel, secpField_prime, secpOrder_prime, ?_⟩
  have e : Generic.Point (0 : ZMod Secp256k1.p) 7 ≃
      Option {xy : ZMod Secp256k1.p × ZMod Secp256k1.p // xy.2 ^ 2 = xy.1 ^ 3 + 7} := {
    toFun := fun
      | .zero => none
      | .some x y h => some ⟨(x, y), by
          have := (WeierstrassCurve.Affine.equation_iff _ _).mp h.1
          simpa using this⟩
    invFun := fun
      | none => .zero
      | some ⟨(x, y), h⟩ => .some x y
          (((Generic.curve (0 : ZMod Secp256k1.p) 7).equation_iff_nonsingular_of_Δ_ne_zero
            Secp256k1.disc_ne_zero).mp (by
            rw [WeierstrassCurve.Affine.equation_iff]
            simpa using h))
    left_inv := by rintro (_ | _) <;> rfl
    right_inv := by rintro (_ | ⟨⟨x, y⟩, h⟩) <;> rfl }
  have hp : NeZero Secp256k1.p := ⟨pos_of_prime.ne'⟩
  rw [← Secp256k1.card_points, Nat.card_congr e, Finite.card_option]

/-- The generator is one of the solutions. -/
example : (Secp256k1.gy : ZMod Secp256k1.p) ^ 2 = (Secp256k1.gx : ZMod Secp256k1.p) ^ 3 + 7 := by
  have := (WeierstrassCurve.Affine.equation_iff _ _).mp Secp256k1.gen_nonsingular.1
  simpa using this

section
variable (compact : Bool) (X : Externals) (random : X.Rng → ZMod Secp256k1.n × X.Rng)
  (randomSeeded : Bytes → ZMod Secp256k1.n)

/-- C78: `Generic<Secp256k1>` meets the contract of the `Group` trait; it panics on serializing the identity and on
nothing else; without support for compact points the encoding is canonical. -/
theorem C78_secp256k1 (hX : X.Ok) :
    (Generic.backend (Secp256k1.params compact X random randomSeeded)).Lawful ∧
    (Generic.backend (Secp256k1.params compact X random randomSeeded)).Sec1Ser ∧
    (compact = false → (Generic.backend (Secp256k1.params compact X random randomSeeded)).CanonicalElems) := by
  have hC := Secp256k1.params_ok compact X random randomSeeded hX
  exact ⟨C63_generic_lawful _ hC, (C63_generic_identity _ hC).1, C63_generic_canonical _ hC⟩

example : (Generic.backend (Secp256k1.params false exampleExt (fun r => (1, r)) fun _ => 1)).Lawful :=
  (C78_secp256k1 _ _ _ _ exampleExt_ok).1

end

/-! ## Curve25519 -/

/-- C78: the equation of the Edwards form of Curve25519 has `8ℓ` solutions, where `ℓ` is prime; the multiples of the
base point are the solutions killed by `ℓ`, and there are `ℓ` of them. -/
theorem C78_curve25519_order : Ed25519.p = 2 ^ 255 - 19 ∧
    Ed25519.ℓ = 2 ^ 252 + 27742317777372353535851937790883648493 ∧ Ed25519.p.Prime ∧ Ed25519.ℓ.Prime ∧
    (Ed25519.d : ZMod Ed25519.p) = -121665 / 121666 ∧ (Ed25519.by' : ZMod Ed25519.p) = 4 / 5 ∧
    Nat.card {xy : ZMod Ed25519.p × ZMod Ed25519.p //
      -xy.1 ^ 2 + xy.2 ^ 2 = 1 - 121665 / 121666 * xy.1 ^ 2 * xy.2 ^ 2} = 8 * Ed25519.ℓ ∧
    Nat.card (AddSubgroup.zmultiples Ed25519.base) = Ed25519.ℓ ∧
    ∀ P : Ed25519.Point, P ∈ AddSubgroup.zmultiples Ed25519.base ↔ Ed25519.ℓ • P = 0 := by
  have h66 : (121666 : ZMod Ed25519.p) ≠ 0 := by
    intro h0
    have h0' : ((121666 : ℕ) : ZMod Ed25519.p) = 0 := by exact_mod_cast h0
    rw [ZMod.natCast_eq_zero_iff] at h0'
    exact absurd h0' (by decide +kernel)
  have h5 : (5 : ZMod Ed25519.p) ≠ 0 := by
    intro h0
    have h0' : ((5 : ℕ) : ZMod Ed25519.p) = 0 := by exact_mod_cast h0
    rw [ZMod.natCast_eq_zero_iff] at h0'
    exact absurd h0' (by decide +kernel)
  have hd : (Ed25519.d : ZMod Ed25519.p) = -121665 / 121666 := (eq_div_iff h66).mpr Ed25519.d_eq
  refine ⟨by decide +kernel, by decide +kernel, edField_prime, edOrder_prime, hd, ?_, ?_, ?_, ?_⟩
  · rw [eq_div_iff h5]
    have h : ((Ed25519.by' * 5 : ℕ) : ZMod Ed25519.p) = ((4 : ℕ) : ZMod Ed25519.p) := by
      rw [ZMod.natCast_eq_natCast_iff]
      unfold Nat.ModEq
      decide +kernel
    push_cast at h
    exact h
  · rw [← Ristretto255.card_points]
    refine Nat.card_congr {
      toFun := fun q => ⟨q.1.1, q.1.2, by
        have := q.2
        unfold OnEdwards
        rw [hd]
        linear_combination this⟩
      invFun := fun P => ⟨(P.x, P.y), by
        have := P.onCurve
        unfold OnEdwards at this
        simp only
        linear_combination this + hd * P.x ^ 2 * P.y ^ 2⟩
      left_inv := fun _ => rfl
      right_inv := fun _ => rfl }
  · rw [Nat.card_zmultiples, Ristretto255.addOrderOf_base]
  · intro P
    constructor
    · intro h
      obtain ⟨k, rfl⟩ := AddSubgroup.mem_zmultiples_iff.mp h
      rw [smul_comm, Ed25519.order_nsmul_base, smul_zero]
    · intro h
      obtain ⟨k, rfl⟩ := Ed25519.base_spans P h
      exact AddSubgroup.nsmul_mem_zmultiples _ _

/-- The point of order 4 is a solution outside the subgroup. -/
example : Ristretto255.t4 ∉ AddSubgroup.zmultiples Ed25519.base := by
  rw [C78_curve25519_order.2.2.2.2.2.2.2.2]
  exact Ristretto255.killed_zero (P := Ristretto255.t4) (by rw [Nat.cast_zero]; rfl)

section
variable (X : Externals)

/-- The backend of `Curve25519Subgroup`. -/
abbrev Ed25519.backend : Backend (ZMod Ed25519.ℓ) (Curve25519.Subgroup Ed25519.Point Ed25519.ℓ) :=
  Curve25519.backend Ed25519.ℓ (Ed25519.params X) Ed25519.order_nsmul_base

/-- C78: `Curve25519Subgroup` meets the contract of the `Group` trait; serialization is total, and the encoding of
every element but the identity is canonical. -/
theorem C78_curve25519 (hX : X.Ok) : (Ed25519.backend X).Lawful ∧ (Ed25519.backend X).TotalSer ∧
    (Ed25519.backend X).CanonicalNonzero := by
  have hC := Ed25519.params_ok X hX
  obtain ⟨h1, h2⟩ := C63_curve25519_lawful _ hC
  refine ⟨h1, h2, (C63_curve25519_canonical_iff _ hC).mpr fun k hk => ?_⟩
  have hk0 : Ed25519.ℓ • (k • Ed25519.base) = 0 := by rw [smul_comm, Ed25519.order_nsmul_base, smul_zero]
  have h := Ristretto255.small_ordinates hk0 hk
  have hp : 256 ^ 32 / 2 = 19 + Ed25519.p := by decide +kernel
  change 256 ^ 32 / 2 ≤ (k • Ed25519.base).y.val + Ed25519.p
  omega

example : (Ed25519.backend exampleExt).CanonicalNonzero := (C78_curve25519 _ exampleExt_ok).2.2

/-- Numbers of 256 bits such that the 255 lower bits are 1 modulo `2^255 - 19`. -/
theorem small_mod (v : ℕ) (h : v < 2 ^ 256) : v % 2 ^ 255 % (2 ^ 255 - 19) = 1 % (2 ^ 255 - 19) ↔
    v = 1 ∨ v = 1 + (2 ^ 255 - 19) ∨ v = 1 + 2 ^ 255 ∨ v = 1 + (2 ^ 255 - 19) + 2 ^ 255 := by
  have hN : 2 ^ 256 = 2 * 2 ^ 255 := by norm_num
  have hlow : 38 < 2 ^ 255 := by norm_num
  rw [hN] at h
  generalize 2 ^ 255 = N at *
  rw [Nat.mod_eq_of_lt (a := 1) (by omega)]
  obtain ⟨q, r, hr, rfl⟩ : ∃ q r, r < N ∧ v = r + N * q := ⟨v / N, v % N, Nat.mod_lt _ (by omega), (Nat.mod_add_div v N).symm⟩
  have hq : q < 2 := by
    by_contra hq
    have := Nat.mul_le_mul_left N (not_lt.mp hq)
    omega
  rw [Nat.add_mul_mod_self_left, Nat.mod_eq_of_lt hr]
  have hmod : r % (N - 19) = if r < N - 19 then r else r - (N - 19) := by
    split
    · next h => exact Nat.mod_eq_of_lt h
    · next h => rw [Nat.mod_eq_sub_mod (by omega), Nat.mod_eq_of_lt (by omega)]
  rw [hmod]
  rcases (by omega : q = 0 ∨ q = 1) with rfl | rfl <;> split <;> omega

/-- C78: the strings that `Curve25519Subgroup` decodes to the identity are these four. -/
theorem C78_curve25519_identity (hX : X.Ok) (b : Bytes) (hb : b.length = 32) :
    (Ed25519.backend X).deElem b = some 0 ↔
      leValue b = 1 ∨ leValue b = 1 + (2 ^ 255 - 19) ∨ leValue b = 1 + 2 ^ 255 ∨
        leValue b = 1 + (2 ^ 255 - 19) + 2 ^ 255 := by
  have hC := Ed25519.params_ok X hX
  have hp : Ed25519.p = 2 ^ 255 - 19 := by decide +kernel
  have hlt := leValue_lt b
  rw [hb] at hlt
  rw [backend_deElem _ hC, Curve25519.deserializeElement_iff hC]
  have hhalf : 256 ^ (Ed25519.params X).size / 2 = 2 ^ 255 := by
    change 256 ^ 32 / 2 = 2 ^ 255
    decide +kernel
  have hxz : (((Ed25519.params X).coords (0 : Ed25519.Point)).1) = 0 := rfl
  have hyz : (((Ed25519.params X).coords (0 : Ed25519.Point)).2) = ((1 : ℕ) : ZMod Ed25519.p) := by
    rw [Nat.cast_one]; rfl
  change _ ∧ _ ∧ ((leValue b % _ : ℕ) : ZMod Ed25519.p) = ((Ed25519.params X).coords (0 : Ed25519.Point)).2 ∧ _ ↔ _
  rw [hhalf, hyz, ZMod.natCast_eq_natCast_iff]
  unfold Nat.ModEq
  have hlt' : leValue b < 2 ^ 256 := by simpa using hlt
  have hv := small_mod (leValue b) hlt'
  rw [← hp] at hv
  constructor
  · rintro ⟨-, -, h, -⟩
    exact hp ▸ hv.mp h
  · intro h
    exact ⟨hb, smul_zero _, hv.mpr (hp ▸ h), .inl hxz⟩

example : (Ed25519.backend exampleExt).deElem (leBytes 32 (1 + 2 ^ 255)) = some 0 := by
  rw [C78_curve25519_identity _ exampleExt_ok _ (leBytes_length _ _), leValue_leBytes _ _ (by norm_num)]
  exact .inr (.inr (.inl rfl))

end

/-! ## Ristretto255 -/

section
variable (X : Externals)

/-- C78: `Ristretto` meets the contract of the `Group` trait, with a canonical encoding of all elements; the group has
`ℓ` elements. -/
theorem C78_ristretto (hX : X.Ok) : Nat.card Ristretto255.Element = Ed25519.ℓ ∧
    (Curve25519.ristrettoBackend Ed25519.ℓ (Ristretto255.params X)).Lawful ∧
    (Curve25519.ristrettoBackend Ed25519.ℓ (Ristretto255.params X)).TotalSer ∧
    (Curve25519.ristrettoBackend Ed25519.ℓ (Ristretto255.params X)).CanonicalElems :=
  ⟨Ristretto255.card_element, C63_ristretto _ (Ristretto255.params_ok X hX)⟩

example : (Curve25519.ristrettoBackend Ed25519.ℓ (Ristretto255.params exampleExt)).CanonicalElems :=
  (C78_ristretto _ exampleExt_ok).2.2.2

end

open Ristretto255 in
/-- C78: the coordinates of two doubled points are encoded the same iff the points are the same as `RistrettoPoint`s,
that is, their difference is killed by 4; and the formula for comparing `RistrettoPoint`s says so. -/
theorem C78_ristretto_encode (P Q : Ed25519.Point) :
    (encode (2 • P).x (2 • P).y = encode (2 • Q).x (2 • Q).y ↔ 4 • (2 • P - 2 • Q) = 0) ∧
    ((2 • P).x * (2 • Q).y = (2 • P).y * (2 • Q).x ∨ (2 • P).y * (2 • Q).y = (2 • P).x * (2 • Q).x ↔
      4 • (2 • P - 2 • Q) = 0) := by
  have hP := two_nsmul_mem P
  have hQ := two_nsmul_mem Q
  generalize 2 • P = P at hP ⊢
  generalize 2 • Q = Q at hQ ⊢
  have hmk := mk_eq_mk_iff ⟨P, hP⟩ ⟨Q, hQ⟩
  have h4 : (∃ T : Ed25519.Point, 4 • T = 0 ∧ P + T = Q) ↔ 4 • (P - Q) = 0 := by
    constructor
    · rintro ⟨T, hT, hQ⟩
      rw [← hQ, sub_add_cancel_left, smul_neg, hT, neg_zero]
    · intro h
      exact ⟨-(P - Q), by rw [smul_neg, h, neg_zero], by abel⟩
  constructor
  · rw [← h4, ← hmk]
    exact ⟨encode_inj (P := ⟨P, hP⟩) (Q := ⟨Q, hQ⟩), encode_congr (P := ⟨P, hP⟩) (Q := ⟨Q, hQ⟩)⟩
  · rw [← h4, ← hmk]
    exact (mk_eq_mk_iff_coords ⟨P, hP⟩ ⟨Q, hQ⟩).symm

open Ristretto255 in
/-- The identity and the point of order 4 are encoded the same. -/
example : encode (2 • (0 : Ed25519.Point)).x (2 • (0 : Ed25519.Point)).y = encode (2 • t8).x (2 • t8).y := by
  rw [(C78_ristretto_encode 0 t8).1, two_t8, nsmul_zero, zero_sub, smul_neg, four_t4, neg_zero]

open Ristretto255 in
/-- C78: what `decode` accepts are the results of `encode` for doubled points, and it returns the coordinates of a
doubled point with this encoding. -/
theorem C78_ristretto_decode (s : ZMod Ed25519.p) :
    (∀ x y, decode s = some (x, y) → ∃ P : Ed25519.Point, (2 • P).x = x ∧ (2 • P).y = y ∧ encode x y = s) ∧
    ∀ P : Ed25519.Point, encode (2 • P).x (2 • P).y = s → ∃ x y, decode s = some (x, y) := by
  constructor
  · intro x y h
    obtain ⟨P, rfl, rfl, hcan⟩ := (decode_iff _ _ _).mp h
    obtain ⟨Q, hQ⟩ := AddMonoidHom.mem_range.mp hcan.mem_even
    have hQ' : 2 • Q = P := hQ
    refine ⟨Q, by rw [hQ'], by rw [hQ'], ?_⟩
    exact (encode_eq_iff hcan.mem_even _).mpr ⟨0, nsmul_zero 4, by rwa [add_zero]⟩
  · intro P h
    obtain ⟨T, -, hcan⟩ := (encode_eq_iff (two_nsmul_mem P) _).mp h
    exact ⟨_, _, (decode_iff _ _ _).mpr ⟨_, rfl, rfl, hcan⟩⟩

/-- The encoding of the generator from RFC 9496, appendix A.1. -/
def ristrettoGenerator : Bytes :=
  [0xe2, 0xf2, 0xae, 0x0a, 0x6a, 0xbc, 0x4e, 0x71, 0xa8, 0x84, 0xa9, 0x61, 0xc5, 0x00, 0x51, 0x5f,
   0x58, 0xe3, 0x0b, 0x6a, 0xa5, 0x82, 0xdd, 0x8d, 0xb6, 0xa6, 0x59, 0x45, 0xe0, 0x8d, 0x2d, 0x76]

open Ristretto255 in
/-- The base point is encoded as the RFC says. -/
example (X : Externals) : (Ristretto255.params X).compress (Ristretto255.params X).basepoint = ristrettoGenerator := by
  have henc : encode Ed25519.base.x Ed25519.base.y = ((leValue ristrettoGenerator : ℕ) : ZMod Ed25519.p) := by
    rw [encode_eq_iff base_mem]
    refine ⟨t4 + t2, (four_nsmul_eq_zero_iff _).mpr (.inr (.inr (.inr rfl))), ?_⟩
    have hp0 : ((Ed25519.p : ℕ) : ZMod Ed25519.p) = 0 := CharP.cast_eq_zero _ _
    have hx : (Ed25519.base + (t4 + t2)).x = (((Ed25519.p - Ed25519.by') * Ed25519.sqrtM1 : ℕ) : ZMod Ed25519.p) := by
      rw [← add_assoc, (add_t2 _).1, (add_t4 _).1, Nat.cast_mul, Nat.cast_sub (by decide +kernel), hp0]
      change -((Ed25519.by' : ZMod Ed25519.p) * _) = _
      ring
    have hy : (Ed25519.base + (t4 + t2)).y = (((Ed25519.p - Ed25519.bx) * Ed25519.sqrtM1 : ℕ) : ZMod Ed25519.p) := by
      rw [← add_assoc, (add_t2 _).2, (add_t4 _).2, Nat.cast_mul, Nat.cast_sub (by decide +kernel), hp0]
      change -((Ed25519.bx : ZMod Ed25519.p) * _) = _
      ring
    constructor
    · rw [hx, Ed25519.isNegative, ZMod.val_natCast]
      decide +kernel
    · rw [hx, hy, ← Nat.cast_mul, Ed25519.isNegative, ZMod.val_natCast]
      decide +kernel
    · rw [hy, Ne, ZMod.natCast_eq_zero_iff]
      decide +kernel
    · rw [Ed25519.isNegative, ZMod.val_natCast]
      decide +kernel
    · rw [hy]
      have h : (((Ed25519.p - Ed25519.bx) * Ed25519.sqrtM1 * (1 + leValue ristrettoGenerator ^ 2) +
          leValue ristrettoGenerator ^ 2 : ℕ) : ZMod Ed25519.p) = ((1 : ℕ) : ZMod Ed25519.p) := by
        rw [ZMod.natCast_eq_natCast_iff]
        unfold Nat.ModEq
        decide +kernel
      rw [Nat.cast_add, Nat.cast_mul, Nat.cast_add, Nat.cast_pow, Nat.cast_one] at h
      linear_combination h
  have hout := encode_congr (out_mk (QuotientAddGroup.mk ⟨Ed25519.base, base_mem⟩))
  refine (congrArg (fun s : ZMod Ed25519.p => leBytes 32 s.val) (hout.trans henc)).trans ?_
  rw [ZMod.val_natCast]
  decide +kernel

open Ristretto255 in
/-- The string of a byte 1 followed by zeros is rejected as negative (RFC 9496, appendix A.2). -/
example : decode 1 = none := by
  have : Ed25519.isNegative 1 = true := by
    have h : (1 : ZMod Ed25519.p) = ((1 : ℕ) : ZMod Ed25519.p) := Nat.cast_one.symm
    rw [h, Ed25519.isNegative, ZMod.val_natCast]
    decide +kernel
  rw [decode, if_pos this]

end ElasticElgamal
