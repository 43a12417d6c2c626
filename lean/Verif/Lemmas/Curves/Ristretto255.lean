import Verif.Lemmas.Curves.RistrettoCodec
import Verif.Toy

/-!
# Ristretto255 is a group of prime order with a canonical codec
-/

set_option autoImplicit false

namespace ElasticElgamal.Ristretto255

open Curves Ed25519 Toy

theorem mk_eq_mk_iff (P Q : Even) :
    (QuotientAddGroup.mk P : Element) = QuotientAddGroup.mk Q ↔ ∃ T : Point, 4 • T = 0 ∧ P.1 + T = Q.1 := by
  rw [QuotientAddGroup.eq]
  constructor
  · intro h
    have h4 : 4 • (-P + Q) = 0 := h
    refine ⟨-P.1 + Q.1, ?_, by abel⟩
    exact congrArg Subtype.val h4
  · rintro ⟨T, hT, hQ⟩
    change 4 • (-P + Q) = 0
    apply Subtype.ext
    change 4 • (-P.1 + Q.1) = 0
    rw [← hQ, neg_add_cancel_left, hT]

/-- The encoding does not depend on the representative. -/
theorem encode_congr {P Q : Even} (h : (QuotientAddGroup.mk P : Element) = QuotientAddGroup.mk Q) :
    encode P.1.x P.1.y = encode Q.1.x Q.1.y := by
  obtain ⟨T, hT, hQ⟩ := (mk_eq_mk_iff P Q).mp h
  obtain ⟨T', hT', hcan⟩ := encode_canon Q.2
  refine (encode_eq_iff P.2 _).mpr ⟨T + T', ?_, ?_⟩
  · rw [nsmul_add, hT, hT', add_zero]
  · rw [← add_assoc, hQ]
    exact hcan

theorem out_mk (e : Element) : (QuotientAddGroup.mk e.out : Element) = e := QuotientAddGroup.out_eq' e

/-- Equality of the encodings means equality of the elements. -/
theorem encode_inj {P Q : Even} (h : encode P.1.x P.1.y = encode Q.1.x Q.1.y) :
    (QuotientAddGroup.mk P : Element) = QuotientAddGroup.mk Q := by
  obtain ⟨T, hT, hcan⟩ := encode_canon P.2
  obtain ⟨T', hT', hcan'⟩ := encode_canon Q.2
  rw [h] at hcan
  have := hcan.unique_point hcan'
  refine (mk_eq_mk_iff P Q).mpr ⟨T - T', by rw [nsmul_sub, hT, hT', sub_zero], ?_⟩
  rw [← add_sub_assoc, this, add_sub_cancel_right]

/-- `8ℓ` kills the curve. -/
theorem nsmul_point (P : Point) : (8 * ℓ) • P = 0 := by
  have := card_nsmul_eq_zero' (G := Point) (x := P)
  rwa [card_points] at this

theorem nsmul_element (e : Element) : ℓ • e = 0 := by
  have h : ∀ P : Even, ℓ • (QuotientAddGroup.mk P : Element) = 0 := by
    rintro ⟨P, Q, rfl⟩
    rw [← QuotientAddGroup.mk_nsmul, QuotientAddGroup.eq_zero_iff]
    refine Subtype.ext (?_ : 4 • (ℓ • (2 • Q)) = 0)
    rw [← mul_nsmul', ← mul_nsmul', show 4 * ℓ * 2 = 8 * ℓ by ring, nsmul_point]
  rw [← out_mk e]
  exact h _

/-- Multiplication of a `RistrettoPoint` by a scalar: repeated addition. -/
instance : Module (ZMod ℓ) Element :=
  haveI : NeZero ℓ := ⟨(Fact.out : ℓ.Prime).ne_zero⟩
  AddCommGroup.zmodModule nsmul_element

/-- The base point. -/
def baseElement : Element := QuotientAddGroup.mk ⟨base, base_mem⟩

theorem base_spans (e : Element) : ∃ k : ℕ, e = k • baseElement := by
  have h : ∀ P : Even, ∃ k : ℕ, (QuotientAddGroup.mk P : Element) = k • baseElement := by
    rintro ⟨P, Q, rfl⟩
    -- a multiple of 8 that is 1 modulo `ℓ`
    obtain ⟨u, v, huv⟩ : ∃ u v : ℕ, 8 * u = 1 + ℓ * v :=
      ⟨(1 + ℓ * 3) / 8, 3, by decide +kernel⟩
    obtain ⟨k, hk⟩ := Ed25519.base_spans ((8 * u) • (2 • Q)) (by
      rw [← mul_nsmul', ← mul_nsmul', show ℓ * (8 * u) * 2 = 8 * ℓ * (2 * u) by ring, mul_nsmul, nsmul_point,
        nsmul_zero])
    refine ⟨k, ?_⟩
    rw [baseElement, ← QuotientAddGroup.mk_nsmul]
    refine (mk_eq_mk_iff _ _).mpr ⟨(ℓ * v) • (2 • Q), ?_, ?_⟩
    · rw [← mul_nsmul', ← mul_nsmul', show 4 * (ℓ * v) * 2 = 8 * ℓ * v by ring, mul_nsmul, nsmul_point, nsmul_zero]
    · change 2 • Q + (ℓ * v) • (2 • Q) = k • base
      rw [← hk, huv, add_nsmul, one_nsmul]
  obtain ⟨k, hk⟩ := h e.out
  exact ⟨k, by rw [← hk, out_mk]⟩

theorem base_ne_zero : baseElement ≠ 0 := by
  intro h
  obtain ⟨T, hT, h0⟩ := (mk_eq_mk_iff ⟨base, base_mem⟩ 0).mp h
  have h4 : 4 • base = 0 := by
    have hb : base = -T := eq_neg_of_add_eq_zero_left h0
    rw [hb, smul_neg, hT, neg_zero]
  have := addOrderOf_dvd_of_nsmul_eq_zero h4
  rw [addOrderOf_base] at this
  exact absurd (Nat.le_of_dvd (by norm_num) this) (by decide +kernel)

theorem card_element : Nat.card Element = ℓ := by
  have hord : addOrderOf baseElement = ℓ := addOrderOf_eq_prime (nsmul_element _) base_ne_zero
  have htop : AddSubgroup.zmultiples baseElement = ⊤ := by
    rw [AddSubgroup.eq_top_iff']
    intro e
    obtain ⟨k, rfl⟩ := base_spans e
    exact AddSubgroup.nsmul_mem_zmultiples _ _
  rw [← hord, ← Nat.card_zmultiples, htop, AddSubgroup.card_top]

/-- How equality of `RistrettoPoint`s is decided. -/
theorem mk_eq_mk_iff_coords (P Q : Even) : (QuotientAddGroup.mk P : Element) = QuotientAddGroup.mk Q ↔
    P.1.x * Q.1.y = P.1.y * Q.1.x ∨ P.1.y * Q.1.y = P.1.x * Q.1.x := by
  rw [mk_eq_mk_iff]
  constructor
  · rintro ⟨T, hT, hQ⟩
    rw [← hQ]
    rcases (four_nsmul_eq_zero_iff T).mp hT with rfl | rfl | rfl | rfl
    · rw [add_zero]; left; ring
    · rw [(add_t2 _).1, (add_t2 _).2]; left; ring
    · rw [(add_t4 _).1, (add_t4 _).2]; right; ring
    · rw [← add_assoc, (add_t2 _).1, (add_t2 _).2, (add_t4 _).1, (add_t4 _).2]; right; ring
  · intro h
    refine ⟨-P.1 + Q.1, ?_, by abel⟩
    rw [four_nsmul_eq_zero_iff]
    rcases h with h | h
    · have hx : (-P.1 + Q.1).x = 0 := by
        rw [EdPoint.add_x, edX, EdPoint.neg_x, EdPoint.neg_y, show -P.1.x * Q.1.y + P.1.y * Q.1.x = 0 by
          linear_combination -h, zero_div]
      have e := (-P.1 + Q.1).onCurve
      unfold OnEdwards at e
      rw [hx] at e
      rcases eq_zero_or_t2 (P := -P.1 + Q.1) (by linear_combination -e) with h | h
      · exact .inl h
      · exact .inr (.inl h)
    · have hy : (-P.1 + Q.1).y = 0 := by
        rw [EdPoint.add_y, edY, EdPoint.neg_x, EdPoint.neg_y, show P.1.y * Q.1.y + -P.1.x * Q.1.x = 0 by
          linear_combination h, zero_div]
      have e := (-P.1 + Q.1).onCurve
      unfold OnEdwards at e
      rw [hy] at e
      have hs : (-P.1 + Q.1).x ^ 2 = (sqrtM1 : ZMod p) ^ 2 := by linear_combination -e - sqrtM1_sq
      rcases sq_eq_sq_iff_eq_or_eq_neg.mp hs with hx | hx
      · exact .inr (.inr (.inl (EdPoint.ext hx hy)))
      · refine .inr (.inr (.inr (EdPoint.ext ?_ ?_)))
        · rw [(add_t2 _).1, hx]; rfl
        · rw [(add_t2 _).2, hy]; exact neg_zero.symm

theorem params_ok (X : Externals) (hX : X.Ok) : Curve25519.Ristretto.Ok ℓ (params X) where
  ℓ_le := ℓ_le
  base_ne_zero := base_ne_zero
  spans := base_spans
  compress_length _ := leBytes_length _ _
  decompress_iff b e hb := by
    have hNZ : NeZero p := ⟨pos_of_prime.ne'⟩
    have hb' : b.length = 32 := hb
    have hp : p ≤ 256 ^ 32 := by decide +kernel
    have key : ∀ P : Even, leBytes 32 (encode P.1.x P.1.y).val = b ↔
        leValue b < p ∧ encode P.1.x P.1.y = (leValue b : ZMod p) := by
      intro P
      generalize encode P.1.x P.1.y = s
      constructor
      · rintro rfl
        rw [leValue_leBytes _ _ ((ZMod.val_lt s).trans_le hp)]
        exact ⟨ZMod.val_lt s, (ZMod.natCast_zmod_val s).symm⟩
      · rintro ⟨hlt, rfl⟩
        rw [ZMod.val_natCast_of_lt hlt]
        conv_lhs => rw [← hb']
        exact leBytes_leValue b
    change _ ↔ leBytes 32 (encode e.out.1.x e.out.1.y).val = b
    rw [key]
    simp only [params]
    constructor
    · intro h
      split at h
      · next hlt =>
        refine ⟨hlt, ?_⟩
        obtain ⟨⟨x, y⟩, hd, h⟩ := Option.bind_eq_some_iff.mp h
        obtain ⟨P, rfl, rfl, hcan⟩ := (decode_iff _ _ _).mp hd
        simp only at h
        split at h
        · next hex =>
          have hspec := hex.choose_spec
          have hP : hex.choose.1 = P := EdPoint.ext hspec.1 hspec.2
          rw [encode_congr (Q := hex.choose) (by rw [out_mk]; exact (Option.some.inj h).symm), hP]
          exact (encode_eq_iff hcan.mem_even _).mpr ⟨0, nsmul_zero 4, by rwa [add_zero]⟩
        · cases h
      · cases h
    · rintro ⟨hlt, he⟩
      rw [if_pos hlt]
      obtain ⟨T, hT, hcan⟩ := (encode_eq_iff e.out.2 _).mp he
      have hd := (decode_iff _ _ _).mpr ⟨_, rfl, rfl, hcan⟩
      rw [hd]
      have hex : ∃ P : Even, P.1.x = (e.out.1 + T).x ∧ P.1.y = (e.out.1 + T).y := ⟨⟨_, hcan.mem_even⟩, rfl, rfl⟩
      simp only [Option.bind_eq_bind, Option.bind_some]
      rw [dif_pos hex]
      have hspec := hex.choose_spec
      have hP : hex.choose.1 = e.out.1 + T := EdPoint.ext hspec.1 hspec.2
      exact congrArg some (((mk_eq_mk_iff _ _).mpr ⟨T, hT, hP.symm⟩).symm.trans (out_mk e))
  ext := hX

end ElasticElgamal.Ristretto255
