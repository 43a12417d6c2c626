import Verif.Model.Group.Generic
import Verif.Model.Group.Curve25519
import Verif.Toy
import Mathlib.Tactic.LinearCombination
import Mathlib.Data.Nat.Count
import Mathlib.Data.Int.CardIntervalMod
import Mathlib.Data.Set.Card

/-!
# Lemmas about the group implementations
-/

set_option autoImplicit false
set_option linter.unusedSectionVars false

namespace ElasticElgamal

open Toy

theorem beBytes_length (k n : ℕ) : (beBytes k n).length = k := by simp [beBytes, leBytes_length]

theorem beValue_beBytes (k n : ℕ) (h : n < 256 ^ k) : beValue (beBytes k n) = n := by
  simp [beValue, beBytes, leValue_leBytes k n h]

theorem beBytes_beValue (b : Bytes) : beBytes b.length (beValue b) = b := by
  have := leBytes_leValue b.reverse
  rw [List.length_reverse] at this
  simp [beValue, beBytes, this]

theorem leValue_inj {a b : Bytes} (hl : a.length = b.length) (h : leValue a = leValue b) : a = b := by
  rw [← leBytes_leValue a, ← leBytes_leValue b, hl, h]

/-- Opposite nonzero residues modulo an odd number have opposite parity. -/
theorem val_neg_parity {p : ℕ} [Fact p.Prime] (hp : p ≠ 2) {y : ZMod p} (hy : y ≠ 0) :
    (-y).val % 2 = 1 - y.val % 2 := by
  have : NeZero y := ⟨hy⟩
  have h1 := ZMod.val_neg_of_ne_zero y
  have h2 : p % 2 = 1 := by
    rcases (Fact.out : p.Prime).eq_two_or_odd with h | h
    · exact absurd h hp
    · exact h
  have h3 := ZMod.val_lt y
  rw [h1]
  omega

/-- In a group of odd prime exponent, only the identity is its own inverse. -/
theorem eq_zero_of_neg_eq {G : Type} [AddCommGroup G] {n : ℕ} [Fact n.Prime] (hn : n ≠ 2) {e : G}
    (h : n • e = 0) (h2 : -e = e) : e = 0 := by
  have h3 : 2 • e = 0 := by rw [two_nsmul]; nth_rw 1 [← h2]; exact neg_add_cancel e
  have hc : Nat.Coprime n 2 := (Nat.coprime_primes Fact.out Nat.prime_two).mpr hn
  have h4 := addOrderOf_dvd_of_nsmul_eq_zero h
  have h5 := addOrderOf_dvd_of_nsmul_eq_zero h3
  have h6 := Nat.dvd_gcd h4 h5
  rw [hc.gcd_eq_one, Nat.dvd_one] at h6
  exact AddMonoid.addOrderOf_eq_one_iff.mp h6

namespace Generic

variable {p n : ℕ} [Fact p.Prime] [Fact n.Prime] {C : Curve p n}

theorem fromRepr_beBytes {m : ℕ} [NeZero m] {k : ℕ} (h : m ≤ 256 ^ k) (s : ZMod m) :
    fromRepr m (beBytes k s.val) = some s := by
  have := ZMod.val_lt s
  rw [fromRepr, beValue_beBytes _ _ (this.trans_le h), if_pos this, ZMod.natCast_zmod_val]

theorem fromRepr_eq_some {m : ℕ} [NeZero m] {b : Bytes} {s : ZMod m} (h : fromRepr m b = some s) :
    beBytes b.length s.val = b := by
  unfold fromRepr at h
  split at h
  · rename_i hlt
    cases h
    rw [ZMod.val_natCast_of_lt hlt, beBytes_beValue]
  · cases h

theorem mkPoint_eq_some (hC : C.Ok) {x y : ZMod p} {e : Point C.a C.b} :
    mkPoint C x y = some e ↔ ∃ h, e = .some x y h := by
  unfold mkPoint
  split
  · rename_i h
    constructor
    · intro h; cases h; exact ⟨_, rfl⟩
    · rintro ⟨_, rfl⟩; rfl
  · rename_i h
    constructor
    · intro h; cases h
    · rintro ⟨h', -⟩
      exact absurd ⟨by
        have := (WeierstrassCurve.Affine.equation_iff _ _).mp h'.1
        linear_combination this, hC.disc⟩ h

theorem equation {x y : ZMod p} (h : (curve C.a C.b).Nonsingular x y) :
    x * x * x + C.a * x + C.b = y * y := by
  have := (WeierstrassCurve.Affine.equation_iff _ _).mp h.1
  linear_combination -this

theorem y_ne_zero (hC : C.Ok) [hk : Killed n C.a C.b] {x y : ZMod p}
    (h : (curve C.a C.b).Nonsingular x y) : y ≠ 0 := by
  rintro rfl
  have h1 : -(WeierstrassCurve.Affine.Point.some x 0 h : Point C.a C.b) = .some x 0 h := by
    rw [WeierstrassCurve.Affine.Point.neg_some]
    congr 1
    simp [WeierstrassCurve.Affine.negY]
  exact WeierstrassCurve.Affine.Point.some_ne_zero h (eq_zero_of_neg_eq hC.n_odd (hk.nsmul _) h1)

/-- Decompression finds the point with the given abscissa and parity. -/
theorem decompress_iff (hC : C.Ok) [hk : Killed n C.a C.b] {b : Bytes} {odd : Bool}
    {e : Point C.a C.b} (hb : b.length = C.size) :
    decompress C b odd = some e ↔ ∃ x y h, e = .some x y h ∧ isOdd y = odd ∧ b = beBytes C.size x.val := by
  have : NeZero p := ⟨(Fact.out : p.Prime).ne_zero⟩
  simp only [decompress, Option.bind_eq_bind, Option.bind_eq_some_iff]
  constructor
  · rintro ⟨x, hx, β, hβ, hm⟩
    obtain ⟨h, rfl⟩ := (mkPoint_eq_some hC).mp hm
    refine ⟨x, _, h, rfl, ?_, by rw [← hb, fromRepr_eq_some hx]⟩
    have hy := y_ne_zero hC h
    split
    · assumption
    · rename_i hne
      rw [if_neg hne] at hy
      have := val_neg_parity hC.p_odd (y := β) (by simpa using hy)
      revert hne
      simp only [isOdd, this]
      cases odd <;> (simp; try omega)
  · rintro ⟨x, y, h, rfl, rfl, rfl⟩
    obtain ⟨β, hβ⟩ := hC.sqrt_complete y
    refine ⟨x, fromRepr_beBytes hC.p_le x, β, by rw [equation h, hβ], ?_⟩
    have hβ2 := hC.sqrt_sound _ _ hβ
    have hy := y_ne_zero hC h
    have : (if isOdd β = isOdd y then β else -β) = y := by
      rcases mul_self_eq_mul_self_iff.mp hβ2 with rfl | rfl
      · simp
      · have := val_neg_parity hC.p_odd hy
        rw [if_neg]
        · simp
        · simp only [isOdd, this]
          rcases Nat.mod_two_eq_zero_or_one y.val with h | h <;> simp [h]
    rw [this, mkPoint_eq_some hC]
    exact ⟨h, rfl⟩

/-- The encoding of a point that is not the identity. -/
theorem toSec1_some {x y : ZMod p} (h : (curve C.a C.b).Nonsingular x y) :
    copyFromSlice (C.size + 1) (toSec1 C (.some x y h)) =
      some ((if isOdd y then 3 else 2) :: beBytes C.size x.val) := by
  simp [copyFromSlice, toSec1, beBytes_length]

theorem toSec1_zero (hC : C.Ok) : copyFromSlice (C.size + 1) (toSec1 C 0) = none := by
  have := hC.size_pos
  rw [copyFromSlice, if_neg]
  change ¬ ([0] : Bytes).length = _
  simp only [List.length_singleton]
  omega

theorem fromSec1_iff (hC : C.Ok) [hk : Killed n C.a C.b] {b : Bytes} {e : Point C.a C.b}
    (hb : b.length = C.size + 1) : fromSec1 C b = some e ↔
      copyFromSlice (C.size + 1) (toSec1 C e) = some b ∨
      (C.compact = true ∧ ∃ x y h, e = .some x y h ∧ isOdd y = false ∧ b = 5 :: beBytes C.size x.val) := by
  have hs := hC.size_pos
  have hse : ∀ b', copyFromSlice (C.size + 1) (toSec1 C e) = some b' ↔ ∃ x y h, e = .some x y h ∧
      b' = (if isOdd y then 3 else 2) :: beBytes C.size x.val := by
    intro b'
    rcases e with _ | ⟨x, y, h⟩
    · have := toSec1_zero hC
      rw [WeierstrassCurve.Affine.Point.zero_def] at this
      rw [this]
      simp
    · rw [toSec1_some h]
      constructor
      · intro h'; cases h'; exact ⟨x, y, h, rfl, rfl⟩
      · rintro ⟨x', y', h', he, rfl⟩; cases he; rfl
  rw [hse]
  rcases b with _ | ⟨tag, rest⟩
  · simp at hb
  have hl : rest.length = C.size := by simpa using hb
  simp only [fromSec1, hl, if_true, List.cons.injEq]
  by_cases h0 : tag = 0
  · subst h0
    have : rest ≠ [] := by rintro rfl; simp at hl; omega
    rw [if_pos rfl, if_neg this]
    constructor
    · intro h; cases h
    · rintro (⟨x, y, h, -, h1, -⟩ | ⟨-, x, y, h, -, -, h1, -⟩)
      · split at h1 <;> exact absurd h1 (by decide)
      · exact absurd h1 (by decide)
  rw [if_neg h0]
  by_cases h2 : tag = 2 ∨ tag = 3
  · rw [if_pos h2, decompress_iff hC hl]
    constructor
    · rintro ⟨x, y, h, rfl, hodd, rfl⟩
      refine .inl ⟨x, y, h, rfl, ?_, rfl⟩
      rw [hodd]
      rcases h2 with rfl | rfl <;> decide
    · rintro (⟨x, y, h, rfl, h1, rfl⟩ | ⟨-, x, y, h, -, -, h1, -⟩)
      · refine ⟨x, y, h, rfl, ?_, rfl⟩
        rw [h1]
        cases isOdd y <;> decide
      · subst h1; rcases h2 with h | h <;> exact absurd h (by decide)
  rw [if_neg h2]
  have hno : ∀ y : ZMod p, tag ≠ if isOdd y = true then 3 else 2 := by
    intro y h
    split at h <;> exact h2 (by simp [h])
  by_cases h4 : tag = 4
  · have : ¬ C.size = 2 * C.size := by omega
    rw [if_pos h4, if_neg this]
    constructor
    · intro h; cases h
    · rintro (⟨x, y, h, -, h1, -⟩ | ⟨-, x, y, h, -, -, h1, -⟩)
      · exact absurd h1 (hno y)
      · subst h4; exact absurd h1 (by decide)
  rw [if_neg h4]
  by_cases h5 : tag = 5
  · rw [if_pos h5]
    subst h5
    by_cases hc : C.compact = true
    · simp only [hc, and_self, if_true, true_and]
      rw [decompress_iff hC hl]
      constructor
      · exact .inr
      · rintro (⟨x, y, h, -, h1, -⟩ | h)
        · exact absurd h1 (hno y)
        · exact h
    · rw [if_neg (fun h => hc h.2)]
      constructor
      · intro h; cases h
      · rintro (⟨x, y, h, -, h1, -⟩ | ⟨h1, -⟩)
        · exact absurd h1 (hno y)
        · exact absurd h1 hc
  · rw [if_neg h5]
    constructor
    · intro h; cases h
    · rintro (⟨x, y, h, -, h1, -⟩ | ⟨-, x, y, h, -, -, h1, -⟩)
      · exact absurd h1 (hno y)
      · exact absurd h1 h5

end Generic

namespace Curve25519

variable {p : ℕ} [Fact p.Prime] {P : Type} [AddCommGroup P] [DecidableEq P] {ℓ : ℕ} [Fact ℓ.Prime]
  {C : Edwards p P}

theorem fromCanonicalBytes_leBytes {k : ℕ} (h : ℓ ≤ 256 ^ k) (s : ZMod ℓ) :
    fromCanonicalBytes ℓ (leBytes k s.val) = some s := by
  have : NeZero ℓ := ⟨(Fact.out : ℓ.Prime).ne_zero⟩
  have := ZMod.val_lt s
  rw [fromCanonicalBytes, leValue_leBytes _ _ (this.trans_le h), if_pos this, ZMod.natCast_zmod_val]

theorem fromCanonicalBytes_eq_some {b : Bytes} {s : ZMod ℓ} (h : fromCanonicalBytes ℓ b = some s) :
    leBytes b.length s.val = b := by
  unfold fromCanonicalBytes at h
  split at h
  · rename_i hlt
    cases h
    rw [ZMod.val_natCast_of_lt hlt, leBytes_leValue]
  · cases h

theorem half_size (hC : C.Ok ℓ) : 2 * (256 ^ C.size / 2) = 256 ^ C.size ∧ p ≤ 256 ^ C.size / 2 := by
  have h1 := hC.p_le
  have h2 := (Fact.out : p.Prime).two_le
  have : 0 < C.size := by
    rcases Nat.eq_zero_or_pos C.size with h | h
    · rw [h] at h1; simp at h1; omega
    · exact h
  obtain ⟨k, hk⟩ := Nat.exists_eq_succ_of_ne_zero this.ne'
  rw [hk, pow_succ] at h1 ⊢
  omega

/-- Decompression: which strings decode to which points. -/
theorem decompress_iff (hC : C.Ok ℓ) {b : Bytes} {e : P} :
    decompress C b = some e ↔
      ((leValue b % (256 ^ C.size / 2) : ℕ) : ZMod p) = (C.coords e).2 ∧
      ((C.coords e).1 = 0 ∨ (C.coords e).1.val % 2 = leValue b / (256 ^ C.size / 2) % 2) := by
  have hcurve := hC.on_curve e
  have hsq : ∀ x y : ZMod p, (C.d * y ^ 2 + 1) * x ^ 2 = y ^ 2 - 1 ↔
      -x ^ 2 + y ^ 2 = 1 + C.d * x ^ 2 * y ^ 2 := by
    intro x y
    constructor <;> intro h <;> linear_combination -h
  simp only [decompress, Option.bind_eq_bind, Option.bind_eq_some_iff, hC.ofCoords]
  rcases hce : C.coords e with ⟨x, y⟩
  rw [hce] at hcurve
  simp only at hcurve ⊢
  have hsgn := Nat.mod_two_eq_zero_or_one (leValue b / (256 ^ C.size / 2))
  constructor
  · rintro ⟨r, hr, h⟩
    rw [hC.sqrtRatio _ _ _ (hC.denominator _)] at hr
    obtain ⟨h1, h2⟩ := Prod.mk.inj h
    refine ⟨h2.symm, ?_⟩
    by_cases hx : x = 0
    · exact .inl hx
    right
    split at h1
    · rename_i hs
      have hr0 : r ≠ 0 := by rintro rfl; simp at h1; exact hx h1
      rw [h1, val_neg_parity hC.p_odd hr0, hr.2, hs]
    · rw [h1, hr.2]
      omega
  · rintro ⟨rfl, h⟩
    set y : ZMod p := ((leValue b % (256 ^ C.size / 2) : ℕ) : ZMod p)
    by_cases hx : x = 0
    · subst hx
      refine ⟨0, (hC.sqrtRatio _ _ _ (hC.denominator _)).mpr ⟨(hsq 0 y).mpr hcurve, by simp⟩, ?_⟩
      split <;> simp
    · have h := h.resolve_left hx
      refine ⟨if leValue b / (256 ^ C.size / 2) % 2 = 1 then -x else x,
        (hC.sqrtRatio _ _ _ (hC.denominator _)).mpr ⟨?_, ?_⟩, ?_⟩
      · split
        · rw [neg_sq]; exact (hsq x y).mpr hcurve
        · exact (hsq x y).mpr hcurve
      · split
        · rw [val_neg_parity hC.p_odd hx]; omega
        · omega
      · split <;> simp

theorem deserializeElement_iff (hC : C.Ok ℓ) {b : Bytes} {e : P} :
    deserializeElement ℓ C b = some e ↔ b.length = C.size ∧ ℓ • e = 0 ∧
      ((leValue b % (256 ^ C.size / 2) : ℕ) : ZMod p) = (C.coords e).2 ∧
      ((C.coords e).1 = 0 ∨ (C.coords e).1.val % 2 = leValue b / (256 ^ C.size / 2) % 2) := by
  rw [← decompress_iff hC, deserializeElement]
  split
  · rename_i h
    simp only [Option.filter_eq_some_iff, decide_eq_true_eq, h, true_and]
    tauto
  · rename_i h
    simp [h]

theorem leValue_compress (hC : C.Ok ℓ) (e : P) : (compress C e).length = C.size ∧
    leValue (compress C e) = (C.coords e).2.val + (256 ^ C.size / 2) * ((C.coords e).1.val % 2) := by
  have : NeZero p := ⟨(Fact.out : p.Prime).ne_zero⟩
  obtain ⟨h1, h2⟩ := half_size hC
  have h3 := ZMod.val_lt (C.coords e).2
  have h4 := Nat.mod_lt (C.coords e).1.val (by norm_num : 2 > 0)
  refine ⟨by simp [compress, leBytes_length], ?_⟩
  have hc : compress C e = leBytes C.size ((C.coords e).2.val +
    (256 ^ C.size / 2) * ((C.coords e).1.val % 2)) := rfl
  rw [hc, leValue_leBytes]
  rcases Nat.mod_two_eq_zero_or_one (C.coords e).1.val with h | h <;> rw [h] <;> omega

theorem decompress_compress (hC : C.Ok ℓ) (e : P) : decompress C (compress C e) = some e := by
  have : NeZero p := ⟨(Fact.out : p.Prime).ne_zero⟩
  obtain ⟨h1, h2⟩ := half_size hC
  have h3 := ZMod.val_lt (C.coords e).2
  have h5 : 0 < 256 ^ C.size / 2 := by omega
  rw [decompress_iff hC, (leValue_compress hC e).2, Nat.add_mul_mod_self_left,
    Nat.mod_eq_of_lt (h3.trans_le h2), Nat.add_mul_div_left _ _ h5, Nat.div_eq_of_lt (h3.trans_le h2)]
  refine ⟨ZMod.natCast_zmod_val _, .inr ?_⟩
  simp

theorem coords_inj (hC : C.Ok ℓ) {e e' : P} (h : C.coords e = C.coords e') : e = e' := by
  have h1 : C.ofCoords (C.coords e).1 (C.coords e).2 = some e := (hC.ofCoords _ _ e).mpr rfl
  have h2 : C.ofCoords (C.coords e').1 (C.coords e').2 = some e' := (hC.ofCoords _ _ e').mpr rfl
  rw [h, h2] at h1
  exact (Option.some.inj h1).symm

theorem x_ne_zero (hC : C.Ok ℓ) {e : P} (he : ℓ • e = 0) (h0 : e ≠ 0) : (C.coords e).1 ≠ 0 := by
  intro hx
  refine h0 (eq_zero_of_neg_eq hC.ℓ_odd he (coords_inj hC ?_))
  rw [hC.coords_neg, hx, neg_zero]
  exact Prod.ext hx.symm rfl

/-! ## Wide reduction -/

theorem ncard_wide (k m : ℕ) [NeZero m] (s : ZMod m) :
    {b : Bytes | b.length = k ∧ fromBytesModOrderWide m b = s}.ncard =
      256 ^ k / m + if s.val < 256 ^ k % m then 1 else 0 := by
  have h1 : {b : Bytes | b.length = k ∧ fromBytesModOrderWide m b = s} =
      ((Finset.range (256 ^ k)).filter (· ≡ s.val [MOD m])).image (leBytes k) := by
    ext b
    simp only [Set.mem_ofPred_eq, Finset.coe_image, Finset.coe_filter, Finset.mem_range, Set.mem_image,
      fromBytesModOrderWide]
    constructor
    · rintro ⟨rfl, rfl⟩
      refine ⟨leValue b, ⟨leValue_lt b, ?_⟩, leBytes_leValue b⟩
      rw [ZMod.val_natCast]
      exact (Nat.mod_modEq _ _).symm
    · rintro ⟨v, ⟨hv, hm⟩, rfl⟩
      refine ⟨leBytes_length _ _, ?_⟩
      rw [leValue_leBytes _ _ hv, (ZMod.natCast_eq_natCast_iff _ _ _).mpr hm, ZMod.natCast_zmod_val]
  rw [h1, Set.ncard_coe_finset, Finset.card_image_of_injOn, ← Nat.count_eq_card_filter_range,
    Nat.count_modEq_card _ (NeZero.pos m), Nat.mod_eq_of_lt (ZMod.val_lt s)]
  intro a ha b hb h
  simp only [Finset.coe_filter, Finset.mem_range, Set.mem_ofPred_eq] at ha hb
  rw [← leValue_leBytes k a ha.1, h, leValue_leBytes k b hb.1]

end Curve25519

end ElasticElgamal
