import Verif.Lemmas.GroupImpl
import Verif.Model.Keys
import Verif.Spec.Keys
import Mathlib.Data.ZMod.Basic
import Mathlib.GroupTheory.OrderOfElement
import Mathlib.GroupTheory.SpecificGroups.Cyclic
import Mathlib.Algebra.Order.Chebyshev

/-!
# The implementations of the `Group` trait meet its contract (C63), scalars from random bytes (C64)
-/

set_option autoImplicit false
set_option linter.unusedSectionVars false

namespace ElasticElgamal

open Toy

/-! ## Example curves -/

/-- External functions for the examples. -/
def exampleExt : Externals where
  prf _ k := List.replicate k 5
  Rng := ℕ
  fill k r := (leBytes k r, r + 1)
  sha256 b := (b ++ List.replicate 32 0).take 32
  debug := true

theorem exampleExt_ok : exampleExt.Ok where
  prf_length _ _ := by simp [exampleExt]
  fill_length _ _ := leBytes_length _ _
  sha256_length b := by simp [exampleExt]

instance : Fact (Nat.Prime 7) := ⟨by norm_num⟩
instance : Fact (Nat.Prime 13) := ⟨by norm_num⟩
instance : Fact (Nat.Prime 5) := ⟨by norm_num⟩

/-- The discriminant of `y² = x³ + 3` over the field with 7 elements. -/
theorem exampleDisc : (Generic.curve (0 : ZMod 7) 3).Δ ≠ 0 := by
  simp only [WeierstrassCurve.Δ, WeierstrassCurve.b₂, WeierstrassCurve.b₄, WeierstrassCurve.b₆,
    WeierstrassCurve.b₈]
  decide

/-- The points of `y² = x³ + 3` are the identity and 12 pairs of coordinates. -/
theorem exampleCurve_card : Nat.card (Generic.Point (0 : ZMod 7) 3) = 13 := by
  have e : Generic.Point (0 : ZMod 7) 3 ≃ Option {xy : ZMod 7 × ZMod 7 // xy.2 ^ 2 = xy.1 ^ 3 + 3} := {
    toFun := fun
      | .zero => none
      | .some x y h => some ⟨(x, y), by
          have := (WeierstrassCurve.Affine.equation_iff _ _).mp h.1
          simpa using this⟩
    invFun := fun
      | none => .zero
      | some ⟨(x, y), h⟩ => .some x y
          (((Generic.curve (0 : ZMod 7) 3).equation_iff_nonsingular_of_Δ_ne_zero exampleDisc).mp (by
            rw [WeierstrassCurve.Affine.equation_iff]
            simpa using h))
    left_inv := by rintro (_ | _) <;> rfl
    right_inv := by rintro (_ | ⟨⟨x, y⟩, h⟩) <;> rfl }
  rw [Nat.card_congr e, Nat.card_eq_fintype_card]
  decide

instance exampleKilled : Generic.Killed 13 (0 : ZMod 7) 3 where
  nsmul P := by
    have := card_nsmul_eq_zero' (G := Generic.Point (0 : ZMod 7) 3) (x := P)
    rwa [exampleCurve_card] at this

/-- The curve `y² = x³ + 3` over the field with 7 elements, which has 13 points, with or without support for compact
points. -/
def exampleCurve (compact : Bool) : Generic.Curve 7 13 where
  a := 0
  b := 3
  size := 1
  gen := .some 1 2 (((Generic.curve (0 : ZMod 7) 3).equation_iff_nonsingular_of_Δ_ne_zero exampleDisc).mp (by
    rw [WeierstrassCurve.Affine.equation_iff]
    decide))
  sqrt x := [0, 1, 2, 3].find? fun y : ZMod 7 => y * y = x
  compact := compact
  ext := exampleExt
  random (r : ℕ) := ((r : ZMod 13), r + 1)
  randomSeeded b := leValue b

theorem exampleCurve_ok (compact : Bool) : (exampleCurve compact).Ok where
  p_odd := by norm_num
  n_odd := by norm_num
  p_le := by norm_num [exampleCurve]
  n_le := by norm_num [exampleCurve]
  size_pos := by norm_num [exampleCurve]
  disc := exampleDisc
  gen_ne_zero := WeierstrassCurve.Affine.Point.some_ne_zero _
  spans P := by
    have hg : (exampleCurve compact).gen ≠ 0 := WeierstrassCurve.Affine.Point.some_ne_zero _
    have := mem_multiples_of_prime_card (p := 13) (exampleCurve_card) (g := (exampleCurve compact).gen) (g' := P) hg
    obtain ⟨k, hk⟩ := this
    exact ⟨k, hk.symm⟩
  sqrt_sound x y h := by
    have := List.find?_some h
    simpa using this
  sqrt_complete y := by
    revert y
    have : ∀ y : ZMod 7, ∃ z, ([0, 1, 2, 3].find? fun z : ZMod 7 => z * z = y * y) = some z := by decide
    exact this
  ext := exampleExt_ok

instance (compact : Bool) : Generic.Killed 13 (exampleCurve compact).a (exampleCurve compact).b :=
  exampleKilled

/-- The points of `-x² + y² = 1 + 6x²y²` over the field with 13 elements, in the order of multiples of `(1, 6)`. -/
def examplePoints : List (ZMod 13 × ZMod 13) :=
  [(0, 1), (1, 6), (10, 4), (7, 2), (4, 8), (5, 0), (4, 5), (7, 11), (10, 9), (1, 7), (0, 12), (12, 7), (3, 9),
    (6, 11), (9, 5), (8, 0), (9, 8), (6, 2), (3, 4), (12, 6)]

/-- A twisted Edwards curve with 20 points; those of order 5 and the identity form the subgroup. -/
def exampleEdwards : Curve25519.Edwards 13 (ZMod 20) where
  d := 6
  size := 1
  coords e := examplePoints.getD e.val (0, 0)
  ofCoords x y := ((List.range 20).map fun k : ℕ => (k : ZMod 20)).find? fun e =>
    examplePoints.getD e.val (0, 0) = (x, y)
  sqrtRatio u v := [0, 2, 4, 6, 8, 10, 12].find? fun r : ZMod 13 => v * r ^ 2 = u
  basepoint := 4
  ext := exampleExt

set_option maxRecDepth 20000 in
theorem exampleEdwards_ok : Curve25519.Edwards.Ok 5 exampleEdwards where
  p_odd := by norm_num
  ℓ_odd := by norm_num
  p_le := by norm_num [exampleEdwards]
  ℓ_le := by norm_num [exampleEdwards]
  on_curve := by decide
  ofCoords := by decide +kernel
  all_points := by decide +kernel
  denominator := by decide
  coords_zero := by decide
  coords_neg := by decide
  sqrtRatio := by decide +kernel
  base_ne_zero := by decide
  base_order := by decide
  spans := by
    have : ∀ e : ZMod 20, 5 • e = 0 → ∃ k < 5, e = k • (4 : ZMod 20) := by decide
    intro e he
    obtain ⟨k, -, hk⟩ := this e he
    exact ⟨k, hk⟩
  ext := exampleExt_ok

/-- An example of a group with a canonical codec. -/
def exampleRistretto : Curve25519.Ristretto (ZMod 13) where
  size := 1
  basepoint := 2
  compress e := leBytes 1 e.val
  decompress b := if leValue b < 13 then some (leValue b : ZMod 13) else none
  ext := exampleExt

theorem exampleRistretto_ok : Curve25519.Ristretto.Ok 13 exampleRistretto where
  ℓ_le := by norm_num [exampleRistretto]
  base_ne_zero := by decide
  spans := by
    have : ∀ e : ZMod 13, ∃ k < 13, e = k • (2 : ZMod 13) := by decide
    intro e
    obtain ⟨k, -, hk⟩ := this e
    exact ⟨k, hk⟩
  compress_length e := leBytes_length _ _
  decompress_iff b e hb := by
    simp only [exampleRistretto] at hb ⊢
    constructor
    · intro h
      have := leBytes_deResidue (p := 13) hb h
      exact this
    · rintro rfl
      exact deResidue_leBytes (by norm_num) e
  ext := exampleExt_ok

/-! ## C63: `Generic<C>` -/

section
variable {p n : ℕ} [Fact p.Prime] [Fact n.Prime] (C : Generic.Curve p n) [Generic.Killed n C.a C.b]

/-- C63: `Generic<C>` meets the contract of the `Group` trait, for every curve of odd prime order. -/
theorem C63_generic_lawful (hC : C.Ok) : (Generic.backend C).Lawful where
  gen_ne_zero := hC.gen_ne_zero
  gen_spans e := by
    obtain ⟨k, hk⟩ := hC.spans e
    refine ⟨(k : ZMod n), ?_⟩
    rw [Nat.cast_smul_eq_nsmul]
    exact hk
  scalarSize_pos := hC.size_pos
  serScalar_length s := beBytes_length _ _
  deScalar_serScalar s := by
    have : NeZero n := ⟨(Fact.out : n.Prime).ne_zero⟩
    exact Generic.fromRepr_beBytes hC.n_le s
  serScalar_deScalar b s hb h := by
    have : NeZero n := ⟨(Fact.out : n.Prime).ne_zero⟩
    have := Generic.fromRepr_eq_some (m := n) h
    rw [hb] at this
    exact this
  serElem_length e b h := by
    simp only [Generic.backend, Generic.copyFromSlice] at h ⊢
    split at h
    · cases h; assumption
    · cases h
  deElem_serElem e b h := by
    have hl : b.length = C.size + 1 := by
      simp only [Generic.backend, Generic.copyFromSlice] at h
      split at h
      · cases h; assumption
      · cases h
    exact (Generic.fromSec1_iff hC hl).mpr (.inl h)
  serElem_ne_zero e he := by
    rcases e with _ | ⟨x, y, h⟩
    · exact absurd rfl he
    · exact ⟨_, Generic.toSec1_some h⟩
  sha256_length := hC.ext.sha256_length
  fill32_length := hC.ext.fill_length 32

example : (Generic.backend (exampleCurve true)).Lawful ∧ (Generic.backend (exampleCurve false)).Lawful :=
  ⟨C63_generic_lawful _ (exampleCurve_ok true), C63_generic_lawful _ (exampleCurve_ok false)⟩

/-- C63: for `Generic<C>`, serialization panics on the identity and on no other element, and no string of
`ELEMENT_SIZE` bytes deserializes to the identity. -/
theorem C63_generic_identity (hC : C.Ok) : (Generic.backend C).Sec1Ser ∧
    ∀ b, b.length = (Generic.backend C).elementSize → (Generic.backend C).deElem b ≠ some 0 := by
  constructor
  · intro e
    constructor
    · intro h
      by_contra h0
      obtain ⟨b, hb⟩ := (C63_generic_lawful C hC).serElem_ne_zero e h0
      rw [hb] at h
      cases h
    · rintro rfl
      exact Generic.toSec1_zero hC
  · intro b hb h
    rcases (Generic.fromSec1_iff hC hb).mp h with h | ⟨-, x, y, h, he, -⟩
    · rw [Generic.toSec1_zero hC] at h; cases h
    · exact WeierstrassCurve.Affine.Point.some_ne_zero h he.symm

example : (Generic.backend (exampleCurve true)).Sec1Ser := (C63_generic_identity _ (exampleCurve_ok true)).1

/-- C63: which strings of `ELEMENT_SIZE` bytes `Generic<C>` decodes, and to what: the parity tag and the abscissa of
a point of the curve; if the curve supports compact points, also the tag 5 and the abscissa, for the point with the even
ordinate. -/
theorem C63_generic_decode (hC : C.Ok) (b : Bytes) (hb : b.length = C.size + 1)
    (e : Generic.Point C.a C.b) : (Generic.backend C).deElem b = some e ↔
      ∃ x y h, e = .some x y h ∧ b.tail = beBytes C.size x.val ∧
        (b.head? = some (if y.val % 2 = 1 then 3 else 2) ∨
          C.compact = true ∧ y.val % 2 = 0 ∧ b.head? = some 5) := by
  change Generic.fromSec1 C b = some e ↔ _
  rw [Generic.fromSec1_iff hC hb]
  rcases b with _ | ⟨tag, rest⟩
  · simp at hb
  rcases e with _ | ⟨x, y, h⟩
  · have h0 := Generic.toSec1_zero hC
    rw [WeierstrassCurve.Affine.Point.zero_def] at h0
    rw [h0]
    simp
  · rw [Generic.toSec1_some h]
    simp only [Option.some.injEq, List.cons.injEq, List.tail_cons, List.head?_cons,
      WeierstrassCurve.Affine.Point.some.injEq, Generic.isOdd, decide_eq_true_eq, decide_eq_false_iff_not]
    constructor
    · rintro (⟨h1, h2⟩ | ⟨h1, x', y', -, ⟨rfl, rfl⟩, h3, h4, h5⟩)
      · exact ⟨x, y, h, ⟨rfl, rfl⟩, h2.symm, .inl h1.symm⟩
      · exact ⟨x, y, h, ⟨rfl, rfl⟩, h5, .inr ⟨h1, by omega, h4⟩⟩
    · rintro ⟨x', y', -, ⟨rfl, rfl⟩, h2, (h3 | ⟨h3, h4, h5⟩)⟩
      · exact .inl ⟨h3.symm, h2.symm⟩
      · exact .inr ⟨h3, x, y, h, ⟨rfl, rfl⟩, by omega, h5, h2⟩

/-- The tag 4 is not decoded. -/
example (e : Generic.Point (exampleCurve true).a (exampleCurve true).b) :
    (Generic.backend (exampleCurve true)).deElem [4, 1] ≠ some e := fun h => by
  obtain ⟨x, y, hxy, -, -, h | ⟨-, -, h⟩⟩ :=
    (C63_generic_decode (exampleCurve true) (exampleCurve_ok true) [4, 1] rfl e).mp h
  · split_ifs at h <;> exact absurd h (by decide)
  · exact absurd h (by decide)

example : ((Generic.backend (exampleCurve false)).deElem [2, 1]).isSome = true ∧
    ((Generic.backend (exampleCurve false)).deElem [5, 1]).isSome = false ∧
    ((Generic.backend (exampleCurve true)).deElem [5, 1]).isSome = true ∧
    ((Generic.backend (exampleCurve true)).deElem [2, 0]).isSome = false := by
  decide

/-- C63: which strings of other lengths `Generic<C>` decodes: the byte 0 for the identity, and the tag 4 with both
coordinates of a point of the curve. (The crate passes strings of `ELEMENT_SIZE` bytes only, but the method is public.) -/
theorem C63_generic_decode_other (hC : C.Ok) (b : Bytes) (hb : b.length ≠ C.size + 1)
    (e : Generic.Point C.a C.b) : (Generic.backend C).deElem b = some e ↔
      (b = [0] ∧ e = 0) ∨
      ∃ x y h, e = .some x y h ∧ b = 4 :: (beBytes C.size x.val ++ beBytes C.size y.val) := by
  have hp0 : NeZero p := ⟨(Fact.out : p.Prime).ne_zero⟩
  change Generic.fromSec1 C b = some e ↔ _
  rcases b with _ | ⟨tag, rest⟩
  · simp [Generic.fromSec1]
  have hl : rest.length ≠ C.size := by simpa using hb
  simp only [Generic.fromSec1, hl, if_false, false_and, List.cons.injEq]
  by_cases h0 : tag = 0
  · subst h0
    simp only [if_true, true_and, show ((0 : UInt8) = 4) = False by decide, false_and, and_false, exists_false, or_false]
    by_cases hr : rest = []
    · simp [hr, eq_comm]
    · simp [hr]
  rw [if_neg h0]
  by_cases h4 : tag = 4
  · subst h4
    rw [if_neg (by decide), if_pos rfl]
    simp only [show ((4 : UInt8) = 0) = False by decide, false_and, false_or, true_and]
    by_cases hr : rest.length = 2 * C.size
    · rw [if_pos hr]
      constructor
      · intro h
        obtain ⟨x, hx, h⟩ := Option.bind_eq_some_iff.mp h
        obtain ⟨y, hy, h⟩ := Option.bind_eq_some_iff.mp h
        have hx' := Generic.fromRepr_eq_some (m := p) hx
        have hy' := Generic.fromRepr_eq_some (m := p) hy
        rw [List.length_take, hr, Nat.min_eq_left (by omega)] at hx'
        rw [List.length_drop, hr, show 2 * C.size - C.size = C.size by omega] at hy'
        unfold Generic.mkPoint at h
        split at h
        · rename_i hc
          cases h
          exact ⟨x, y, ((Generic.curve C.a C.b).equation_iff_nonsingular_of_Δ_ne_zero hc.2).mp
            (by rw [WeierstrassCurve.Affine.equation_iff]; linear_combination hc.1), rfl,
            by rw [hx', hy', List.take_append_drop]⟩
        · cases h
      · rintro ⟨x, y, h, rfl, rfl⟩
        rw [List.take_left' (beBytes_length _ _), List.drop_left' (beBytes_length _ _)]
        have heq := (WeierstrassCurve.Affine.equation_iff _ _).mp h.1
        rw [Option.bind_eq_bind, Generic.fromRepr_beBytes hC.p_le, Option.bind_some, Generic.fromRepr_beBytes hC.p_le, Option.bind_some, Generic.mkPoint, dif_pos]
        exact ⟨by linear_combination heq, hC.disc⟩
    · rw [if_neg hr]
      refine iff_of_false (by simp) ?_
      rintro ⟨x, y, h, -, rfl⟩
      exact hr (by rw [List.length_append, beBytes_length, beBytes_length]; omega)
  · simp only [h0, h4, if_false, false_and, and_false, exists_false, or_false, iff_false]
    split_ifs <;> simp

-- (1, 2) is a point of the example curve
example : ((Generic.backend (exampleCurve false)).deElem [4, 1, 2]).isSome = true ∧
    ((Generic.backend (exampleCurve false)).deElem [4, 2, 1]).isSome = false ∧
    (Generic.backend (exampleCurve false)).deElem [0] = some 0 ∧
    ((Generic.backend (exampleCurve false)).deElem [2, 0, 1]).isSome = false := by
  decide

/-- C63: without compact points, the element encoding is canonical. -/
theorem C63_generic_canonical (hC : C.Ok) (h : C.compact = false) : (Generic.backend C).CanonicalElems := by
  intro b e hb he
  rcases (Generic.fromSec1_iff hC hb).mp he with h' | ⟨h', -⟩
  · exact h'
  · rw [h] at h'; cases h'

example : (Generic.backend (exampleCurve false)).CanonicalElems :=
  C63_generic_canonical _ (exampleCurve_ok false) rfl

/-- C63 (violation): with compact points, the same public key has two byte representations, and `PublicKey`s obtained
from them do not compare equal. -/
theorem C63_generic_compact_keys (hC : C.Ok) (h : C.compact = true) :
    ∃ b b' k k', PublicKey.fromBytes (Generic.backend C) b = .ok k ∧
      PublicKey.fromBytes (Generic.backend C) b' = .ok k' ∧ k.element = k'.element ∧
      PublicKey.eq k k' = false := by
  obtain ⟨x, y, hn, heven⟩ : ∃ x y, ∃ _ : (Generic.curve C.a C.b).Nonsingular x y, y.val % 2 = 0 := by
    rcases hg : C.gen with _ | ⟨x, y, hn⟩
    · exact absurd hg hC.gen_ne_zero
    · rcases Nat.mod_two_eq_zero_or_one y.val with he | he
      · exact ⟨x, y, hn, he⟩
      · refine ⟨x, -y, ?_, ?_⟩
        · have := (WeierstrassCurve.Affine.nonsingular_neg x y).mpr hn
          simpa [WeierstrassCurve.Affine.negY] using this
        · rw [val_neg_parity hC.p_odd (Generic.y_ne_zero hC hn), he]
  have hdec : ∀ tag : UInt8, (tag = 2 ∨ tag = 5) → PublicKey.fromBytes (Generic.backend C)
      (tag :: beBytes C.size x.val) = .ok ⟨tag :: beBytes C.size x.val, .some x y hn⟩ := by
    intro tag ht
    have hl : (tag :: beBytes C.size x.val).length = C.size + 1 := by simp [beBytes_length]
    have h1 : (Generic.backend C).deElem (tag :: beBytes C.size x.val) = some (.some x y hn) := by
      rw [C63_generic_decode C hC _ hl]
      refine ⟨x, y, hn, rfl, rfl, ?_⟩
      rcases ht with rfl | rfl
      · left; simp [heven]
      · right; exact ⟨h, heven, rfl⟩
    have hne := WeierstrassCurve.Affine.Point.some_ne_zero hn
    simp only [PublicKey.fromBytes, h1]
    have hl' : (tag :: beBytes C.size x.val).length = (Generic.backend C).elementSize := hl
    simp [hl', hne]
  refine ⟨_, _, _, _, hdec 2 (.inl rfl), hdec 5 (.inr rfl), rfl, ?_⟩
  simp [PublicKey.eq]

example : ∃ b b' k k', PublicKey.fromBytes (Generic.backend (exampleCurve true)) b = .ok k ∧
    PublicKey.fromBytes (Generic.backend (exampleCurve true)) b' = .ok k' ∧ k.element = k'.element ∧
    PublicKey.eq k k' = false :=
  C63_generic_compact_keys _ (exampleCurve_ok true) rfl

end

/-! ## C63: `Ristretto` -/

section
variable {E : Type} [AddCommGroup E] {ℓ : ℕ} [Fact ℓ.Prime] [Module (ZMod ℓ) E] (R : Curve25519.Ristretto E)

/-- C63: `Ristretto` meets the contract of the `Group` trait, with total serialization and a canonical encoding. -/
theorem C63_ristretto (hR : R.Ok ℓ) : (Curve25519.ristrettoBackend ℓ R).Lawful ∧
    (Curve25519.ristrettoBackend ℓ R).TotalSer ∧ (Curve25519.ristrettoBackend ℓ R).CanonicalElems := by
  refine ⟨?_, fun e => ⟨_, rfl⟩, ?_⟩
  · constructor
    case gen_ne_zero => exact hR.base_ne_zero
    case gen_spans =>
      intro e
      obtain ⟨k, hk⟩ := hR.spans e
      refine ⟨(k : ZMod ℓ), ?_⟩
      rw [Nat.cast_smul_eq_nsmul]
      exact hk
    case scalarSize_pos =>
      have h1 := hR.ℓ_le
      have h2 := (Fact.out : ℓ.Prime).two_le
      rcases Nat.eq_zero_or_pos R.size with h | h
      · rw [h] at h1; simp at h1; omega
      · exact h
    case serScalar_length => exact fun s => leBytes_length _ _
    case deScalar_serScalar => exact fun s => Curve25519.fromCanonicalBytes_leBytes hR.ℓ_le s
    case serScalar_deScalar =>
      intro b s hb h
      have := Curve25519.fromCanonicalBytes_eq_some h
      rw [hb] at this
      exact this
    case serElem_length =>
      intro e b h
      cases h
      exact hR.compress_length e
    case deElem_serElem =>
      intro e b h
      cases h
      have := hR.compress_length e
      simp only [Curve25519.ristrettoBackend, this, if_true]
      exact (hR.decompress_iff _ e this).mpr rfl
    case serElem_ne_zero => exact fun e _ => ⟨_, rfl⟩
    case sha256_length => exact hR.ext.sha256_length
    case fill32_length => exact hR.ext.fill_length 32
  · intro b e hb h
    have hb' : b.length = R.size := hb
    simp only [Curve25519.ristrettoBackend, hb', if_true] at h ⊢
    rw [(hR.decompress_iff _ e hb').mp h]

example : (Curve25519.ristrettoBackend 13 exampleRistretto).Lawful := (C63_ristretto _ exampleRistretto_ok).1

/-- C63: `Ristretto::deserialize_element` accepts exactly the encodings of elements, among byte strings of any length. -/
theorem C63_ristretto_decode (hR : R.Ok ℓ) (b : Bytes) (e : E) :
    (Curve25519.ristrettoBackend ℓ R).deElem b = some e ↔ (Curve25519.ristrettoBackend ℓ R).serElem e = some b := by
  simp only [Curve25519.ristrettoBackend, Option.some.injEq]
  constructor
  · intro h
    split at h
    · rename_i hb
      exact (hR.decompress_iff b e hb).mp h
    · cases h
  · rintro rfl
    rw [if_pos (hR.compress_length e), hR.decompress_iff _ _ (hR.compress_length e)]

example (b : Bytes) (e : _) (h : (Curve25519.ristrettoBackend 13 exampleRistretto).deElem b = some e) :
    (Curve25519.ristrettoBackend 13 exampleRistretto).serElem e = some b :=
  (C63_ristretto_decode _ exampleRistretto_ok b e).mp h

end

/-! ## C63: `Curve25519Subgroup` -/

section
variable {p : ℕ} [Fact p.Prime] {P : Type} [AddCommGroup P] [DecidableEq P] {ℓ : ℕ} [Fact ℓ.Prime]
  (C : Curve25519.Edwards p P)

/-- C63: a point accepted by `Curve25519Subgroup::deserialize_element` is in the prime-order subgroup; every point
of the subgroup round-trips. -/
theorem C63_curve25519_decode (hC : C.Ok ℓ) :
    (∀ b e, Curve25519.deserializeElement ℓ C b = some e → ∃ k : ℕ, e = k • C.basepoint) ∧
    ∀ k : ℕ, Curve25519.deserializeElement ℓ C (Curve25519.compress C (k • C.basepoint)) =
      some (k • C.basepoint) := by
  constructor
  · intro b e h
    exact hC.spans e ((Curve25519.deserializeElement_iff hC).mp h).2.1
  · intro k
    have h1 : ℓ • (k • C.basepoint) = 0 := by rw [smul_comm, hC.base_order, smul_zero]
    rw [Curve25519.deserializeElement, if_pos (Curve25519.leValue_compress hC _).1,
      Curve25519.decompress_compress hC]
    simp [Option.filter, h1]

example (e : _) (h : Curve25519.deserializeElement 5 exampleEdwards [8] = some e) : ∃ k : ℕ, e = k • exampleEdwards.basepoint :=
  (C63_curve25519_decode exampleEdwards exampleEdwards_ok).1 [8] e h

example : Curve25519.deserializeElement 5 exampleEdwards [4] = some 2 ∨
    Curve25519.deserializeElement 5 exampleEdwards [8] = some 4 := by
  decide +kernel

/-- C63: adding a point of small order to an element gives a string which is not accepted. -/
theorem C63_curve25519_torsion (hC : C.Ok ℓ) (e t : P) (m : ℕ) (hm : Nat.Coprime m ℓ) (ht : m • t = 0)
    (h0 : t ≠ 0) (he : ℓ • e = 0) :
    Curve25519.deserializeElement ℓ C (Curve25519.compress C (e + t)) = none := by
  rw [Curve25519.deserializeElement, if_pos (Curve25519.leValue_compress hC _).1,
    Curve25519.decompress_compress hC]
  have h1 : ℓ • (e + t) ≠ 0 := by
    rw [smul_add, he, zero_add]
    intro h2
    have h3 := Nat.dvd_gcd (addOrderOf_dvd_of_nsmul_eq_zero ht) (addOrderOf_dvd_of_nsmul_eq_zero h2)
    rw [hm.gcd_eq_one, Nat.dvd_one] at h3
    exact h0 (AddMonoid.addOrderOf_eq_one_iff.mp h3)
  rw [Option.filter, if_neg (by simpa using h1)]

example : Curve25519.deserializeElement 5 exampleEdwards (Curve25519.compress exampleEdwards (4 + 10)) = none :=
  C63_curve25519_torsion exampleEdwards exampleEdwards_ok 4 10 2 (by norm_num) (by decide) (by decide) (by decide)

/-- C63: `Curve25519Subgroup` meets the contract of the `Group` trait, with total serialization. -/
theorem C63_curve25519_lawful (hC : C.Ok ℓ) : (Curve25519.backend ℓ C hC.base_order).Lawful ∧
    (Curve25519.backend ℓ C hC.base_order).TotalSer := by
  have hdec : ∀ e : Curve25519.Subgroup P ℓ, Curve25519.deserializeElement ℓ C (Curve25519.compress C e.1) =
      some e.1 := by
    intro e
    have h1 : ℓ • e.1 = 0 := e.2
    rw [Curve25519.deserializeElement, if_pos (Curve25519.leValue_compress hC _).1,
      Curve25519.decompress_compress hC]
    simp [Option.filter, h1]
  refine ⟨?_, fun e => ⟨_, rfl⟩⟩
  constructor
  case gen_ne_zero => exact fun h => hC.base_ne_zero (congrArg Subtype.val h)
  case gen_spans =>
    intro e
    obtain ⟨k, hk⟩ := hC.spans e.1 e.2
    refine ⟨(k : ZMod ℓ), ?_⟩
    rw [Nat.cast_smul_eq_nsmul]
    exact Subtype.ext hk
  case scalarSize_pos =>
    have h1 := hC.ℓ_le
    have h2 := (Fact.out : ℓ.Prime).two_le
    rcases Nat.eq_zero_or_pos C.size with h | h
    · rw [h] at h1; simp at h1; omega
    · exact h
  case serScalar_length => exact fun s => leBytes_length _ _
  case deScalar_serScalar => exact fun s => Curve25519.fromCanonicalBytes_leBytes hC.ℓ_le s
  case serScalar_deScalar =>
    intro b s hb h
    have := Curve25519.fromCanonicalBytes_eq_some h
    rw [hb] at this
    exact this
  case serElem_length =>
    intro e b h
    cases h
    exact (Curve25519.leValue_compress hC e.1).1
  case deElem_serElem =>
    intro e b h
    cases h
    have h1 : ℓ • e.1 = 0 := e.2
    simp only [Curve25519.backend, hdec e, Option.bind_eq_bind, Option.bind_some, h1, dif_pos]
  case serElem_ne_zero => exact fun e _ => ⟨_, rfl⟩
  case sha256_length => exact hC.ext.sha256_length
  case fill32_length => exact hC.ext.fill_length 32

example : (Curve25519.backend 5 exampleEdwards exampleEdwards_ok.base_order).Lawful :=
  (C63_curve25519_lawful _ exampleEdwards_ok).1

/-- What the backend of `Curve25519Subgroup` decodes. -/
theorem backend_deElem (hC : C.Ok ℓ) (b : Bytes) (e : Curve25519.Subgroup P ℓ) :
    (Curve25519.backend ℓ C hC.base_order).deElem b = some e ↔
      Curve25519.deserializeElement ℓ C b = some e.1 := by
  have h1 : ℓ • e.1 = 0 := e.2
  simp only [Curve25519.backend, Option.bind_eq_bind, Option.bind_eq_some_iff]
  constructor
  · rintro ⟨a, ha, h⟩
    split at h
    · cases h; exact ha
    · cases h
  · intro h
    exact ⟨e.1, h, by simp [h1]⟩

/-- C63 (violation): the encoding of the identity of `Curve25519Subgroup` is not canonical: a string with the sign bit
set is accepted besides the one produced by serialization. -/
theorem C63_curve25519_identity (hC : C.Ok ℓ) : ∃ b b', b ≠ b' ∧
    (Curve25519.backend ℓ C hC.base_order).serElem 0 = some b ∧
    (Curve25519.backend ℓ C hC.base_order).deElem b = some 0 ∧
    (Curve25519.backend ℓ C hC.base_order).deElem b' = some 0 ∧ b'.length = b.length ∧
    ¬(Curve25519.backend ℓ C hC.base_order).CanonicalElems := by
  obtain ⟨h1, h2⟩ := Curve25519.half_size hC
  have hp := (Fact.out : p.Prime).two_le
  have hlt : 1 + 256 ^ C.size / 2 < 256 ^ C.size := by omega
  set b' := leBytes C.size (1 + 256 ^ C.size / 2) with hb'
  have hv : leValue b' = 1 + 256 ^ C.size / 2 := leValue_leBytes _ _ hlt
  obtain ⟨hlen, hval⟩ := Curve25519.leValue_compress hC (0 : P)
  have hdec : Curve25519.deserializeElement ℓ C b' = some 0 := by
    rw [Curve25519.deserializeElement_iff hC, hv]
    refine ⟨leBytes_length _ _, smul_zero _, ?_, .inl (by rw [hC.coords_zero])⟩
    rw [Nat.add_mod_right, Nat.mod_eq_of_lt (by omega), hC.coords_zero]
    simp
  have hne : Curve25519.compress C 0 ≠ b' := by
    intro h
    have hone : Fact (1 < p) := ⟨by omega⟩
    rw [h, hv, hC.coords_zero] at hval
    simp only [ZMod.val_zero, Nat.zero_mod, mul_zero, add_zero, ZMod.val_one] at hval
    omega
  refine ⟨Curve25519.compress C 0, b', hne, rfl, ?_, ?_, ?_, ?_⟩
  · exact (C63_curve25519_lawful C hC).1.deElem_serElem 0 _ rfl
  · exact (backend_deElem C hC b' 0).mpr hdec
  · rw [hlen]; exact leBytes_length _ _
  · intro hc
    have := hc b' 0 (leBytes_length _ _) ((backend_deElem C hC b' 0).mpr hdec)
    exact hne (Option.some.inj this)

example := C63_curve25519_identity exampleEdwards exampleEdwards_ok

example : Curve25519.deserializeElement 5 exampleEdwards [1] = some 0 ∧
    Curve25519.deserializeElement 5 exampleEdwards [129] = some 0 ∧
    Curve25519.deserializeElement 5 exampleEdwards [14] = some 0 := by
  decide +kernel

/-- C63: the encodings of the other elements of `Curve25519Subgroup` are canonical iff no such element has an ordinate
among the residues with two representations below `2^255`. -/
theorem C63_curve25519_canonical_iff (hC : C.Ok ℓ) :
    (Curve25519.backend ℓ C hC.base_order).CanonicalNonzero ↔
      ∀ k : ℕ, k • C.basepoint ≠ 0 → 256 ^ C.size / 2 ≤ (C.coords (k • C.basepoint)).2.val + p := by
  have hp0 : NeZero p := ⟨(Fact.out : p.Prime).ne_zero⟩
  obtain ⟨h1, h2⟩ := Curve25519.half_size hC
  have hp := (Fact.out : p.Prime).two_le
  have hhalf : 0 < 256 ^ C.size / 2 := by omega
  constructor
  · intro hc k hk
    by_contra hlt
    push Not at hlt
    have hk0 : ℓ • (k • C.basepoint) = 0 := by rw [smul_comm, hC.base_order, smul_zero]
    set e : Curve25519.Subgroup P ℓ := ⟨k • C.basepoint, hk0⟩ with he
    have he0 : e ≠ 0 := fun h => hk (congrArg Subtype.val h)
    set v := (C.coords (k • C.basepoint)).2.val + p +
      (256 ^ C.size / 2) * ((C.coords (k • C.basepoint)).1.val % 2) with hv
    have hvlt : v < 256 ^ C.size := by
      rcases Nat.mod_two_eq_zero_or_one (C.coords (k • C.basepoint)).1.val with h | h <;>
        rw [h] at hv <;> omega
    have hd : Curve25519.deserializeElement ℓ C (leBytes C.size v) = some e.1 := by
      rw [Curve25519.deserializeElement_iff hC, leValue_leBytes _ _ hvlt, hv, Nat.add_mul_mod_self_left,
        Nat.mod_eq_of_lt hlt, Nat.add_mul_div_left _ _ hhalf, Nat.div_eq_of_lt hlt]
      refine ⟨leBytes_length _ _, hk0, ?_, .inr (by simp [he])⟩
      push_cast
      simp [he]
    have := hc _ e (leBytes_length _ _) he0 ((backend_deElem C hC _ e).mpr hd)
    have h3 : Curve25519.compress C e.1 = leBytes C.size v := Option.some.inj this
    have h4 := (Curve25519.leValue_compress hC e.1).2
    rw [h3, leValue_leBytes _ _ hvlt] at h4
    simp only [he] at h4
    omega
  · intro hsmall b e hb he0 hd
    have hd := (backend_deElem C hC b e).mp hd
    obtain ⟨hl, he, hy, hx⟩ := (Curve25519.deserializeElement_iff hC).mp hd
    have hne : e.1 ≠ 0 := fun h => he0 (Subtype.ext h)
    have hx := hx.resolve_left (Curve25519.x_ne_zero hC he hne)
    obtain ⟨k, hk⟩ := hC.spans e.1 he
    have hs := hsmall k (by rw [← hk]; exact hne)
    rw [← hk] at hs
    change some (Curve25519.compress C e.1) = some b
    refine congrArg some (leValue_inj ?_ ?_)
    · rw [(Curve25519.leValue_compress hC e.1).1, hl]
    · rw [(Curve25519.leValue_compress hC e.1).2, hx]
      have hblt := leValue_lt b
      rw [hl] at hblt
      have hq : leValue b / (256 ^ C.size / 2) < 2 := by
        rw [Nat.div_lt_iff_lt_mul hhalf]; omega
      have hm := Nat.mod_lt (leValue b) hhalf
      rw [Nat.mod_eq_of_lt hq]
      have hval : (C.coords e.1).2.val = leValue b % (256 ^ C.size / 2) := by
        rw [← hy, ZMod.val_natCast]
        by_cases hlt : leValue b % (256 ^ C.size / 2) < p
        · exact Nat.mod_eq_of_lt hlt
        · exfalso
          rw [← hy, ZMod.val_natCast] at hs
          have h5 := Nat.mod_le (leValue b % (256 ^ C.size / 2) - p) p
          have h6 : (leValue b % (256 ^ C.size / 2)) % p = (leValue b % (256 ^ C.size / 2) - p) % p :=
            (Nat.mod_eq_sub_mod (by omega))
          omega
      rw [hval]
      exact Nat.mod_add_div _ _

example : ¬(Curve25519.backend 5 exampleEdwards exampleEdwards_ok.base_order).CanonicalNonzero := by
  rw [C63_curve25519_canonical_iff _ exampleEdwards_ok]
  intro h
  have := h 1 (by decide)
  revert this
  decide

end

/-! ## C64 -/

/-- The external functions with the transcript and the RNG replaced by a given string of bytes. -/
def Externals.withBytes (X : Externals) (b : Bytes) : Externals :=
  { X with prf := fun _ k => b.take k, fill := fun k r => (b.take k, r) }

/-- The challenge and the random scalar made of a string of bytes of twice the size of a scalar. -/
theorem withBytes_wide (size ℓ : ℕ) (X : Externals) (log : List Entry) (rng : X.Rng) (b : Bytes)
    (hb : b.length = 2 * size) :
    Curve25519.scalarFromRandomBytes ℓ size (X.withBytes b) log = Curve25519.fromBytesModOrderWide ℓ b ∧
    (Curve25519.generateScalar ℓ size (X.withBytes b) rng).1 = Curve25519.fromBytesModOrderWide ℓ b := by
  simp [Curve25519.scalarFromRandomBytes, Curve25519.generateScalar, Externals.withBytes, ← hb]

/-- The strings of bytes giving a challenge, or a random scalar. -/
theorem withBytes_sets (size ℓ : ℕ) (X : Externals) (log : List Entry) (rng : X.Rng) (s : ZMod ℓ) :
    {b : Bytes | b.length = 2 * size ∧ Curve25519.scalarFromRandomBytes ℓ size (X.withBytes b) log = s} =
      {b : Bytes | b.length = 2 * size ∧ Curve25519.fromBytesModOrderWide ℓ b = s} ∧
    {b : Bytes | b.length = 2 * size ∧ (Curve25519.generateScalar ℓ size (X.withBytes b) rng).1 = s} =
      {b : Bytes | b.length = 2 * size ∧ Curve25519.fromBytesModOrderWide ℓ b = s} := by
  constructor <;> ext b <;> simp only [Set.mem_ofPred_eq] <;> refine and_congr_right fun hb => ?_
  · rw [(withBytes_wide size ℓ X log rng b hb).1]
  · rw [(withBytes_wide size ℓ X log rng b hb).2]

theorem wide_count (k ℓ : ℕ) [NeZero ℓ] (s : ZMod ℓ) :
    {b : Bytes | b.length = k ∧ Curve25519.fromBytesModOrderWide ℓ b = s}.ncard = 256 ^ k / ℓ ∨
    {b : Bytes | b.length = k ∧ Curve25519.fromBytesModOrderWide ℓ b = s}.ncard = 256 ^ k / ℓ + 1 := by
  rw [Curve25519.ncard_wide]
  split
  · exact .inr rfl
  · exact .inl rfl

/-- C64: challenges and random scalars (made of 64 random bytes) are almost uniform: the number of strings of bytes
giving a scalar is the same for all scalars, up to one. -/
theorem C64_count (size ℓ : ℕ) [NeZero ℓ] (X : Externals) (log : List Entry) (rng : X.Rng) (s : ZMod ℓ) :
    ∃ N, (N = 256 ^ (2 * size) / ℓ ∨ N = 256 ^ (2 * size) / ℓ + 1) ∧
    {b : Bytes | b.length = 2 * size ∧
      Curve25519.scalarFromRandomBytes ℓ size (X.withBytes b) log = s}.ncard = N ∧
    {b : Bytes | b.length = 2 * size ∧
      (Curve25519.generateScalar ℓ size (X.withBytes b) rng).1 = s}.ncard = N := by
  refine ⟨_, wide_count (2 * size) ℓ s, ?_, ?_⟩
  · rw [(withBytes_sets size ℓ X log rng s).1]
  · rw [(withBytes_sets size ℓ X log rng s).2]

example : 256 ^ (2 * 1) / 101 = 648 ∧ ∃ N, (N = 648 ∨ N = 649) ∧ {b : Bytes | b.length = 2 ∧
    Curve25519.scalarFromRandomBytes 101 1 (exampleExt.withBytes b) [] = 42}.ncard = N := by
  refine ⟨by norm_num, ?_⟩
  obtain ⟨N, hN, h, -⟩ := C64_count 1 101 exampleExt [] (0 : ℕ) 42
  exact ⟨N, by simpa using hN, h⟩

/-- The groups with the transcript and the RNG replaced by a given string of bytes. -/
def Curve25519.Ristretto.withBytes {E : Type} (R : Curve25519.Ristretto E) (b : Bytes) : Curve25519.Ristretto E :=
  { R with ext := R.ext.withBytes b }

def Curve25519.Edwards.withBytes {p : ℕ} {P : Type} (C : Curve25519.Edwards p P) (b : Bytes) : Curve25519.Edwards p P :=
  { C with ext := C.ext.withBytes b }

/-- C64: challenges and random scalars in `Ristretto` are almost uniform: for all scalars, the number of strings of 64
bytes from the transcript, or from the RNG, which give this scalar is the same up to one. -/
theorem C64_ristretto {E : Type} (ℓ : ℕ) [NeZero ℓ] (R : Curve25519.Ristretto E) (log : List Entry) (rng : R.ext.Rng)
    (s : ZMod ℓ) :
    ∃ N, (N = 256 ^ (2 * R.size) / ℓ ∨ N = 256 ^ (2 * R.size) / ℓ + 1) ∧
    {b : Bytes | b.length = 2 * R.size ∧ (Curve25519.ristrettoBackend ℓ (R.withBytes b)).challenge log = s}.ncard = N ∧
    {b : Bytes | b.length = 2 * R.size ∧
      ((Curve25519.ristrettoBackend ℓ (R.withBytes b)).genScalar rng).1 = s}.ncard = N :=
  C64_count R.size ℓ R.ext log rng s

example : ∃ N, (N = 256 ^ (2 * exampleRistretto.size) / 13 ∨ N = 256 ^ (2 * exampleRistretto.size) / 13 + 1) ∧
    {b : Bytes | b.length = 2 * exampleRistretto.size ∧
      (Curve25519.ristrettoBackend 13 (exampleRistretto.withBytes b)).challenge [.chal "c"] = 4}.ncard = N := by
  obtain ⟨N, h1, h2, -⟩ := C64_ristretto 13 exampleRistretto [.chal "c"] (0 : ℕ) 4
  exact ⟨N, h1, h2⟩

/-- C64: the same for `Curve25519Subgroup`. -/
theorem C64_curve25519 {p : ℕ} {P : Type} [AddCommGroup P] [DecidableEq P] (ℓ : ℕ) [NeZero ℓ]
    (C : Curve25519.Edwards p P) (hb : ℓ • C.basepoint = 0) (log : List Entry) (rng : C.ext.Rng) (s : ZMod ℓ) :
    ∃ N, (N = 256 ^ (2 * C.size) / ℓ ∨ N = 256 ^ (2 * C.size) / ℓ + 1) ∧
    {b : Bytes | b.length = 2 * C.size ∧ (Curve25519.backend ℓ (C.withBytes b) hb).challenge log = s}.ncard = N ∧
    {b : Bytes | b.length = 2 * C.size ∧ ((Curve25519.backend ℓ (C.withBytes b) hb).genScalar rng).1 = s}.ncard = N :=
  C64_count C.size ℓ C.ext log rng s

example : ∃ N, (N = 256 ^ (2 * exampleEdwards.size) / 5 ∨ N = 256 ^ (2 * exampleEdwards.size) / 5 + 1) ∧
    {b : Bytes | b.length = 2 * exampleEdwards.size ∧
      (Curve25519.backend 5 (exampleEdwards.withBytes b) exampleEdwards_ok.base_order).challenge [.chal "c"] = 4}.ncard = N
    := by
  obtain ⟨N, h1, h2, -⟩ := C64_curve25519 5 exampleEdwards exampleEdwards_ok.base_order [.chal "c"] (0 : ℕ) 4
  exact ⟨N, h1, h2⟩

theorem wide_distance (k ℓ : ℕ) [NeZero ℓ] :
    (1 / 2 : ℚ) * ∑ s : ZMod ℓ,
      |({b : Bytes | b.length = k ∧ Curve25519.fromBytesModOrderWide ℓ b = s}.ncard : ℚ) / 256 ^ k - 1 / ℓ| ≤
      (ℓ : ℚ) / (2 * 256 ^ k) := by
  have hℓ : (0 : ℚ) < ℓ := by exact_mod_cast NeZero.pos ℓ
  have hk : (0 : ℚ) < 256 ^ k := by positivity
  have hterm : ∀ s : ZMod ℓ,
      |({b : Bytes | b.length = k ∧ Curve25519.fromBytesModOrderWide ℓ b = s}.ncard : ℚ) / 256 ^ k - 1 / ℓ| ≤
        1 / 256 ^ k := by
    intro s
    have h1 : ((256 ^ k / ℓ : ℕ) : ℚ) ≤ 256 ^ k / ℓ := by
      have := @Nat.cast_div_le ℚ _ _ _ (256 ^ k) ℓ
      push_cast at this
      exact this
    have h2 : (256 ^ k : ℚ) / ℓ ≤ (256 ^ k / ℓ : ℕ) + 1 := by
      rw [div_le_iff₀ hℓ]
      have := Nat.lt_div_mul_add (a := 256 ^ k) (NeZero.pos ℓ)
      have h3 : (256 ^ k : ℕ) ≤ (256 ^ k / ℓ + 1) * ℓ := by nlinarith
      exact_mod_cast h3
    have h4 : ∀ c : ℚ, |c - 256 ^ k / ℓ| ≤ 1 → |c / 256 ^ k - 1 / ℓ| ≤ 1 / 256 ^ k := by
      intro c hc
      have : c / 256 ^ k - 1 / ℓ = (c - 256 ^ k / ℓ) / 256 ^ k := by field_simp
      rw [this, abs_div, abs_of_pos hk]
      gcongr
    refine h4 _ ?_
    rw [abs_le]
    rcases wide_count k ℓ s with h | h <;> rw [h] <;> push_cast at * <;> constructor <;> linarith
  calc (1 / 2 : ℚ) * ∑ s : ZMod ℓ, _ ≤ (1 / 2) * ∑ _s : ZMod ℓ, 1 / 256 ^ k := by
        gcongr with s _; exact hterm s
    _ = (ℓ : ℚ) / (2 * 256 ^ k) := by
        rw [Finset.sum_const, Finset.card_univ, ZMod.card, nsmul_eq_mul]
        field_simp

/-- C64: the statistical distance between a challenge or a random scalar made of uniform bytes, and a uniform scalar, is
at most `ℓ / (2 · 256^(2 · size))`. -/
theorem C64_distance (size ℓ : ℕ) [NeZero ℓ] (X : Externals) (log : List Entry) (rng : X.Rng) :
    (1 / 2 : ℚ) * ∑ s : ZMod ℓ, |({b : Bytes | b.length = 2 * size ∧
        Curve25519.scalarFromRandomBytes ℓ size (X.withBytes b) log = s}.ncard : ℚ) / 256 ^ (2 * size) - 1 / ℓ| ≤
      (ℓ : ℚ) / (2 * 256 ^ (2 * size)) ∧
    (1 / 2 : ℚ) * ∑ s : ZMod ℓ, |({b : Bytes | b.length = 2 * size ∧
        (Curve25519.generateScalar ℓ size (X.withBytes b) rng).1 = s}.ncard : ℚ) / 256 ^ (2 * size) - 1 / ℓ| ≤
      (ℓ : ℚ) / (2 * 256 ^ (2 * size)) := by
  constructor
  · simp only [(withBytes_sets size ℓ X log rng _).1]
    exact wide_distance _ _
  · simp only [(withBytes_sets size ℓ X log rng _).2]
    exact wide_distance _ _

/-- The group order of Ristretto and Curve25519. -/
def curve25519Order : ℕ := 2 ^ 252 + 27742317777372353535851937790883648493

instance : NeZero curve25519Order := ⟨by norm_num [curve25519Order]⟩

/-- For 64 bytes and the real group order, the distance is below `2^-259`. -/
example (log : List Entry) : (1 / 2 : ℚ) * ∑ s : ZMod curve25519Order, |({b : Bytes | b.length = 64 ∧
      Curve25519.scalarFromRandomBytes curve25519Order 32 (exampleExt.withBytes b) log = s}.ncard : ℚ) /
        256 ^ 64 - 1 / curve25519Order| < 1 / (2 ^ 200 * 2 ^ 59) := by
  refine lt_of_le_of_lt (C64_distance 32 curve25519Order exampleExt log (0 : ℕ)).1 ?_
  norm_num [curve25519Order]

end ElasticElgamal
