import Verif.Model.Group.Concrete
import Verif.Toy

/-!
# Lemmas about the groups that can be computed with
-/

set_option autoImplicit false
set_option linter.unusedSectionVars false

namespace ElasticElgamal

open Toy Curves

/-! ## Lengths -/

namespace Merlin

theorem squeeze_length (f : KeccakState → KeccakState) (k : Nat) : ∀ s, (squeeze f s k).1.length = k := by
  induction k with
  | zero => intro s; rfl
  | succ k ih =>
    intro s
    simp only [squeeze, List.length_cons, ih]

theorem challengeBytesOf_length (log : List Entry) (k : Nat) : (challengeBytesOf log k).length = k := by
  unfold challengeBytesOf
  split
  · split
    · exact squeeze_length _ _ _
    · exact List.length_replicate
  · exact List.length_replicate

end Merlin

theorem length_flatMap_const {α : Type} (l : List α) (f : α → Bytes) (m : Nat) (hf : ∀ a ∈ l, (f a).length = m) :
    (l.flatMap f).length = l.length * m := by
  induction l with
  | nil => simp
  | cons a l ih =>
    rw [List.flatMap_cons, List.length_append, hf a List.mem_cons_self,
      ih fun b hb => hf b (List.mem_cons_of_mem _ hb), List.length_cons]
    ring

theorem Sha256.digest_length (msg : Bytes) : (Sha256.digest msg).length = 32 := by
  unfold Sha256.digest
  rw [length_flatMap_const _ _ 4 fun _ _ => by rw [beBytes, List.length_reverse, leBytes_length]]
  rfl

namespace ChaCha

theorem block_length (key : Bytes) (counter : Nat) : (block key counter).length = 64 := by
  unfold block
  rw [length_flatMap_const _ _ 4 fun _ _ => leBytes_length _ _, List.length_range]

/-- A byte of the key stream. -/
def streamByte (key : Bytes) (i : Nat) : UInt8 := (block key (i / 64)).getD (i % 64) 0

theorem block_eq (key : Bytes) (c : Nat) : block key c = (List.range 64).map fun j => streamByte key (64 * c + j) := by
  apply List.ext_getElem
  · rw [block_length, List.length_map, List.length_range]
  · intro j h _
    rw [block_length] at h
    rw [List.getElem_map, List.getElem_range, streamByte, show (64 * c + j) / 64 = c by omega,
      show (64 * c + j) % 64 = j by omega]
    rw [List.getD_eq_getElem?_getD, List.getElem?_eq_getElem (by rw [block_length]; exact h), Option.getD_some]

theorem flatMap_blocks {m : Nat} {f : Nat → Bytes} {g : Nat → UInt8}
    (hf : ∀ c, f c = (List.range m).map fun j => g (m * c + j)) (c n : Nat) :
    ((List.range n).flatMap fun i => f (c + i)) = (List.range (m * n)).map fun j => g (m * c + j) := by
  induction n with
  | zero => rfl
  | succ n ih =>
    rw [List.range_succ, List.flatMap_append, ih, Nat.mul_succ, List.range_add, List.map_append]
    congr 1
    rw [List.flatMap_cons, List.flatMap_nil, List.append_nil, hf, List.map_map]
    refine List.map_congr_left fun j _ => ?_
    rw [Function.comp_apply]
    congr 1
    ring

theorem blocks_eq (key : Bytes) (c n : Nat) : ((List.range n).flatMap fun i => block key (c + i)) =
    (List.range (64 * n)).map fun j => streamByte key (64 * c + j) := flatMap_blocks (block_eq key) c n

theorem fill_eq (k : Nat) (rng : Rng) : rng.fill k =
    ((List.range k).map fun j => streamByte rng.seed (4 * rng.wordPos + j),
      { rng with wordPos := rng.wordPos + (k + 3) / 4 }) := by
  unfold Rng.fill
  simp only [Prod.mk.injEq, and_true]
  rw [blocks_eq]
  apply List.ext_getElem
  · rw [List.length_take, List.length_drop, List.length_map, List.length_map, List.length_range, List.length_range]
    omega
  · intro j h _
    rw [List.getElem_take, List.getElem_drop, List.getElem_map, List.getElem_map, List.getElem_range,
      List.getElem_range]
    congr 1
    omega

theorem fill_length (k : Nat) (rng : Rng) : (rng.fill k).1.length = k := by
  rw [fill_eq, List.length_map, List.length_range]

end ChaCha

/-! ## Ristretto -/

namespace Ristretto255

open Ed25519

theorem coe_mem_even (e : Representative) : e.1 ∈ Even := by
  obtain ⟨k, hk⟩ := Ed25519.base_spans e.1 e.2
  rw [hk]
  exact Even.nsmul_mem base_mem k

/-- The element of the quotient. -/
def toElement : Representative →+ Element where
  toFun e := QuotientAddGroup.mk ⟨e.1, coe_mem_even e⟩
  map_zero' := rfl
  map_add' _ _ := rfl

theorem killed_both {T : Point} (h4 : 4 • T = 0) (hℓ : ℓ • T = 0) : T = 0 := by
  have h1 := addOrderOf_dvd_of_nsmul_eq_zero h4
  have h2 := addOrderOf_dvd_of_nsmul_eq_zero hℓ
  have hc : Nat.gcd 4 ℓ = 1 := by decide +kernel
  have h := Nat.dvd_gcd h1 h2
  rw [hc, Nat.dvd_one] at h
  exact AddMonoid.addOrderOf_eq_one_iff.mp h

theorem toElement_injective : Function.Injective toElement := by
  intro P Q h
  obtain ⟨T, hT, hQ⟩ := (mk_eq_mk_iff ⟨P.1, coe_mem_even P⟩ ⟨Q.1, coe_mem_even Q⟩).mp h
  have hQ' : P.1 + T = Q.1 := hQ
  have hT0 : T = 0 := by
    refine killed_both hT ?_
    have : T = Q.1 - P.1 := by rw [← hQ']; abel
    rw [this, smul_sub]
    have h1 : ℓ • Q.1 = 0 := Q.2
    have h2 : ℓ • P.1 = 0 := P.2
    rw [h1, h2, sub_zero]
  rw [hT0, add_zero] at hQ'
  exact Subtype.ext hQ'

theorem toElement_surjective : Function.Surjective toElement := by
  intro e
  obtain ⟨k, rfl⟩ := base_spans e
  exact ⟨k • ⟨base, order_nsmul_base⟩, map_nsmul toElement k _⟩

theorem compress_toElement (X : Externals) (debug : Bool) (e : Representative) :
    (params X).compress (toElement e) = (concreteParams debug).compress e := by
  have h := encode_congr (out_mk (toElement e) : _ = QuotientAddGroup.mk ⟨e.1, coe_mem_even e⟩)
  exact congrArg (fun s : ZMod p => leBytes 32 s.val) h

theorem ofCoords_eq {P : Point} (e : Representative) (he : e.1 = cofactorInv • P) :
    ofCoords P.x P.y = some e := by
  have hon : -P.x ^ 2 + P.y ^ 2 = 1 + (d : ZMod p) * P.x ^ 2 * P.y ^ 2 := P.onCurve
  have hk : ℓ • (cofactorInv • P) = 0 := by rw [← he]; exact e.2
  rw [ofCoords, dif_pos hon]
  change (if hQ : ℓ • (cofactorInv • P) = 0 then some (⟨cofactorInv • P, hQ⟩ : Representative) else none) = _
  rw [dif_pos hk]
  exact congrArg some (Subtype.ext he.symm)

theorem cofactor_kills {P : Point} (hP : P ∈ Even) : ℓ • (cofactorInv • P) = 0 := by
  obtain ⟨Q, rfl⟩ := AddMonoidHom.mem_range.mp hP
  change ℓ • (cofactorInv • (2 • Q)) = 0
  obtain ⟨u, hu⟩ : ∃ u, cofactorInv = 8 * u := ⟨cofactorInv / 8, by decide +kernel⟩
  rw [← mul_nsmul', ← mul_nsmul', hu, show ℓ * (8 * u) * 2 = 8 * ℓ * (2 * u) by ring, mul_nsmul, nsmul_point,
    nsmul_zero]

theorem four_nsmul_diff {P : Point} (hP : P ∈ Even) : 4 • ((ℓ * 3) • P) = 0 := by
  obtain ⟨Q, rfl⟩ := AddMonoidHom.mem_range.mp hP
  change 4 • ((ℓ * 3) • (2 • Q)) = 0
  rw [← mul_nsmul', ← mul_nsmul', show 4 * (ℓ * 3) * 2 = 8 * ℓ * 3 by ring, mul_nsmul, nsmul_point, nsmul_zero]

theorem cofactor_torsion {T : Point} (hT : 4 • T = 0) : cofactorInv • T = 0 := by
  obtain ⟨u, hu⟩ : ∃ u, cofactorInv = 4 * u := ⟨cofactorInv / 4, by decide +kernel⟩
  rw [hu, mul_nsmul, hT, nsmul_zero]

theorem cofactor_split (P : Point) : cofactorInv • P = P + (ℓ * 3) • P := by
  rw [cofactorInv, add_nsmul, one_nsmul]

theorem cofactor_fix (e : Representative) : cofactorInv • e.1 = e.1 := by
  have h : ℓ • e.1 = 0 := e.2
  rw [cofactorInv, add_nsmul, one_nsmul, mul_nsmul, h, nsmul_zero, add_zero]

theorem concreteParams_ok (debug : Bool) (hX : (concreteExt debug).Ok) :
    Curve25519.Ristretto.Ok ℓ (concreteParams debug) where
  ℓ_le := ℓ_le
  base_ne_zero h := Ed25519.base_ne_zero (congrArg Subtype.val h)
  spans e := by
    obtain ⟨k, hk⟩ := Ed25519.base_spans e.1 e.2
    exact ⟨k, Subtype.ext hk⟩
  compress_length _ := leBytes_length _ _
  decompress_iff b e hb := by
    have hNZ : NeZero p := ⟨pos_of_prime.ne'⟩
    have hb' : b.length = 32 := hb
    have hp : p ≤ 256 ^ 32 := by decide +kernel
    have key : leBytes 32 (encode e.1.x e.1.y).val = b ↔ leValue b < p ∧ encode e.1.x e.1.y = (leValue b : ZMod p) := by
      generalize encode e.1.x e.1.y = s
      constructor
      · rintro rfl
        rw [leValue_leBytes _ _ ((ZMod.val_lt s).trans_le hp)]
        exact ⟨ZMod.val_lt s, (ZMod.natCast_zmod_val s).symm⟩
      · rintro ⟨hlt, rfl⟩
        rw [ZMod.val_natCast_of_lt hlt]
        conv_lhs => rw [← hb']
        exact leBytes_leValue b
    change _ ↔ leBytes 32 (encode e.1.x e.1.y).val = b
    rw [key]
    simp only [concreteParams]
    constructor
    · intro h
      split at h
      · next hlt =>
        refine ⟨hlt, ?_⟩
        obtain ⟨⟨x, y⟩, hd, h⟩ := Option.bind_eq_some_iff.mp h
        obtain ⟨P, rfl, rfl, hcan⟩ := (decode_iff _ _ _).mp hd
        have hP := hcan.mem_even
        have hof := ofCoords_eq ⟨cofactorInv • P, cofactor_kills hP⟩ rfl
        have he : (⟨cofactorInv • P, cofactor_kills hP⟩ : Representative) = e := Option.some.inj (hof.symm.trans h)
        have heq : e.1 = P + (ℓ * 3) • P := (congrArg Subtype.val he).symm.trans (cofactor_split P)
        refine (encode_eq_iff (coe_mem_even e) _).mpr ⟨-((ℓ * 3) • P), ?_, ?_⟩
        · rw [smul_neg, four_nsmul_diff hP, neg_zero]
        · rw [heq, add_neg_cancel_right]
          exact hcan
      · cases h
    · rintro ⟨hlt, he⟩
      rw [if_pos hlt]
      obtain ⟨T, hT, hcan⟩ := (encode_eq_iff (coe_mem_even e) _).mp he
      have hd := (decode_iff _ _ _).mpr ⟨_, rfl, rfl, hcan⟩
      rw [hd]
      simp only [Option.bind_eq_bind, Option.bind_some]
      have hfix : e.1 = cofactorInv • (e.1 + T) := by rw [nsmul_add, cofactor_torsion hT, add_zero, cofactor_fix]
      exact ofCoords_eq (P := e.1 + T) e hfix
  ext := hX

end Ristretto255

end ElasticElgamal
