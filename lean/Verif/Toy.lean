import Verif.Model.Base
import Mathlib.Data.ZMod.Basic
import Mathlib.NumberTheory.LucasLehmer
import Mathlib.Tactic.NormNum.Prime

/-!
# Concrete backends for non-vacuity examples

`toy` is a backend over `ZMod p` (as a module over itself, generator `1`) with total element encoding;
`toySec1` has the identity panic of `src/group/generic.rs:87-90`. They are not part of the model of the
crate: they only witness that the hypotheses of the theorems are satisfiable.
-/

set_option autoImplicit false

namespace ElasticElgamal.Toy

theorem leBytes_length (k n : Nat) : (leBytes k n).length = k := by
  induction k generalizing n with
  | zero => rfl
  | succ k ih => simp [leBytes, ih]

theorem leValue_leBytes (k n : Nat) (h : n < 256 ^ k) : leValue (leBytes k n) = n := by
  induction k generalizing n with
  | zero => simp at h; simp [leBytes, leValue, h]
  | succ k ih =>
    have h2 : n / 256 < 256 ^ k := by
      rw [Nat.div_lt_iff_lt_mul (by norm_num)]; rw [pow_succ] at h; exact h
    have h3 : (UInt8.ofNat (n % 256)).toNat = n % 256 := by
      simp [UInt8.toNat_ofNat']
    simp only [leBytes, leValue, ih _ h2, h3]
    omega

theorem leValue_lt (b : Bytes) : leValue b < 256 ^ b.length := by
  induction b with
  | nil => simp [leValue]
  | cons x xs ih =>
    have := x.toNat_lt
    simp only [leValue, List.length_cons, pow_succ]
    omega

theorem leBytes_leValue (b : Bytes) : leBytes b.length (leValue b) = b := by
  induction b with
  | nil => rfl
  | cons x xs ih =>
    have hx := x.toNat_lt
    have h1 : (x.toNat + 256 * leValue xs) % 256 = x.toNat := by omega
    have h2 : (x.toNat + 256 * leValue xs) / 256 = leValue xs := by omega
    simp only [leBytes, leValue, List.length_cons, h1, h2, ih, List.cons.injEq, and_true]
    exact UInt8.ofNat_toNat

section
variable (p : ℕ) [Fact p.Prime] (size : ℕ) (challenge : List Entry → ZMod p) (debug : Bool)

/-- Canonical decoding of residues. -/
def deResidue (b : Bytes) : Option (ZMod p) :=
  if leValue b < p then some (leValue b : ZMod p) else none

/-- A backend with total element encoding. -/
def toy : Backend (ZMod p) (ZMod p) where
  gen := 1
  scalarSize := size
  elementSize := size
  serScalar s := leBytes size s.val
  deScalar := deResidue p
  serElem e := some (leBytes size e.val)
  deElem := deResidue p
  challenge := challenge
  Rng := ℕ
  genScalar r := ((r * r + 3 * r + 7 : ℕ), r + 1)
  fill32 r := (leBytes 32 r, r + 1)
  sha256 b := (b ++ List.replicate 32 0).take 32
  debug := debug

/-- A backend with SEC1-like encoding: serializing the identity panics. -/
def toySec1 : Backend (ZMod p) (ZMod p) where
  gen := 1
  scalarSize := size
  elementSize := size + 1
  serScalar s := leBytes size s.val
  deScalar := deResidue p
  serElem e := if e = 0 then none else some (2 :: leBytes size e.val)
  deElem b := if b.head? = some 2 ∧ leValue b.tail ≠ 0 then deResidue p b.tail else none
  challenge := challenge
  Rng := ℕ
  genScalar r := ((r * r + 3 * r + 7 : ℕ), r + 1)
  fill32 r := (leBytes 32 r, r + 1)
  sha256 b := (b ++ List.replicate 32 0).take 32
  debug := debug

variable {p size}

theorem val_lt (hp : p ≤ 256 ^ size) (s : ZMod p) : s.val < 256 ^ size :=
  lt_of_lt_of_le (ZMod.val_lt s) hp

theorem deResidue_leBytes (hp : p ≤ 256 ^ size) (s : ZMod p) :
    deResidue p (leBytes size s.val) = some s := by
  rw [deResidue, leValue_leBytes _ _ (val_lt hp s), if_pos (ZMod.val_lt s), ZMod.natCast_zmod_val]

theorem leBytes_deResidue {b : Bytes} {s : ZMod p} (hb : b.length = size)
    (h : deResidue p b = some s) : leBytes size s.val = b := by
  unfold deResidue at h
  split at h
  · rename_i hlt
    cases h
    rw [ZMod.val_natCast_of_lt hlt, ← hb, leBytes_leValue]
  · cases h

theorem toy_lawful (hp : p ≤ 256 ^ size) (hs : 0 < size) : (toy p size challenge debug).Lawful where
  gen_ne_zero := one_ne_zero
  gen_spans e := ⟨e, by simp [toy]⟩
  scalarSize_pos := hs
  serScalar_length s := leBytes_length _ _
  deScalar_serScalar s := deResidue_leBytes hp s
  serScalar_deScalar b s hb h := leBytes_deResidue hb h
  serElem_length e b h := by
    simp only [toy, Option.some.injEq] at h; subst h; exact leBytes_length _ _
  deElem_serElem e b h := by
    simp only [toy, Option.some.injEq] at h; subst h; exact deResidue_leBytes hp e
  serElem_ne_zero e _ := ⟨_, rfl⟩
  sha256_length b := by simp [toy]
  fill32_length r := leBytes_length _ _

theorem toy_totalSer : (toy p size challenge debug).TotalSer := fun _ => ⟨_, rfl⟩

theorem toy_canonical : (toy p size challenge debug).CanonicalElems := by
  intro b e hb h
  simp only [toy] at hb h ⊢
  rw [leBytes_deResidue hb h]

theorem toy_canonicalNonzero : (toy p size challenge debug).CanonicalNonzero :=
  fun b e hb _ h => toy_canonical challenge debug b e hb h

theorem toySec1_lawful (hp : p ≤ 256 ^ size) (hs : 0 < size) :
    (toySec1 p size challenge debug).Lawful where
  gen_ne_zero := one_ne_zero
  gen_spans e := ⟨e, by simp [toySec1]⟩
  scalarSize_pos := hs
  serScalar_length s := leBytes_length _ _
  deScalar_serScalar s := deResidue_leBytes hp s
  serScalar_deScalar b s hb h := leBytes_deResidue hb h
  serElem_length e b h := by
    simp only [toySec1] at h
    split at h
    · cases h
    · cases h; simp [leBytes_length, toySec1]
  deElem_serElem e b h := by
    simp only [toySec1] at h
    split at h
    · cases h
    · rename_i he
      cases h
      have hv : leValue (leBytes size e.val) ≠ 0 := by
        rw [leValue_leBytes _ _ (val_lt hp e)]
        intro h0
        exact he ((ZMod.val_eq_zero e).mp h0)
      simp only [toySec1, List.head?_cons, List.tail_cons, true_and]
      rw [if_pos hv]
      exact deResidue_leBytes hp e
  serElem_ne_zero e he := ⟨_, if_neg he⟩
  sha256_length b := by simp [toySec1]
  fill32_length r := leBytes_length _ _

theorem toySec1_sec1 : (toySec1 p size challenge debug).Sec1Ser := by
  intro e
  simp only [toySec1]
  split <;> simp_all

end

/-- A prime larger than `2^64`. -/
abbrev bigPrime : ℕ := mersenne 127

instance bigPrime_prime : Fact (bigPrime.Prime) :=
  ⟨lucas_lehmer_sufficiency _ (by simp) (by norm_num)⟩

theorem bigPrime_u64 : Backend.U64Inj (ZMod bigPrime) := by
  intro a b ha hb h
  have h64 : 2 ^ 64 < bigPrime := by norm_num [bigPrime, mersenne]
  rw [ZMod.natCast_eq_natCast_iff] at h
  exact Nat.ModEq.eq_of_lt_of_lt h (ha.trans h64) (hb.trans h64)

instance prime101 : Fact (Nat.Prime 101) := ⟨by norm_num⟩

/-- A toy hash: mixes message bytes and the log length. -/
def toyHash (p : ℕ) (log : List Entry) : ZMod p :=
  (log.foldl (fun acc e => acc * 31 + (match e with
    | .msg _ d => d.foldl (fun a b => a * 7 + b.toNat) 5
    | .chal _ => 11)) 1 : ℕ)

/-- Small concrete backend with total encoding: the field with 101 elements. -/
def B101 : Backend (ZMod 101) (ZMod 101) := toy 101 1 (toyHash 101) true

/-- Small concrete backend with SEC1-like encoding. -/
def S101 : Backend (ZMod 101) (ZMod 101) := toySec1 101 1 (toyHash 101) true

/-- Concrete backend whose scalars contain all `u64` values. -/
def BBig : Backend (ZMod bigPrime) (ZMod bigPrime) := toy bigPrime 16 (toyHash bigPrime) true

theorem B101_lawful : B101.Lawful := toy_lawful _ _ (by norm_num) (by norm_num)
theorem S101_lawful : S101.Lawful := toySec1_lawful _ _ (by norm_num) (by norm_num)
theorem BBig_lawful : BBig.Lawful := toy_lawful _ _ (by norm_num [bigPrime, mersenne]) (by norm_num)
theorem B101_total : B101.TotalSer := toy_totalSer _ _
theorem BBig_total : BBig.TotalSer := toy_totalSer _ _
theorem B101_canonical : B101.CanonicalElems := toy_canonical _ _
theorem B101_canonicalNonzero : B101.CanonicalNonzero := toy_canonicalNonzero _ _
theorem S101_sec1 : S101.Sec1Ser := toySec1_sec1 _ _

end ElasticElgamal.Toy
