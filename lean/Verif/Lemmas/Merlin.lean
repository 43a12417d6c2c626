import Verif.Spec.Merlin
import Mathlib.Data.List.Basic
import Mathlib.Data.List.Induction
import Mathlib.Data.List.GetD
import Mathlib.Tactic.SplitIfs
import Mathlib.Tactic.Ring

/-!
# Merlin: symbolic states

A symbolic state is the sequence of blocks that were fed to the sponge. The state of STROBE is a function of it,
blocks are determined by the inputs of the permutation, and the operations are determined by the blocks.
-/

set_option autoImplicit false
set_option linter.unusedSectionVars false

namespace ElasticElgamal.Merlin

open Spec

/-- A complete block: squeezed bytes, absorbed bytes, `pos_begin`. -/
structure Blk where
  sq : ℕ
  bytes : Bytes
  pb : ℕ

/-- Complete blocks and the current one. -/
structure Sym where
  done : List Blk
  sq : ℕ
  bytes : Bytes
  pb : ℕ

def Blk.len (b : Blk) : ℕ := b.sq + b.bytes.length

def Sym.pos (s : Sym) : ℕ := s.sq + s.bytes.length

def symF (s : Sym) : Sym := ⟨s.done ++ [⟨s.sq, s.bytes, s.pb⟩], 0, [], 0⟩

def symByte (s : Sym) (b : UInt8) : Sym :=
  if s.pos + 1 = 166 then symF { s with bytes := s.bytes ++ [b] } else { s with bytes := s.bytes ++ [b] }

def symAbsorb (s : Sym) (data : Bytes) : Sym := data.foldl symByte s

def symHeader (s : Sym) (flags : UInt8) : Sym :=
  symAbsorb { s with pb := s.pos + 1 } [UInt8.ofNat s.pb, flags]

def symOp (s : Sym) (flags : UInt8) : Sym :=
  if flags = 7 ∧ (symHeader s flags).pos ≠ 0 then symF (symHeader s flags) else symHeader s flags

def symInit : Sym := ⟨[], 0, [], 0⟩

/-! ## Evaluation -/

def absorbed (st : KeccakState) (sq : ℕ) (bytes : Bytes) : KeccakState := fun i =>
  if i.val < sq then 0 else if h : i.val - sq < bytes.length then st i ^^^ bytes[i.val - sq] else st i

def padded (st : KeccakState) (pos pb : ℕ) : KeccakState :=
  xorAt (xorAt (xorAt st pos (UInt8.ofNat pb)) (pos + 1) 0x04) 167 0x80

def blkInput (st : KeccakState) (b : Blk) : KeccakState := padded (absorbed st b.sq b.bytes) b.len b.pb

section

variable (f : KeccakState → KeccakState)

def evalDone (done : List Blk) : KeccakState × List KeccakState :=
  done.foldl (fun sc b => (f (blkInput sc.1 b), sc.2 ++ [blkInput sc.1 b])) (f initialState, [initialState])

def eval (s : Sym) (flags : UInt8) : Strobe :=
  { state := absorbed (evalDone f s.done).1 s.sq s.bytes, pos := s.pos, posBegin := s.pb, curFlags := flags,
    calls := (evalDone f s.done).2 }

theorem evalDone_snoc (l : List Blk) (b : Blk) : evalDone f (l ++ [b]) =
    (f (blkInput (evalDone f l).1 b), (evalDone f l).2 ++ [blkInput (evalDone f l).1 b]) := by
  simp [evalDone, List.foldl_append]

theorem absorbed_nil (st : KeccakState) : absorbed st 0 [] = st := by
  funext i; simp [absorbed]

theorem runF_eval (s : Sym) (flags : UInt8) : runF f (eval f s flags) = eval f (symF s) flags := by
  simp only [runF, eval, symF, evalDone_snoc, absorbed_nil, Sym.pos, List.length_nil, Nat.add_zero]
  rfl

theorem absorbed_snoc (st : KeccakState) (sq : ℕ) (bytes : Bytes) (b : UInt8) :
    xorAt (absorbed st sq bytes) (sq + bytes.length) b = absorbed st sq (bytes ++ [b]) := by
  funext i
  simp only [xorAt, absorbed, List.length_append, List.length_singleton]
  by_cases h1 : i.val < sq
  · simp [h1]; omega
  · simp only [h1, if_false]
    by_cases h2 : i.val = sq + bytes.length
    · have h3 : i.val - sq = bytes.length := by omega
      simp [h2, ]
    · by_cases h3 : i.val - sq < bytes.length
      · rw [if_neg h2, dif_pos h3, dif_pos (by omega), List.getElem_append_left h3]
      · rw [if_neg h2, dif_neg h3, dif_neg (by omega)]

theorem absorbByte_eval (s : Sym) (flags b : UInt8) :
    absorbByte f (eval f s flags) b = eval f (symByte s b) flags := by
  have h : (⟨xorAt (eval f s flags).state (eval f s flags).pos b, (eval f s flags).pos + 1,
      (eval f s flags).posBegin, (eval f s flags).curFlags, (eval f s flags).calls⟩ : Strobe) =
      eval f { s with bytes := s.bytes ++ [b] } flags := by
    simp only [eval, Sym.pos, absorbed_snoc, List.length_append, List.length_singleton, Nat.add_assoc]
  unfold absorbByte symByte
  simp only [h]
  rw [show (eval f s flags).pos = s.pos from rfl]
  by_cases hp : s.pos + 1 = 166
  · rw [if_pos hp, if_pos (show s.pos + 1 = strobeR from hp)]
    exact runF_eval f _ _
  · rw [if_neg hp, if_neg (show ¬ s.pos + 1 = strobeR from hp)]

theorem absorb_eval (s : Sym) (flags : UInt8) (data : Bytes) :
    absorb f (eval f s flags) data = eval f (symAbsorb s data) flags := by
  unfold absorb symAbsorb
  induction data generalizing s with
  | nil => rfl
  | cons b data ih => rw [List.foldl_cons, List.foldl_cons, absorbByte_eval, ih]

theorem beginOp_eval (s : Sym) (flags0 flags : UInt8) (h : flags = 18 ∨ flags = 2 ∨ flags = 7) :
    beginOp f (eval f s flags0) flags false = some (eval f (symOp s flags) flags) := by
  have hT : ¬ (flags &&& flagT ≠ 0) := by
    rcases h with rfl | rfl | rfl <;> decide
  have hC : (flags &&& (flagC ||| flagK) ≠ 0) ↔ flags = 7 := by
    rcases h with rfl | rfl | rfl <;> decide
  unfold beginOp
  simp only [Bool.false_eq_true, if_false, hT, hC]
  have e : ({ eval f s flags0 with posBegin := (eval f s flags0).pos + 1, curFlags := flags } : Strobe) =
      eval f { s with pb := s.pos + 1 } flags := rfl
  rw [show absorb f ⟨(eval f s flags0).state, (eval f s flags0).pos, (eval f s flags0).pos + 1, flags,
    (eval f s flags0).calls⟩ [UInt8.ofNat (eval f s flags0).posBegin, flags] = eval f (symHeader s flags) flags from
    absorb_eval f { s with pb := s.pos + 1 } flags _]
  unfold symOp
  rw [show (eval f (symHeader s flags) flags).pos = (symHeader s flags).pos from rfl]
  split_ifs
  · rw [runF_eval]
  · rfl

theorem squeeze_eval (s : Sym) (flags : UInt8) (k m : ℕ) (hs : s.bytes = []) (h : k + m < 166) :
    (squeeze f (eval f { s with sq := k } flags) m).2 = eval f { s with sq := k + m } flags := by
  induction m generalizing k with
  | zero => rfl
  | succ m ih =>
    rw [squeeze]
    have e : (⟨setAt (eval f { s with sq := k } flags).state (eval f { s with sq := k } flags).pos 0,
        (eval f { s with sq := k } flags).pos + 1, (eval f { s with sq := k } flags).posBegin,
        (eval f { s with sq := k } flags).curFlags, (eval f { s with sq := k } flags).calls⟩ : Strobe) =
        eval f { s with sq := k + 1 } flags := by
      simp only [eval, Sym.pos, hs, List.length_nil, Nat.add_zero, Strobe.mk.injEq, and_self, and_true]
      funext i
      simp only [setAt, absorbed, List.length_nil, Nat.not_lt_zero, dif_neg, not_false_eq_true]
      by_cases h1 : i.val = k
      · simp [h1]
      · simp only [h1, if_false]
        by_cases h2 : i.val < k
        · simp [h2, Nat.lt_succ_of_lt h2]
        · rw [if_neg h2, if_neg (by omega)]
    simp only [e]
    rw [if_neg (by simp only [eval, Sym.pos, hs, List.length_nil, strobeR]; omega)]
    rw [ih (k + 1) (by omega)]
    congr 2
    omega

end

/-! ## Blocks are determined by the inputs of the permutation -/

/-- The number of bytes squeezed after the given blocks. -/
def sqAfter (n : ℕ) (l : List Blk) : ℕ :=
  match l.getLast? with
  | none => 0
  | some b => if b.len < 166 ∨ (b.pb = 165 ∧ b.bytes.getLast? = some 7) then n else 0

/-- Each block begins with the number of squeezed bytes determined by the previous ones. -/
def Good (n : ℕ) (l : List Blk) : Prop :=
  ∀ pre b post, l = pre ++ b :: post → b.sq = sqAfter n pre ∧ b.len ≤ 166 ∧ b.pb ≤ 166

theorem Good.nil (n : ℕ) : Good n [] := by
  intro pre b post h
  simp at h

theorem Good.snoc {n : ℕ} {l : List Blk} {b : Blk} (h : Good n l) (h1 : b.sq = sqAfter n l) (h2 : b.len ≤ 166)
    (h3 : b.pb ≤ 166) : Good n (l ++ [b]) := by
  intro pre c post he
  rcases List.eq_nil_or_concat post with rfl | ⟨post', d, rfl⟩
  · obtain ⟨rfl, h⟩ := List.append_inj' he (by simp)
    simp only [List.cons.injEq, and_true] at h
    subst h
    exact ⟨h1, h2, h3⟩
  · rw [List.concat_eq_append, ← List.cons_append, ← List.append_assoc] at he
    obtain ⟨h', -⟩ := List.append_inj' he (by simp)
    exact h pre c post' h'

theorem Good.of_snoc {n : ℕ} {l : List Blk} {b : Blk} (h : Good n (l ++ [b])) :
    Good n l ∧ b.sq = sqAfter n l ∧ b.len ≤ 166 ∧ b.pb ≤ 166 := by
  refine ⟨?_, h l b [] rfl⟩
  intro pre c post he
  exact h pre c (post ++ [b]) (by rw [he]; simp)

theorem ofNat_inj {a b : ℕ} (ha : a ≤ 166) (hb : b ≤ 166) (h : UInt8.ofNat a = UInt8.ofNat b) : a = b := by
  have := congrArg UInt8.toNat h
  simp only [UInt8.toNat_ofNat'] at this
  omega

theorem xor_cancel_right {a b c : UInt8} (h : a ^^^ c = b ^^^ c) : a = b := by
  have := congrArg (· ^^^ c) h
  simpa [UInt8.xor_assoc] using this

theorem xor_cancel_left {a b c : UInt8} (h : c ^^^ a = c ^^^ b) : a = b := by
  rw [UInt8.xor_comm c, UInt8.xor_comm c] at h
  exact xor_cancel_right h

theorem xorAt_inj {x y : KeccakState} {p : ℕ} {b : UInt8} (h : xorAt x p b = xorAt y p b) : x = y := by
  funext i
  have := congrFun h i
  simp only [xorAt] at this
  split_ifs at this
  · exact xor_cancel_right this
  · exact this

theorem blkInput_inj {st : KeccakState} {b c : Blk} (hsq : b.sq = c.sq) (hb : b.len ≤ 166) (hc : c.len ≤ 166)
    (hbp : b.pb ≤ 166) (hcp : c.pb ≤ 166) (h : blkInput st b = blkInput st c) : b = c := by
  have h := xorAt_inj h
  have key : ∀ {b c : Blk}, b.sq = c.sq → c.len ≤ 166 → xorAt (xorAt (absorbed st b.sq b.bytes) b.len
      (UInt8.ofNat b.pb)) (b.len + 1) 4 = xorAt (xorAt (absorbed st c.sq c.bytes) c.len
      (UInt8.ofNat c.pb)) (c.len + 1) 4 → ¬ b.len < c.len := by
    intro b c hsq hc h hlt
    have := congrFun h ⟨c.len + 1, by omega⟩
    have eb : b.len = b.sq + b.bytes.length := rfl
    have ec : c.len = c.sq + c.bytes.length := rfl
    simp only [xorAt, absorbed] at this
    rw [if_neg (by omega), if_neg (by omega), if_neg (by omega), dif_neg (by omega), if_pos trivial,
      if_neg (by omega), if_neg (by omega), dif_neg (by omega)] at this
    have h4 : st ⟨c.len + 1, by omega⟩ ^^^ 0 = st ⟨c.len + 1, by omega⟩ ^^^ 4 := by
      rw [UInt8.xor_zero]; exact this
    exact absurd (xor_cancel_left h4) (by decide)
  have hlen : b.len = c.len := by
    have h1 := key hsq hc h
    have h2 := key hsq.symm hb h.symm
    omega
  rw [hlen] at h
  have h := xorAt_inj h
  have hl : b.bytes.length = c.bytes.length := by unfold Blk.len at hlen; omega
  have hpb : b.pb = c.pb := by
    have := congrFun h ⟨c.len, by omega⟩
    have eb : b.len = b.sq + b.bytes.length := rfl
    have ec : c.len = c.sq + c.bytes.length := rfl
    simp only [xorAt, absorbed, if_true] at this
    rw [if_neg (by omega), dif_neg (by omega), if_neg (by omega), dif_neg (by omega)] at this
    exact ofNat_inj hbp hcp (xor_cancel_left this)
  have hbytes : b.bytes = c.bytes := by
    refine List.ext_getElem hl fun k hk hk' => ?_
    have eb : b.len = b.sq + b.bytes.length := rfl
    have ec : c.len = c.sq + c.bytes.length := rfl
    have := congrFun h ⟨c.sq + k, by omega⟩
    simp only [xorAt, absorbed] at this
    rw [if_neg (by omega), if_neg (by omega), dif_pos (by omega), if_neg (by omega), if_neg (by omega),
      dif_pos (by omega)] at this
    have := xor_cancel_left this
    simpa [hsq] using this
  cases b; cases c
  simp_all

theorem evalDone_length (f : KeccakState → KeccakState) (l : List Blk) : (evalDone f l).2.length = l.length + 1 := by
  induction l using List.reverseRecOn with
  | nil => rfl
  | append_singleton k b ih => rw [evalDone_snoc]; simp [ih]

theorem done_inj (f : KeccakState → KeccakState) (n : ℕ) (l m : List Blk) (hl : Good n l) (hm : Good n m)
    (h : (evalDone f l).2 = (evalDone f m).2) : l = m := by
  induction l using List.reverseRecOn generalizing m with
  | nil =>
    rcases List.eq_nil_or_concat m with rfl | ⟨m, c, rfl⟩
    · rfl
    · rw [List.concat_eq_append, evalDone_snoc] at h
      have := congrArg List.length h
      rw [List.length_append, evalDone_length, evalDone_length] at this
      simp at this
  | append_singleton l b ih =>
    rcases List.eq_nil_or_concat m with rfl | ⟨m, c, rfl⟩
    · rw [evalDone_snoc] at h
      have := congrArg List.length h
      rw [List.length_append, evalDone_length, evalDone_length] at this
      simp at this
    · rw [List.concat_eq_append] at hm h ⊢
      rw [evalDone_snoc, evalDone_snoc] at h
      obtain ⟨h1, h2⟩ := List.append_inj' h rfl
      obtain ⟨hl, hl1, hl2, hl3⟩ := hl.of_snoc
      obtain ⟨hm, hm1, hm2, hm3⟩ := hm.of_snoc
      have := ih m hl hm h1
      subst this
      simp only [List.cons.injEq, and_true] at h2
      rw [blkInput_inj (hl1.trans hm1.symm) hl2 hm2 hl3 hm3 h2]

/-! ## Inputs are determined by the final state or there is a collision -/

theorem blkInput_capacity (st : KeccakState) (b : Blk) (hb : b.len ≤ 166) : SameCapacity (blkInput st b) st := by
  intro i hi
  have eb : b.len = b.sq + b.bytes.length := rfl
  simp only [blkInput, padded, xorAt, absorbed]
  rw [if_neg (by omega), if_neg (by omega), if_neg (by omega), if_neg (by omega), dif_neg (by omega)]

theorem initialState_capacity : SameCapacity initialState fun _ => 0 := by
  intro i hi
  have : initialBytes.length = 18 := by decide
  simp only [initialState]
  rw [List.getD_eq_default _ _ (by omega)]

theorem _root_.ElasticElgamal.Spec.SameCapacity.symm {x y : KeccakState} (h : SameCapacity x y) : SameCapacity y x := fun i hi => (h i hi).symm

theorem _root_.ElasticElgamal.Spec.SameCapacity.trans {x y z : KeccakState} (h : SameCapacity x y) (h' : SameCapacity y z) :
    SameCapacity x z := fun i hi => (h i hi).trans (h' i hi)

theorem _root_.ElasticElgamal.Spec.InnerCollision.mono {f : KeccakState → KeccakState} {l m : List KeccakState} (h : InnerCollision f l)
    (hs : ∀ x ∈ l, x ∈ m) : InnerCollision f m := by
  rcases h with ⟨x, hx, y, hy, h⟩ | ⟨x, hx, h⟩
  · exact .inl ⟨x, hs x hx, y, hs y hy, h⟩
  · exact .inr ⟨x, hs x hx, h⟩

/-- The last input of the permutation for the given blocks; its output is the state after them. -/
theorem evalDone_last (f : KeccakState → KeccakState) (n : ℕ) (l : List Blk) (hl : Good n l) :
    ∃ x ∈ (evalDone f l).2, (evalDone f l).1 = f x ∧
      (l = [] ∧ x = initialState ∨ ∃ m b, l = m ++ [b] ∧ x = blkInput (evalDone f m).1 b ∧
        SameCapacity x (evalDone f m).1) := by
  rcases List.eq_nil_or_concat l with rfl | ⟨m, b, rfl⟩
  · exact ⟨initialState, by simp [evalDone], rfl, .inl ⟨rfl, rfl⟩⟩
  · rw [List.concat_eq_append] at hl ⊢
    refine ⟨blkInput (evalDone f m).1 b, ?_, ?_, .inr ⟨m, b, rfl, rfl, ?_⟩⟩
    · rw [evalDone_snoc]; simp
    · rw [evalDone_snoc]
    · exact blkInput_capacity _ _ hl.of_snoc.2.2.1

theorem calls_inj (f : KeccakState → KeccakState) (n : ℕ) (l m : List Blk) (hl : Good n l) (hm : Good n m)
    (h : SameCapacity (evalDone f l).1 (evalDone f m).1) :
    (evalDone f l).2 = (evalDone f m).2 ∨ InnerCollision f ((evalDone f l).2 ++ (evalDone f m).2) := by
  induction l using List.reverseRecOn generalizing m with
  | nil =>
    rcases List.eq_nil_or_concat m with rfl | ⟨m, c, rfl⟩
    · exact .inl rfl
    · rw [List.concat_eq_append] at hm h ⊢
      right
      obtain ⟨hm', -, hc, -⟩ := hm.of_snoc
      obtain ⟨y, hy, hy1, -⟩ := evalDone_last f n m hm'
      by_cases he : blkInput (evalDone f m).1 c = initialState
      · refine .inr ⟨y, by rw [evalDone_snoc]; simp [hy], ?_⟩
        rw [← hy1]
        exact (blkInput_capacity _ _ hc).symm.trans (he ▸ initialState_capacity)
      · refine .inl ⟨_, ?_, initialState, by simp [evalDone], he, ?_⟩
        · rw [evalDone_snoc]; simp
        · rw [evalDone_snoc] at h
          exact h.symm
  | append_singleton l b ih =>
    obtain ⟨hl', -, hb, -⟩ := hl.of_snoc
    rcases List.eq_nil_or_concat m with rfl | ⟨m, c, rfl⟩
    · right
      obtain ⟨y, hy, hy1, -⟩ := evalDone_last f n l hl'
      by_cases he : blkInput (evalDone f l).1 b = initialState
      · refine .inr ⟨y, by rw [evalDone_snoc]; simp [hy], ?_⟩
        rw [← hy1]
        exact (blkInput_capacity _ _ hb).symm.trans (he ▸ initialState_capacity)
      · refine .inl ⟨_, ?_, initialState, by simp [evalDone], he, ?_⟩
        · rw [evalDone_snoc]; simp
        · rw [evalDone_snoc] at h
          exact h
    · rw [List.concat_eq_append] at hm h ⊢
      obtain ⟨hm', -, hc, -⟩ := hm.of_snoc
      by_cases he : blkInput (evalDone f l).1 b = blkInput (evalDone f m).1 c
      · have hcap : SameCapacity (evalDone f l).1 (evalDone f m).1 :=
          (blkInput_capacity _ _ hb).symm.trans (he ▸ blkInput_capacity _ _ hc)
        rcases ih m hl' hm' hcap with h1 | h1
        · left
          rw [evalDone_snoc, evalDone_snoc, h1, he]
        · right
          refine h1.mono fun x hx => ?_
          rw [evalDone_snoc, evalDone_snoc]
          simp only [List.mem_append, List.mem_singleton] at hx ⊢
          tauto
      · refine .inr (.inl ⟨blkInput (evalDone f l).1 b, ?_, blkInput (evalDone f m).1 c, ?_, he, ?_⟩)
        · rw [evalDone_snoc]; simp
        · rw [evalDone_snoc f m]; simp
        · rw [evalDone_snoc, evalDone_snoc] at h
          exact h

end ElasticElgamal.Merlin
