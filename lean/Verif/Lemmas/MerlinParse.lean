import Verif.Lemmas.Merlin

/-!
# Merlin: operations are determined by the blocks
-/

set_option autoImplicit false
set_option linter.unusedSectionVars false

namespace ElasticElgamal.Merlin

open Spec

/-- A unit of the history of the sponge: a byte is absorbed or squeezed, or the permutation is applied. -/
inductive Cell where
  | byte (b : UInt8)
  | sq
  | perm (pb : ℕ)

def Cell.isPerm : Cell → Bool
  | perm _ => true
  | _ => false

def openCells (sq : ℕ) (bytes : Bytes) : List Cell := List.replicate sq .sq ++ bytes.map .byte

def Blk.cells (b : Blk) : List Cell := openCells b.sq b.bytes ++ [.perm b.pb]

def Sym.stream (s : Sym) : List Cell := s.done.flatMap Blk.cells ++ openCells s.sq s.bytes

/-- There are no permutations. -/
def Flat (l : List Cell) : Prop := ∀ c ∈ l, c.isPerm = false

/-- Operations do not begin in blocks that are completed. -/
def ZeroPerms (l : List Cell) : Prop := ∀ k, Cell.perm k ∈ l → k = 0

def flat (l : List Cell) : List Cell := l.filter fun c => !c.isPerm

theorem openCells_flat (sq : ℕ) (bytes : Bytes) : Flat (openCells sq bytes) := by
  intro c hc
  simp only [openCells, List.mem_append, List.mem_replicate, List.mem_map] at hc
  rcases hc with ⟨-, rfl⟩ | ⟨b, -, rfl⟩ <;> rfl

theorem flat_of_flat {l : List Cell} (h : Flat l) : flat l = l := by
  rw [flat, List.filter_eq_self]
  intro c hc
  simp [h c hc]

theorem flat_append (l m : List Cell) : flat (l ++ m) = flat l ++ flat m := List.filter_append ..

theorem openCells_length (sq : ℕ) (bytes : Bytes) : (openCells sq bytes).length = sq + bytes.length := by
  simp [openCells]

theorem stream_symF (s : Sym) : (symF s).stream = s.stream ++ [.perm s.pb] := by
  simp [Sym.stream, symF, Blk.cells, openCells]

theorem stream_push (s : Sym) (b : UInt8) : ({ s with bytes := s.bytes ++ [b] } : Sym).stream = s.stream ++ [.byte b] := by
  simp [Sym.stream, openCells]

/-- `s'` is a state in an operation with the absorbed (or squeezed) cells `D`, which begins in the state `s`. -/
def During (s : Sym) (D : List Cell) (s' : Sym) : Prop :=
  (s'.pb = s.pos + 1 ∧ ∃ A, Flat A ∧ s'.stream = s.stream ++ A ∧ A = D) ∨
  (s'.pb = 0 ∧ ∃ A R, Flat A ∧ ZeroPerms R ∧ s'.stream = s.stream ++ A ++ .perm (s.pos + 1) :: R ∧ flat (A ++ R) = D)

theorem During.start (s : Sym) : During s [] { s with pb := s.pos + 1 } :=
  .inl ⟨rfl, [], by simp [Flat], by simp [Sym.stream], rfl⟩

theorem During.symF {s s' : Sym} {D : List Cell} (h : During s D s') : During s D (symF s') := by
  rcases h with ⟨h1, A, h2, h3, rfl⟩ | ⟨h1, A, R, h2, h3, h4, h5⟩
  · exact .inr ⟨rfl, A, [], h2, by simp [ZeroPerms], by rw [stream_symF, h3, h1],
      by rw [List.append_nil, flat_of_flat h2]⟩
  · refine .inr ⟨rfl, A, R ++ [.perm 0], h2, ?_, by rw [stream_symF, h4, h1]; simp, ?_⟩
    · intro k hk
      simp only [List.mem_append, List.mem_singleton, Cell.perm.injEq] at hk
      rcases hk with hk | hk
      · exact h3 k hk
      · exact hk
    · rw [← List.append_assoc, flat_append, h5]
      simp [flat, Cell.isPerm]

theorem During.cells {s s' s'' : Sym} {D C : List Cell} (h : During s D s') (hC : Flat C) (hpb : s''.pb = s'.pb)
    (hs : s''.stream = s'.stream ++ C) : During s (D ++ C) s'' := by
  rcases h with ⟨h1, A, h2, h3, rfl⟩ | ⟨h1, A, R, h2, h3, h4, h5⟩
  · refine .inl ⟨hpb.trans h1, A ++ C, ?_, by rw [hs, h3, List.append_assoc], rfl⟩
    intro c hc
    rcases List.mem_append.mp hc with hc | hc
    · exact h2 c hc
    · exact hC c hc
  · refine .inr ⟨hpb.trans h1, A, R ++ C, h2, ?_, by rw [hs, h4]; simp, ?_⟩
    · intro k hk
      rcases List.mem_append.mp hk with hk | hk
      · exact h3 k hk
      · exact absurd (hC _ hk) (by simp [Cell.isPerm])
    · rw [← List.append_assoc, flat_append, h5, flat_of_flat hC]

theorem During.symByte {s s' : Sym} {D : List Cell} (h : During s D s') (b : UInt8) :
    During s (D ++ [.byte b]) (symByte s' b) := by
  have := h.cells (C := [.byte b]) (s'' := { s' with bytes := s'.bytes ++ [b] })
    (by simp [Flat, Cell.isPerm]) rfl (stream_push s' b)
  unfold Merlin.symByte
  split_ifs
  · exact this.symF
  · exact this

theorem During.symAbsorb {s s' : Sym} {D : List Cell} (h : During s D s') (data : Bytes) :
    During s (D ++ data.map .byte) (symAbsorb s' data) := by
  unfold Merlin.symAbsorb
  induction data generalizing s' D with
  | nil => simpa using h
  | cons b data ih =>
    have := ih (h.symByte b)
    simpa using this

theorem During.symOp (s : Sym) (flags : UInt8) :
    During s [.byte (UInt8.ofNat s.pb), .byte flags] (symOp s flags) := by
  have h : During s [.byte (UInt8.ofNat s.pb), .byte flags] (symHeader s flags) :=
    (During.start s).symAbsorb [UInt8.ofNat s.pb, flags]
  unfold Merlin.symOp
  split_ifs
  · exact h.symF
  · exact h

/-! ## Uniqueness -/

theorem last_perm_unique {X Y R S : List Cell} {a b : ℕ} (hR : ZeroPerms R) (hS : ZeroPerms S)
    (h : X ++ .perm (a + 1) :: R = Y ++ .perm (b + 1) :: S) : X = Y ∧ a = b ∧ R = S := by
  rcases List.append_eq_append_iff.mp h with ⟨c, h1, h2⟩ | ⟨c, h1, h2⟩
  · cases c with
    | nil =>
      simp only [List.nil_append, List.cons.injEq, Cell.perm.injEq, Nat.add_right_cancel_iff] at h2
      exact ⟨by simpa using h1.symm, h2.1, h2.2⟩
    | cons x c =>
      simp only [List.cons_append, List.cons.injEq] at h2
      have := hR (b + 1) (by rw [h2.2]; simp)
      omega
  · cases c with
    | nil =>
      simp only [List.nil_append, List.cons.injEq, Cell.perm.injEq, Nat.add_right_cancel_iff] at h2
      exact ⟨by simpa using h1, h2.1.symm, h2.2.symm⟩
    | cons x c =>
      simp only [List.cons_append, List.cons.injEq] at h2
      have := hS (a + 1) (by rw [h2.2]; simp)
      omega

/-- Empty or closed by a permutation. -/
def Closed (l : List Cell) : Prop := l = [] ∨ ∃ m k, l = m ++ [.perm k]

theorem closed_done (l : List Blk) : Closed (l.flatMap Blk.cells) := by
  rcases List.eq_nil_or_concat l with rfl | ⟨m, b, rfl⟩
  · exact .inl rfl
  · right
    rw [List.concat_eq_append]
    exact ⟨m.flatMap Blk.cells ++ openCells b.sq b.bytes, b.pb, by simp [Blk.cells]⟩

theorem closed_unique_aux {U V K : List Cell} {c : List Cell} (hV : Closed V) (hK : Flat K)
    (h1 : V = U ++ c) (h2 : ∃ L, K = c ++ L) : c = [] := by
  rcases List.eq_nil_or_concat c with rfl | ⟨c', x, rfl⟩
  · rfl
  · exfalso
    rw [List.concat_eq_append] at h1 h2
    obtain ⟨L, rfl⟩ := h2
    rcases hV with rfl | ⟨m, k, rfl⟩
    · simp at h1
    · rw [← List.append_assoc] at h1
      obtain ⟨-, h⟩ := List.append_inj' h1 rfl
      simp only [List.cons.injEq, and_true] at h
      have := hK x (by simp)
      rw [← h] at this
      simp [Cell.isPerm] at this

theorem closed_unique {U V K L : List Cell} (hU : Closed U) (hV : Closed V) (hK : Flat K) (hL : Flat L)
    (h : U ++ K = V ++ L) : U = V ∧ K = L := by
  rcases List.append_eq_append_iff.mp h with ⟨c, h1, h2⟩ | ⟨c, h1, h2⟩
  · have := closed_unique_aux hV hK h1 ⟨L, h2⟩
    subst this
    exact ⟨by simpa using h1.symm, by simpa using h2⟩
  · have := closed_unique_aux hU hL h1 ⟨K, h2⟩
    subst this
    exact ⟨by simpa using h1, by simpa using h2.symm⟩

/-- The history with the position of the last operation. -/
def Sym.history (s : Sym) : List Cell := s.stream ++ [.perm s.pb]

theorem During.history {s s' : Sym} {D : List Cell} (h : During s D s') :
    ∃ A R, Flat A ∧ ZeroPerms R ∧ s'.history = s.stream ++ A ++ .perm (s.pos + 1) :: R ∧ flat (A ++ R) = D := by
  rcases h with ⟨h1, A, h2, h3, rfl⟩ | ⟨h1, A, R, h2, h3, h4, h5⟩
  · exact ⟨A, [], h2, by simp [ZeroPerms], by rw [Sym.history, h3, h1], by rw [List.append_nil, flat_of_flat h2]⟩
  · refine ⟨A, R ++ [.perm 0], h2, ?_, by rw [Sym.history, h4, h1]; simp, ?_⟩
    · intro k hk
      simp only [List.mem_append, List.mem_singleton, Cell.perm.injEq] at hk
      rcases hk with hk | hk
      · exact h3 k hk
      · exact hk
    · rw [← List.append_assoc, flat_append, h5]
      simp [flat, Cell.isPerm]

theorem During.unique {s t s' t' : Sym} {fs ft : UInt8} {D C : List Cell}
    (hs : During s (.byte (UInt8.ofNat s.pb) :: .byte fs :: D) s')
    (ht : During t (.byte (UInt8.ofNat t.pb) :: .byte ft :: C) t')
    (hsp : s.pb ≤ 166) (htp : t.pb ≤ 166) (h : s'.history = t'.history) :
    s.history = t.history ∧ fs = ft ∧ D = C := by
  obtain ⟨A, R, hA, hR, h1, h2⟩ := hs.history
  obtain ⟨A', R', hA', hR', h1', h2'⟩ := ht.history
  rw [h1, h1'] at h
  obtain ⟨e1, e2, e3⟩ := last_perm_unique hR hR' h
  have e4 : s.done.flatMap Blk.cells ++ (openCells s.sq s.bytes ++ A) =
      t.done.flatMap Blk.cells ++ (openCells t.sq t.bytes ++ A') := by
    simpa [Sym.stream] using e1
  have hflat : ∀ (u : Sym) {B : List Cell}, Flat B → Flat (openCells u.sq u.bytes ++ B) := by
    intro u B hB c hc
    rcases List.mem_append.mp hc with hc | hc
    · exact openCells_flat _ _ c hc
    · exact hB c hc
  obtain ⟨e5, e6⟩ := closed_unique (closed_done _) (closed_done _) (hflat s hA) (hflat t hA') e4
  obtain ⟨e7, e8⟩ := List.append_inj e6 (by rw [openCells_length, openCells_length]; exact e2)
  rw [e8, e3, h2'] at h2
  simp only [List.cons.injEq, Cell.byte.injEq] at h2
  have hpb := ofNat_inj htp hsp h2.1
  exact ⟨by rw [Sym.history, Sym.history, Sym.stream, Sym.stream, e5, e7, hpb], h2.2.1.symm, h2.2.2.symm⟩

/-- States in which the given operations were performed. -/
inductive Performed : List (UInt8 × List Cell) → Sym → Prop where
  | init : Performed [] symInit
  | op {l : List (UInt8 × List Cell)} {s s' : Sym} {flags : UInt8} {D : List Cell} (h : Performed l s)
      (hp : s.pb ≤ 166) (hd : During s (.byte (UInt8.ofNat s.pb) :: .byte flags :: D) s') :
      Performed (l ++ [(flags, D)]) s'

theorem symInit_history : symInit.history = [.perm 0] := rfl

theorem history_ne_init {s s' : Sym} {D : List Cell} (h : During s D s') : s'.history ≠ symInit.history := by
  obtain ⟨A, R, -, -, h1, -⟩ := h.history
  intro e
  rw [h1, symInit_history] at e
  have : Cell.perm (s.pos + 1) ∈ [Cell.perm 0] := by rw [← e]; simp
  simp at this

theorem Performed.unique {l m : List (UInt8 × List Cell)} {s t : Sym} (hs : Performed l s) (ht : Performed m t)
    (h : s.history = t.history) : l = m := by
  induction hs generalizing m t with
  | init =>
    cases ht with
    | init => rfl
    | op _ _ hd => exact absurd h.symm (history_ne_init hd)
  | op _ hp hd ih =>
    cases ht with
    | init => exact absurd h (history_ne_init hd)
    | op ht' hp' hd' =>
      obtain ⟨h1, h2, h3⟩ := hd.unique hd' hp hp' h
      rw [ih ht' h1, h2, h3]

end ElasticElgamal.Merlin
