import Verif.Lemmas.MerlinParse

/-!
# Merlin: transcripts as symbolic states
-/

set_option autoImplicit false
set_option linter.unusedSectionVars false

namespace ElasticElgamal.Merlin

open Spec

/-! ## Invariants -/

/-- A state in which data are absorbed. -/
structure Ready (n : ℕ) (s : Sym) : Prop where
  good : Good n s.done
  sq : s.sq = sqAfter n s.done
  pos : s.pos < 166
  pb : s.pb = 0 ∨ s.pb < s.pos

/-- A state in which `n` bytes will be squeezed. -/
structure Pending (n : ℕ) (s : Sym) : Prop where
  good : Good n s.done
  sqAfter : sqAfter n s.done = n
  sq : s.sq = 0
  bytes : s.bytes = []
  pb : s.pb = 0

theorem Ready.pb_le {n : ℕ} {s : Sym} (h : Ready n s) : s.pb ≤ 166 := by
  have := h.pos
  rcases h.pb with h | h <;> omega

theorem good_symF {n : ℕ} {s : Sym} (h : Good n s.done) (hs : s.sq = sqAfter n s.done) (hp : s.pos ≤ 166)
    (hb : s.pb ≤ 166) : Good n (symF s).done := h.snoc hs hp hb

theorem sqAfter_symF (n : ℕ) (s : Sym) : sqAfter n (symF s).done =
    if s.pos < 166 ∨ (s.pb = 165 ∧ s.bytes.getLast? = some 7) then n else 0 := by
  simp only [sqAfter, symF, List.getLast?_append, List.getLast?_singleton, Option.some_or]
  rfl

theorem symByte_ne {s : Sym} {b : UInt8} (h : s.pos + 1 ≠ 166) : symByte s b = { s with bytes := s.bytes ++ [b] } :=
  if_neg h

theorem symByte_eq {s : Sym} {b : UInt8} (h : s.pos + 1 = 166) : symByte s b = symF { s with bytes := s.bytes ++ [b] } :=
  if_pos h

theorem push_pos (s : Sym) (b : UInt8) : ({ s with bytes := s.bytes ++ [b] } : Sym).pos = s.pos + 1 := by
  simp [Sym.pos, Nat.add_assoc]

theorem Ready.symByte {n : ℕ} {s : Sym} (h : Ready n s) (b : UInt8) : Ready n (symByte s b) := by
  have h1 := h.pos
  have h2 := h.pb
  have h3 := push_pos s b
  unfold Merlin.symByte
  split_ifs with hp
  · refine ⟨good_symF h.good h.sq (by omega) h.pb_le, ?_, by simp [symF, Sym.pos], .inl rfl⟩
    rw [sqAfter_symF, if_neg]
    · rfl
    · rintro (h | ⟨h, -⟩)
      · omega
      · simp only at h
        omega
  · refine ⟨h.good, h.sq, by omega, ?_⟩
    rcases h2 with h2 | h2
    · exact .inl h2
    · right
      rw [h3]
      exact Nat.lt_succ_of_lt h2

theorem Ready.symAbsorb {n : ℕ} {s : Sym} (h : Ready n s) (data : Bytes) : Ready n (symAbsorb s data) := by
  unfold Merlin.symAbsorb
  induction data generalizing s with
  | nil => exact h
  | cons b data ih => exact ih (h.symByte b)

/-- The state after the header of an operation. -/
theorem header_cases {n : ℕ} {s : Sym} (h : Ready n s) (flags : UInt8) :
    Good n (symHeader s flags).done ∧
    ((s.pos ≠ 164 ∧ (symHeader s flags).sq = sqAfter n (symHeader s flags).done ∧
        (symHeader s flags).pos ≠ 0 ∧ (symHeader s flags).pos < 166 ∧
        ((symHeader s flags).pb = 0 ∨ (symHeader s flags).pb < (symHeader s flags).pos)) ∨
      (s.pos = 164 ∧ sqAfter n (symHeader s flags).done = (if flags = 7 then n else 0) ∧
        (symHeader s flags).sq = 0 ∧ (symHeader s flags).bytes = [] ∧ (symHeader s flags).pb = 0)) := by
  have hp := h.pos
  rcases Nat.lt_trichotomy s.pos 164 with hlt | heq | hgt
  · have e : symHeader s flags = { s with pb := s.pos + 1, bytes := s.bytes ++ [UInt8.ofNat s.pb] ++ [flags] } := by
      have h1 : ({ s with pb := s.pos + 1 } : Sym).pos = s.pos := rfl
      have h2 : (⟨s.done, s.sq, s.bytes ++ [UInt8.ofNat s.pb], s.pos + 1⟩ : Sym).pos = s.pos + 1 := push_pos s _
      rw [symHeader, symAbsorb, List.foldl_cons, List.foldl_cons, List.foldl_nil, symByte_ne (s := ⟨_, _, _, s.pos + 1⟩) (by rw [h1]; omega),
        symByte_ne (by rw [h2]; omega)]
    have hpos : (symHeader s flags).pos = s.pos + 2 := by
      rw [e]; simp [Sym.pos, Nat.add_assoc]
    refine ⟨by rw [e]; exact h.good, .inl ⟨by omega, by rw [e]; exact h.sq, by omega, by omega, .inr ?_⟩⟩
    rw [hpos, e]
    exact Nat.lt_succ_self _
  · have e : symHeader s flags =
        symF { s with pb := s.pos + 1, bytes := s.bytes ++ [UInt8.ofNat s.pb] ++ [flags] } := by
      have h1 : ({ s with pb := s.pos + 1 } : Sym).pos = s.pos := rfl
      have h2 : (⟨s.done, s.sq, s.bytes ++ [UInt8.ofNat s.pb], s.pos + 1⟩ : Sym).pos = s.pos + 1 := push_pos s _
      rw [symHeader, symAbsorb, List.foldl_cons, List.foldl_cons, List.foldl_nil, symByte_ne (s := ⟨_, _, _, s.pos + 1⟩) (by rw [h1]; omega),
        symByte_eq (by rw [h2]; omega)]
    have hpos : ({ s with pb := s.pos + 1, bytes := s.bytes ++ [UInt8.ofNat s.pb] ++ [flags] } : Sym).pos = 166 := by
      have : ({ s with pb := s.pos + 1, bytes := s.bytes ++ [UInt8.ofNat s.pb] ++ [flags] } : Sym).pos = s.pos + 2 := by
        simp [Sym.pos, Nat.add_assoc]
      omega
    refine ⟨?_, .inr ⟨heq, ?_, by rw [e]; rfl, by rw [e]; rfl, by rw [e]; rfl⟩⟩
    · rw [e]
      exact good_symF h.good h.sq (by omega) (by simp only; omega)
    · rw [e, sqAfter_symF, hpos]
      simp [heq]
  · have e : symHeader s flags = { symF { s with pb := s.pos + 1, bytes := s.bytes ++ [UInt8.ofNat s.pb] } with
        bytes := [flags] } := by
      have h1 : ({ s with pb := s.pos + 1 } : Sym).pos = s.pos := rfl
      have h2 : (⟨s.done, s.sq, s.bytes ++ [UInt8.ofNat s.pb], s.pos + 1⟩ : Sym).pos = s.pos + 1 := push_pos s _
      rw [symHeader, symAbsorb, List.foldl_cons, List.foldl_cons, List.foldl_nil, symByte_eq (s := ⟨_, _, _, s.pos + 1⟩) (by rw [h1]; omega),
        symByte_ne (by simp [symF, Sym.pos])]
      rfl
    have hpos : (⟨s.done, s.sq, s.bytes ++ [UInt8.ofNat s.pb], s.pos + 1⟩ : Sym).pos = s.pos + 1 := push_pos s _
    have hd : (symHeader s flags).done =
        (symF ⟨s.done, s.sq, s.bytes ++ [UInt8.ofNat s.pb], s.pos + 1⟩).done := by rw [e]
    refine ⟨?_, .inl ⟨by omega, ?_, by rw [e]; simp [symF, Sym.pos], by rw [e]; simp [symF, Sym.pos], .inl (by rw [e]; rfl)⟩⟩
    · rw [hd]
      exact good_symF h.good h.sq (by omega) (by simp only; omega)
    · rw [hd, sqAfter_symF, if_neg]
      · rw [e]; rfl
      · rintro (h | ⟨h, -⟩)
        · omega
        · simp only at h
          omega

theorem Ready.symOp {n : ℕ} {s : Sym} (h : Ready n s) {flags : UInt8} (hf : flags ≠ 7) : Ready n (symOp s flags) := by
  unfold Merlin.symOp
  rw [if_neg (by simp [hf])]
  obtain ⟨hg, ⟨-, h1, -, h2, h3⟩ | ⟨-, h1, h2, h3, h4⟩⟩ := header_cases h flags
  · exact ⟨hg, h1, h2, h3⟩
  · refine ⟨hg, ?_, by simp [Sym.pos, h2, h3], .inl h4⟩
    rw [h1, if_neg hf, h2]

theorem Ready.symPrf {n : ℕ} {s : Sym} (h : Ready n s) : Pending n (Merlin.symOp s 7) := by
  unfold Merlin.symOp
  obtain ⟨hg, ⟨-, h1, h0, h2, h3⟩ | ⟨-, h1, h2, h3, h4⟩⟩ := header_cases h 7
  · rw [if_pos ⟨rfl, h0⟩]
    refine ⟨good_symF hg h1 h2.le (by rcases h3 with h3 | h3 <;> omega), ?_, rfl, rfl, rfl⟩
    rw [sqAfter_symF, if_pos (.inl h2)]
  · rw [if_neg (by simp [Sym.pos, h2, h3])]
    exact ⟨hg, by rw [h1, if_pos rfl], h2, h3, h4⟩

theorem Pending.squeeze {n : ℕ} {s : Sym} (h : Pending n s) (hn : n < 166) : Ready n { s with sq := n } :=
  ⟨h.good, h.sqAfter.symm, by simp [Sym.pos, h.bytes, hn], .inl h.pb⟩

theorem ready_init (n : ℕ) : Ready n symInit := ⟨Good.nil n, rfl, by simp [symInit, Sym.pos], .inl rfl⟩

/-! ## Operations of a log -/

def bytesCells (b : Bytes) : List Cell := b.map .byte

theorem bytesCells_inj {a b : Bytes} (h : bytesCells a = bytesCells b) : a = b :=
  List.map_injective_iff.mpr (fun x y h => by simpa using h) h

def labelOp (label : String) (len : ℕ) : UInt8 × List Cell := (18, bytesCells (asciiBytes label ++ leBytes 4 len))

def entryOps (n : ℕ) : Entry → List (UInt8 × List Cell)
  | .msg label data => [labelOp label data.length, (2, bytesCells data)]
  | .chal label => [labelOp label n, (7, List.replicate n .sq)]

def initOp : UInt8 × List Cell := (18, bytesCells protocolLabel)

def logOps (n : ℕ) (log : List Entry) : List (UInt8 × List Cell) := initOp :: log.flatMap (entryOps n)

theorem leBytes4_length (k : ℕ) : (leBytes 4 k).length = 4 := rfl

theorem asciiBytes_inj {s t : String} (hs : IsAscii s) (ht : IsAscii t) (h : asciiBytes s = asciiBytes t) : s = t := by
  apply String.toList_inj.mp
  unfold asciiBytes at h
  unfold IsAscii at hs ht
  revert h hs ht
  generalize s.toList = l
  generalize t.toList = m
  intro hs ht h
  induction l generalizing m with
  | nil => cases m with
    | nil => rfl
    | cons d m => simp at h
  | cons c l ih => cases m with
    | nil => simp at h
    | cons d m =>
      simp only [List.map_cons, List.cons.injEq] at h
      have hc := hs c (by simp)
      have hd := ht d (by simp)
      have e := congrArg UInt8.toNat h.1
      simp only [UInt8.toNat_ofNat'] at e
      rw [ih m (fun x hx => hs x (by simp [hx])) (fun x hx => ht x (by simp [hx])) h.2]
      congr 1
      exact Char.toNat_inj.mp (by omega)

theorem labelOp_inj {s t : String} {a b : ℕ} (hs : IsAscii s) (ht : IsAscii t) (h : labelOp s a = labelOp t b) :
    s = t := by
  simp only [labelOp, Prod.mk.injEq, true_and] at h
  exact asciiBytes_inj hs ht (List.append_inj' (bytesCells_inj h) (by simp [leBytes4_length])).1

theorem entryOps_inj {n : ℕ} {e e' : Entry} (he : IsAscii (entryLabel e)) (he' : IsAscii (entryLabel e'))
    (h : entryOps n e = entryOps n e') : e = e' := by
  cases e with
  | msg l d => cases e' with
    | msg l' d' =>
      simp only [entryOps, List.cons.injEq, Prod.mk.injEq, true_and, and_true] at h
      rw [labelOp_inj (s := l) (t := l') he he' h.1, bytesCells_inj h.2]
    | chal l' => simp [entryOps] at h
  | chal l => cases e' with
    | msg l' d' => simp [entryOps] at h
    | chal l' =>
      simp only [entryOps, List.cons.injEq, and_true] at h
      rw [labelOp_inj (s := l) (t := l') he he' h]

theorem entryOps_length (n : ℕ) (e : Entry) : (entryOps n e).length = 2 := by cases e <;> rfl

/-- Operations of the log followed by two more operations. -/
theorem logOps_inj {n : ℕ} {l m : List Entry} (hl : AsciiLog l) (hm : AsciiLog m)
    {x y : List (UInt8 × List Cell)} (hx : x.length < 2) (hy : y.length < 2)
    (h : l.flatMap (entryOps n) ++ x = m.flatMap (entryOps n) ++ y) : l = m ∧ x = y := by
  induction l generalizing m with
  | nil =>
    cases m with
    | nil => exact ⟨rfl, by simpa using h⟩
    | cons e m =>
      have := congrArg List.length h
      simp only [List.flatMap_nil, List.nil_append, List.flatMap_cons, List.length_append, entryOps_length] at this
      omega
  | cons e l ih =>
    cases m with
    | nil =>
      have := congrArg List.length h
      simp only [List.flatMap_nil, List.nil_append, List.flatMap_cons, List.length_append, entryOps_length] at this
      omega
    | cons e' m =>
      simp only [List.flatMap_cons, List.append_assoc] at h
      obtain ⟨h1, h2⟩ := List.append_inj h (by rw [entryOps_length, entryOps_length])
      obtain ⟨h3, h4⟩ := ih (fun x hx => hl x (by simp [hx])) (fun x hx => hm x (by simp [hx])) h2
      rw [entryOps_inj (hl e (by simp)) (hm e' (by simp)) h1, h3]
      exact ⟨rfl, h4⟩

/-! ## Transcripts -/

section

variable (f : KeccakState → KeccakState)

theorem metaAd_eval (s : Sym) (flags0 : UInt8) (data : Bytes) :
    metaAd f (eval f s flags0) data false = some (eval f (symAbsorb (symOp s 18) data) 18) := by
  unfold metaAd
  rw [show flagM ||| flagA = 18 from rfl, beginOp_eval f s flags0 18 (.inl rfl)]
  simp [absorb_eval]

theorem metaAd_more (s : Sym) (data : Bytes) :
    metaAd f (eval f s 18) data true = some (eval f (symAbsorb s data) 18) := by
  unfold metaAd beginOp
  rw [show flagM ||| flagA = 18 from rfl]
  simp only [eval, if_true, Option.bind_eq_bind, Option.bind_some, Option.pure_def, Option.some.injEq]
  exact absorb_eval f s 18 data

theorem ad_eval (s : Sym) (flags0 : UInt8) (data : Bytes) :
    ad f (eval f s flags0) data false = some (eval f (symAbsorb (symOp s 2) data) 2) := by
  unfold ad
  rw [show flagA = 2 from rfl, beginOp_eval f s flags0 2 (.inr (.inl rfl))]
  simp [absorb_eval]

theorem symAbsorb_append (s : Sym) (a b : Bytes) : symAbsorb (symAbsorb s a) b = symAbsorb s (a ++ b) := by
  simp [symAbsorb, List.foldl_append]

/-- The metadata of an entry. -/
def symLabel (s : Sym) (label : String) (len : ℕ) : Sym := symAbsorb (symOp s 18) (asciiBytes label ++ leBytes 4 len)

theorem appendMessage_eval (s : Sym) (flags0 : UInt8) (label : String) (data : Bytes) (h : data.length < 2 ^ 32) :
    appendMessage f (eval f s flags0) (asciiBytes label) data =
      some (eval f (symAbsorb (symOp (symLabel s label data.length) 2) data) 2) := by
  unfold appendMessage
  rw [encodeUsizeAsU32, if_pos h]
  simp only [Option.bind_eq_bind, Option.bind_some, metaAd_eval, metaAd_more, symAbsorb_append, ad_eval]
  rfl

theorem beginChallenge_eval (s : Sym) (flags0 : UInt8) (label : String) (n : ℕ) (h : n < 2 ^ 32) :
    beginChallenge f (eval f s flags0) (asciiBytes label) n = some (eval f (symOp (symLabel s label n) 7) 7) := by
  unfold beginChallenge
  rw [encodeUsizeAsU32, if_pos h]
  simp only [Option.bind_eq_bind, Option.bind_some, metaAd_eval, metaAd_more, symAbsorb_append]
  rw [show flagI ||| flagA ||| flagC = 7 from rfl, beginOp_eval f _ 18 7 (.inr (.inr rfl))]
  rfl

theorem challengeBytes_eval {n : ℕ} (hn : n < 166) {s : Sym} (hs : Ready n s) (flags0 : UInt8) (label : String) :
    (challengeBytes f (eval f s flags0) (asciiBytes label) n).map (·.2) =
      some (eval f { symOp (symLabel s label n) 7 with sq := n } 7) := by
  unfold challengeBytes
  rw [beginChallenge_eval f s flags0 label n (by omega)]
  have hp : Pending n (symOp (symLabel s label n) 7) := ((hs.symOp (by decide)).symAbsorb _).symPrf
  generalize symOp (symLabel s label n) 7 = w at hp
  obtain ⟨done, sq, bytes, pb⟩ := w
  have h1 : sq = 0 := hp.sq
  subst h1
  have := squeeze_eval f ⟨done, 0, bytes, pb⟩ 7 0 n hp.bytes (by omega)
  rw [Nat.zero_add] at this
  simp only [Option.bind_eq_bind, Option.bind_some, Option.pure_def, Option.map_some, this]

theorem performed_label {n : ℕ} {l : List (UInt8 × List Cell)} {s : Sym} (hs : Ready n s) (h : Performed l s)
    (label : String) (len : ℕ) : Performed (l ++ [labelOp label len]) (symLabel s label len) :=
  h.op hs.pb_le ((During.symOp s 18).symAbsorb _)

theorem ready_label {n : ℕ} {s : Sym} (hs : Ready n s) (label : String) (len : ℕ) : Ready n (symLabel s label len) :=
  (hs.symOp (by decide)).symAbsorb _

theorem performed_msg {n : ℕ} {l : List (UInt8 × List Cell)} {s : Sym} (hs : Ready n s) (h : Performed l s)
    (label : String) (data : Bytes) : Performed (l ++ entryOps n (.msg label data))
      (symAbsorb (symOp (symLabel s label data.length) 2) data) := by
  have := (performed_label hs h label data.length).op (ready_label hs label data.length).pb_le
    ((During.symOp (symLabel s label data.length) 2).symAbsorb data)
  simpa [entryOps, bytesCells] using this

theorem performed_pending {n : ℕ} {l : List (UInt8 × List Cell)} {s : Sym} (hs : Ready n s) (h : Performed l s)
    (label : String) : Performed (l ++ [labelOp label n, (7, [])]) (symOp (symLabel s label n) 7) := by
  have := (performed_label hs h label n).op (ready_label hs label n).pb_le (During.symOp (symLabel s label n) 7)
  simpa using this

theorem During.squeezed {s w : Sym} {D : List Cell} (h : During s D w) (h1 : w.sq = 0) (h2 : w.bytes = []) (n : ℕ) :
    During s (D ++ List.replicate n .sq) { w with sq := n } :=
  h.cells (by intro c hc; rw [(List.mem_replicate.mp hc).2]; rfl) rfl (by simp [Sym.stream, openCells, h1, h2])

theorem performed_chal {n : ℕ} {l : List (UInt8 × List Cell)} {s : Sym} (hs : Ready n s) (h : Performed l s)
    (label : String) : Performed (l ++ entryOps n (.chal label)) { symOp (symLabel s label n) 7 with sq := n } := by
  have hp : Pending n (symOp (symLabel s label n) 7) := (ready_label hs label n).symPrf
  have hd := (During.symOp (symLabel s label n) 7).squeezed hp.sq hp.bytes n
  have := (performed_label hs h label n).op (ready_label hs label n).pb_le hd
  simpa [entryOps] using this

/-- The symbolic state after the entries. -/
def symRun (n : ℕ) (s : Sym) : List Entry → Sym
  | [] => s
  | .msg label data :: log => symRun n (symAbsorb (symOp (symLabel s label data.length) 2) data) log
  | .chal label :: log => symRun n { symOp (symLabel s label n) 7 with sq := n } log

/-- The symbolic state of a transcript. -/
def symLog (n : ℕ) (log : List Entry) : Sym := symRun n (symAbsorb (symOp symInit 18) protocolLabel) log

/-- The symbolic state from which a challenge is read. -/
def symChallenge (n : ℕ) (log : List Entry) (label : String) : Sym := symOp (symLabel (symLog n log) label n) 7

/-- The states of a transcript. -/
theorem runEntries_eval {n : ℕ} (hn : n < 166) (log : List Entry) {s : Sym} (hs : Ready n s) (flags0 : UInt8)
    {l : List (UInt8 × List Cell)} (hp : Performed l s) :
    ((∀ e ∈ log, ShortEntry e) → (runEntries f n (eval f s flags0) log).isSome) ∧
    ∀ t, runEntries f n (eval f s flags0) log = some t →
      (∀ e ∈ log, ShortEntry e) ∧ ∃ flags, t = eval f (symRun n s log) flags ∧ Ready n (symRun n s log) ∧
        Performed (l ++ log.flatMap (entryOps n)) (symRun n s log) := by
  induction log generalizing s flags0 l with
  | nil =>
    refine ⟨fun _ => rfl, fun t h => ⟨by simp, flags0, ?_, hs, by simpa [symRun] using hp⟩⟩
    simpa [runEntries, symRun] using h.symm
  | cons e log ih =>
    cases e with
    | msg label data =>
      by_cases hd : data.length < 2 ^ 32
      · have hr : Ready n (symAbsorb (symOp (symLabel s label data.length) 2) data) :=
          ((ready_label hs label data.length).symOp (by decide)).symAbsorb _
        obtain ⟨h1, h2⟩ := ih hr 2 (performed_msg hs hp label data)
        simp only [runEntries, appendMessage_eval f s flags0 label data hd, Option.bind_eq_bind, Option.bind_some]
        refine ⟨fun h => h1 fun e he => h e (by simp [he]), fun t ht => ?_⟩
        obtain ⟨h3, flags, h4, h5, h6⟩ := h2 t ht
        refine ⟨by simpa using ⟨hd, h3⟩, flags, h4, h5, ?_⟩
        simpa [symRun] using h6
      · have : runEntries f n (eval f s flags0) (.msg label data :: log) = none := by
          simp only [runEntries, appendMessage]
          rw [encodeUsizeAsU32, if_neg hd]
          rfl
        rw [this]
        refine ⟨fun h => absurd (h _ (List.mem_cons_self ..)) hd, fun t ht => by cases ht⟩
    | chal label =>
      have hr : Ready n { symOp (symLabel s label n) 7 with sq := n } := (ready_label hs label n).symPrf.squeeze hn
      obtain ⟨h1, h2⟩ := ih hr 7 (performed_chal hs hp label)
      have hc := challengeBytes_eval f hn hs flags0 label
      have e : runEntries f n (eval f s flags0) (.chal label :: log) =
          runEntries f n (eval f { symOp (symLabel s label n) 7 with sq := n } 7) log := by
        cases hb : challengeBytes f (eval f s flags0) (asciiBytes label) n with
        | none => rw [hb] at hc; simp at hc
        | some r =>
          rw [hb] at hc
          simp only [Option.map_some, Option.some.injEq] at hc
          simp only [runEntries, hb, Option.bind_eq_bind, Option.bind_some, hc]
      have er : symRun n s (.chal label :: log) = symRun n { symOp (symLabel s label n) 7 with sq := n } log := by
        rw [symRun]
      rw [e, er]
      generalize symRun n { symOp (symLabel s label n) 7 with sq := n } log = w at h2
      refine ⟨fun h => h1 fun e he => h e (by simp [he]), fun t ht => ?_⟩
      obtain ⟨h3, flags, h4, h5, h6⟩ := h2 t ht
      refine ⟨by simpa [ShortEntry] using h3, flags, h4, h5, ?_⟩
      simpa using h6

theorem strobeNew_eval : strobeNew f protocolLabel = some (eval f (symAbsorb (symOp symInit 18) protocolLabel) 18) := by
  have : (⟨f initialState, 0, 0, 0, [initialState]⟩ : Strobe) = eval f symInit 0 := by
    simp only [eval, symInit, absorbed_nil]
    rfl
  unfold strobeNew
  rw [this, metaAd_eval]

theorem runLog_eval {n : ℕ} (hn : n < 166) (log : List Entry) :
    ((∀ e ∈ log, ShortEntry e) → (runLog f n log).isSome) ∧
    ∀ t, runLog f n log = some t → (∀ e ∈ log, ShortEntry e) ∧ ∃ flags, t = eval f (symLog n log) flags ∧
      Ready n (symLog n log) ∧ Performed (logOps n log) (symLog n log) := by
  have hp : Performed [initOp] (symAbsorb (symOp symInit 18) protocolLabel) :=
    Performed.init.op (ready_init n).pb_le ((During.symOp symInit 18).symAbsorb _)
  have := runEntries_eval f hn log (((ready_init n).symOp (by decide)).symAbsorb protocolLabel) 18 hp
  unfold runLog
  rw [strobeNew_eval]
  exact this

theorem challengeState_eval {n : ℕ} (hn : n < 166) {log : List Entry} {label : String} {t : Strobe}
    (h : challengeState f n log label = some t) :
    t = eval f (symChallenge n log label) 7 ∧ Pending n (symChallenge n log label) ∧
      Performed (logOps n log ++ [labelOp label n, (7, [])]) (symChallenge n log label) := by
  simp only [challengeState, Option.bind_eq_bind, Option.bind_eq_some_iff] at h
  obtain ⟨s, hs, h⟩ := h
  obtain ⟨-, flags, rfl, hr, hp⟩ := (runLog_eval f hn log).2 s hs
  unfold symChallenge
  generalize symLog n log = u at h hr hp
  rw [beginChallenge_eval f u flags label n (by omega), Option.some.injEq] at h
  exact ⟨h.symm, (ready_label hr label n).symPrf, performed_pending hr hp label⟩

/-! ## Injectivity -/

/-- Blocks are determined by the capacity of the state, or there is a collision. -/
theorem done_unique {n : ℕ} {u v : Sym} (hu : Good n u.done) (hv : Good n v.done) {a b : UInt8}
    (h : SameCapacity (evalDone f u.done).1 (evalDone f v.done).1) :
    u.done = v.done ∨ InnerCollision f ((eval f u a).calls ++ (eval f v b).calls) := by
  rcases calls_inj f n u.done v.done hu hv h with h | h
  · exact .inl (done_inj f n _ _ hu hv h)
  · exact .inr h

theorem absorbed_capacity (st : KeccakState) (sq : ℕ) (bytes : Bytes) (h : sq + bytes.length ≤ 168) :
    SameCapacity (absorbed st sq bytes) st := by
  intro i hi
  simp only [absorbed]
  rw [if_neg (by omega), dif_neg (by omega)]

theorem absorbed_inj {st : KeccakState} {sq : ℕ} {a b : Bytes} (hl : a.length = b.length) (h200 : sq + a.length ≤ 200)
    (h : absorbed st sq a = absorbed st sq b) : a = b := by
  refine List.ext_getElem hl fun k hk hk' => ?_
  have := congrFun h ⟨sq + k, by omega⟩
  simp only [absorbed] at this
  rw [if_neg (by omega), dif_pos (by omega), if_neg (by omega), dif_pos (by omega)] at this
  have := xor_cancel_left this
  simpa using this

end

end ElasticElgamal.Merlin
