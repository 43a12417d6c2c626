import Verif.Lemmas.MerlinRun
import Verif.Lemmas.Oracle
import Mathlib.Data.FinEnum

/-!
# Merlin: the probability of inner collisions
-/

set_option autoImplicit false
set_option linter.unusedSectionVars false

namespace ElasticElgamal

open Spec

variable {Q A α β : Type}

open Classical in
/-- Some fresh query is answered by a value that is bad in view of the earlier queries and answers. -/
def OracleAlg.HitDep (bad : (Q → A) → List Q → Q → Set A) (H : Q → A) : OracleAlg Q A α → List Q → Prop
  | done _, _ => False
  | ask q next, hist =>
    if q ∈ hist then HitDep bad H (next (H q)) hist
    else H q ∈ bad H hist q ∨ HitDep bad H (next (H q)) (hist ++ [q])

section
variable [Fintype A]

open Classical in
/-- The counting argument `OracleAlg.card_hit` for values that are bad in view of earlier answers. -/
theorem OracleAlg.card_hitDep (bad : (Q → A) → List Q → Q → Set A) (b : ℕ → ℕ)
    (hb : ∀ H hist q, (bad H hist q).ncard ≤ b hist.length)
    (hloc : ∀ H H' hist q, (∀ q' ∈ hist, H q' = H' q') → bad H hist q = bad H' hist q) (x : OracleAlg Q A α) :
    ∀ (n : ℕ) (hist : List Q) (D : Finset Q) (H₀ : Q → A), x.AtMost n →
      x.Within {q | q ∈ D ∨ q ∈ hist} → (∀ q ∈ D, q ∉ hist) →
      ((hashFamily D H₀).filter fun H => x.HitDep bad H hist).card * Fintype.card A ≤
        (∑ i ∈ Finset.range n, b (hist.length + i)) * Fintype.card A ^ D.card := by
  induction x with
  | done a =>
    intro n hist D H₀ _ _ _
    have : ((hashFamily D H₀).filter fun H => (done a : OracleAlg Q A α).HitDep bad H hist) = ∅ :=
      Finset.filter_eq_empty_iff.mpr fun H _ h => h
    rw [this]
    simp
  | ask q next ih =>
    intro n hist D H₀ hn hw hd
    cases n with
    | zero => exact absurd hn (by simp [AtMost])
    | succ n =>
      by_cases hq : q ∈ hist
      · have hqD : q ∉ D := fun h => hd q h hq
        have he : ((hashFamily D H₀).filter fun H => (ask q next).HitDep bad H hist) =
            (hashFamily D H₀).filter fun H => (next (H₀ q)).HitDep bad H hist := by
          refine Finset.filter_congr fun H hH => ?_
          rw [HitDep, if_pos hq, mem_hashFamily.mp hH q hqD]
        rw [he]
        refine (ih _ n hist D H₀ (hn _) (hw.2 _) hd).trans ?_
        refine Nat.mul_le_mul_right _ ?_
        rw [Finset.sum_range_succ]
        omega
      · have hqD : q ∈ D := (hw.1 : q ∈ D ∨ q ∈ hist).resolve_right hq
        rw [card_hashFamily_filter _ hqD]
        have hD : D.card = (D.erase q).card + 1 := by
          rw [Finset.card_erase_of_mem hqD]
          have := Finset.card_pos.mpr ⟨q, hqD⟩
          omega
        have hstep : ∀ a : A,
            ((hashFamily (D.erase q) (Function.update H₀ q a)).filter
              fun H => (ask q next).HitDep bad H hist).card * Fintype.card A ≤
            (if a ∈ bad H₀ hist q then Fintype.card A ^ D.card else 0) +
            (∑ i ∈ Finset.range n, b (hist.length + 1 + i)) * Fintype.card A ^ (D.erase q).card := by
          intro a
          by_cases ha : a ∈ bad H₀ hist q
          · rw [if_pos ha]
            have h1 := Finset.card_filter_le (hashFamily (D.erase q) (Function.update H₀ q a))
              fun H => (ask q next).HitDep bad H hist
            rw [card_hashFamily] at h1
            have h2 := Nat.mul_le_mul_right (Fintype.card A) h1
            rw [← pow_succ, ← hD] at h2
            omega
          · rw [if_neg ha, zero_add]
            have he : ((hashFamily (D.erase q) (Function.update H₀ q a)).filter
                  fun H => (ask q next).HitDep bad H hist) =
                (hashFamily (D.erase q) (Function.update H₀ q a)).filter
                  fun H => (next a).HitDep bad H (hist ++ [q]) := by
              refine Finset.filter_congr fun H hH => ?_
              have : H q = a := by rw [mem_hashFamily.mp hH q (by simp)]; simp
              have hbad : bad H hist q = bad H₀ hist q := by
                refine hloc _ _ _ _ fun q' hq' => ?_
                have hne : q' ≠ q := by rintro rfl; exact hq hq'
                rw [mem_hashFamily.mp hH q' (fun h => hd q' (Finset.mem_of_mem_erase h) hq'),
                  Function.update_of_ne hne]
              rw [HitDep, if_neg hq, this, hbad]
              simp [ha]
            rw [he]
            have := ih a n (hist ++ [q]) (D.erase q) (Function.update H₀ q a) (hn a)
              ((hw.2 a).mono ?_) ?_
            · simpa using this
            · intro q' hq'
              simp only [Set.mem_ofPred_eq, Finset.mem_erase, List.mem_append, List.mem_singleton] at hq' ⊢
              by_cases h : q' = q <;> tauto
            · intro q' hq'
              simp only [Finset.mem_erase, List.mem_append, List.mem_singleton] at hq' ⊢
              rintro (h | h)
              · exact hd _ hq'.2 h
              · exact hq'.1 h
        rw [Finset.sum_mul]
        refine (Finset.sum_le_sum fun a _ => hstep a).trans ?_
        rw [Finset.sum_add_distrib, ← Finset.sum_filter, Finset.sum_const, Finset.sum_const,
          Finset.card_univ, smul_eq_mul, smul_eq_mul, Finset.sum_range_succ']
        have h1 : (Finset.univ.filter fun a => a ∈ bad H₀ hist q).card ≤ b hist.length := by
          refine le_trans (le_of_eq ?_) (hb H₀ hist q)
          rw [Set.ncard_eq_toFinset_card', Set.toFinset_card, Fintype.card_subtype]
        have h2 : ∑ i ∈ Finset.range n, b (hist.length + 1 + i) =
            ∑ i ∈ Finset.range n, b (hist.length + (i + 1)) :=
          Finset.sum_congr rfl fun i _ => by rw [show hist.length + 1 + i = hist.length + (i + 1) by omega]
        rw [h2, hD, pow_succ]
        have h3 := Nat.mul_le_mul_right (Fintype.card A ^ (D.erase q).card * Fintype.card A) h1
        rw [Nat.add_zero, add_mul]
        refine (Nat.add_le_add_right h3 _).trans (le_of_eq ?_)
        ring

theorem probLe_of_hitDep [Nonempty A] {P : (Q → A) → Prop} (bad : (Q → A) → List Q → Q → Set A) (b : ℕ → ℕ)
    (hb : ∀ H hist q, (bad H hist q).ncard ≤ b hist.length)
    (hloc : ∀ H H' hist q, (∀ q' ∈ hist, H q' = H' q') → bad H hist q = bad H' hist q)
    (x : OracleAlg Q A α) {n : ℕ} (hn : x.AtMost n) (hP : ∀ H, P H → x.HitDep bad H []) :
    ProbLe P ((∑ i ∈ Finset.range n, b i : ℕ) / Fintype.card A) := by
  classical
  obtain ⟨D₀, hD₀⟩ := x.exists_within
  refine ⟨D₀, fun D hD H₀ => ?_⟩
  have h := x.card_hitDep bad b hb hloc n [] D H₀ hn (hD₀.mono fun q hq => .inl (hD hq)) (by simp)
  simp only [List.length_nil, zero_add] at h
  have h2 : ((hashFamily D H₀).filter P).card ≤
      ((hashFamily D H₀).filter fun H => x.HitDep bad H []).card :=
    Finset.card_le_card (Finset.monotone_filter_right _ fun H _ => hP H)
  have hA : (0 : ℚ) < Fintype.card A := by exact_mod_cast Fintype.card_pos
  rw [card_hashFamily, div_mul_eq_mul_div, le_div_iff₀ hA]
  have h3 := (Nat.mul_le_mul_right (Fintype.card A) h2).trans h
  exact_mod_cast h3

end

namespace Merlin

/-- Answers with the capacity of an earlier one, or zero. -/
def collides (f : KeccakState → KeccakState) (hist : List KeccakState) (_ : KeccakState) : Set KeccakState :=
  {a | (∃ q ∈ hist, SameCapacity a (f q)) ∨ SameCapacity a fun _ => 0}

theorem card_uint8 : Fintype.card UInt8 = 256 := by
  rw [← FinEnum.card_eq_fintypeCard]
  rfl

theorem ncard_sameCapacity (c : KeccakState) : {a : KeccakState | SameCapacity a c}.ncard ≤ 256 ^ 168 := by
  have hc : Fintype.card (Fin 168 → UInt8) = 256 ^ 168 := by
    rw [Fintype.card_fun, Fintype.card_fin, card_uint8]
  rw [← hc, ← Nat.card_eq_fintype_card, ← Set.ncard_univ]
  refine Set.ncard_le_ncard_of_injOn (fun a i => a ⟨i.val, by omega⟩) (fun _ _ => Set.mem_univ _) ?_ Set.finite_univ
  intro a ha b hb h
  funext i
  by_cases hi : 168 ≤ i.val
  · rw [ha i hi, hb i hi]
  · exact congrFun h ⟨i.val, by omega⟩

theorem ncard_collides (f : KeccakState → KeccakState) (hist : List KeccakState) (q : KeccakState) :
    (collides f hist q).ncard ≤ (hist.length + 1) * 256 ^ 168 := by
  induction hist with
  | nil =>
    have : collides f [] q = {a | SameCapacity a fun _ => 0} := by
      ext a; simp [collides]
    rw [this]
    simpa using ncard_sameCapacity _
  | cons x hist ih =>
    have : collides f (x :: hist) q = {a | SameCapacity a (f x)} ∪ collides f hist q := by
      ext a
      simp only [collides, List.mem_cons, Set.mem_ofPred_eq, Set.mem_union]
      constructor
      · rintro (⟨y, rfl | hy, h⟩ | h)
        · exact .inl h
        · exact .inr (.inl ⟨y, hy, h⟩)
        · exact .inr (.inr h)
      · rintro (h | ⟨y, hy, h⟩ | h)
        · exact .inl ⟨x, .inl rfl, h⟩
        · exact .inl ⟨y, .inr hy, h⟩
        · exact .inr h
    rw [this]
    refine (Set.ncard_union_le _ _).trans ?_
    rw [List.length_cons]
    have := ncard_sameCapacity (f x)
    calc _ ≤ 256 ^ 168 + (hist.length + 1) * 256 ^ 168 := Nat.add_le_add this ih
      _ = _ := by ring

theorem hitDep_of_collision (f : KeccakState → KeccakState) (x : OracleAlg KeccakState KeccakState α) :
    ∀ {hist : List KeccakState},
      ((∃ a b, (a ∈ x.queries f ∨ a ∈ hist) ∧ (b ∈ x.queries f ∨ b ∈ hist) ∧ ¬ (a ∈ hist ∧ b ∈ hist) ∧ a ≠ b ∧
          SameCapacity (f a) (f b)) ∨
        ∃ a ∈ x.queries f, a ∉ hist ∧ SameCapacity (f a) fun _ => 0) → x.HitDep collides f hist := by
  induction x with
  | done a =>
    intro hist h
    simp only [OracleAlg.queries, List.not_mem_nil, false_or, false_and, exists_false, or_false] at h
    obtain ⟨a, b, ha, hb, h, -⟩ := h
    exact absurd ⟨ha, hb⟩ h
  | ask q next ih =>
    intro hist h
    rw [OracleAlg.HitDep]
    by_cases hq : q ∈ hist
    · rw [if_pos hq]
      refine ih _ ?_
      simp only [OracleAlg.queries, List.mem_cons] at h
      rcases h with ⟨a, b, ha, hb, hab, h⟩ | ⟨a, ha, ha', h⟩
      · refine .inl ⟨a, b, ?_, ?_, hab, h⟩
        · rcases ha with (rfl | ha) | ha
          · exact .inr hq
          · exact .inl ha
          · exact .inr ha
        · rcases hb with (rfl | hb) | hb
          · exact .inr hq
          · exact .inl hb
          · exact .inr hb
      · rcases ha with rfl | ha
        · exact absurd hq ha'
        · exact .inr ⟨a, ha, ha', h⟩
    · rw [if_neg hq]
      by_cases hbad : f q ∈ collides f hist q
      · exact .inl hbad
      · refine .inr (ih _ ?_)
        simp only [collides, Set.mem_ofPred_eq, not_or, not_exists, not_and] at hbad
        simp only [OracleAlg.queries, List.mem_cons] at h
        simp only [List.mem_append, List.mem_singleton]
        rcases h with ⟨a, b, ha, hb, hab, hne, h⟩ | ⟨a, ha, ha', h⟩
        · refine .inl ⟨a, b, by tauto, by tauto, ?_, hne, h⟩
          rintro ⟨ha' | rfl, hb' | rfl⟩
          · exact hab ⟨ha', hb'⟩
          · exact hbad.1 a ha' h.symm
          · exact hbad.1 b hb' h
          · exact hne rfl
        · refine .inr ⟨a, ?_, ?_, h⟩
          · rcases ha with rfl | ha
            · exact absurd h hbad.2
            · exact ha
          · rintro (h1 | rfl)
            · exact ha' h1
            · exact hbad.2 h

/-- Computing the state after the given blocks. -/
def evalAlg (st : KeccakState) : List Blk → OracleAlg KeccakState KeccakState Unit
  | [] => .done ()
  | b :: l => .ask (blkInput st b) fun a => evalAlg a l

def stateAlg (l : List Blk) : OracleAlg KeccakState KeccakState Unit := .ask initialState fun a => evalAlg a l

theorem evalAlg_atMost (st : KeccakState) (l : List Blk) : (evalAlg st l).AtMost l.length := by
  induction l generalizing st with
  | nil => trivial
  | cons b l ih => exact fun a => ih a

theorem stateAlg_atMost (l : List Blk) : (stateAlg l).AtMost (l.length + 1) := fun a => evalAlg_atMost a l

theorem evalAlg_queries (f : KeccakState → KeccakState) (st : KeccakState) (c : List KeccakState) (l : List Blk) :
    (l.foldl (fun sc b => (f (blkInput sc.1 b), sc.2 ++ [blkInput sc.1 b])) (st, c)).2 =
      c ++ (evalAlg st l).queries f := by
  induction l generalizing st c with
  | nil => simp [evalAlg, OracleAlg.queries]
  | cons b l ih => simp [evalAlg, OracleAlg.queries, ih]

theorem stateAlg_queries (f : KeccakState → KeccakState) (l : List Blk) :
    (stateAlg l).queries f = (evalDone f l).2 := by
  rw [evalDone, evalAlg_queries]
  rfl

/-- Computing two states if this needs at most `m` evaluations. -/
def statesAlg (m : ℕ) (l l' : List Blk) : OracleAlg KeccakState KeccakState Unit :=
  if l.length + 1 + (l'.length + 1) ≤ m then (stateAlg l).bind fun _ => stateAlg l' else .done ()

theorem statesAlg_atMost (m : ℕ) (l l' : List Blk) : (statesAlg m l l').AtMost m := by
  unfold statesAlg
  split_ifs with h
  · exact ((stateAlg_atMost _).bind fun _ => stateAlg_atMost _).mono h
  · exact OracleAlg.atMost_done _ _

theorem statesAlg_queries (f : KeccakState → KeccakState) {m : ℕ} {l l' : List Blk}
    (h : (evalDone f l).2.length + (evalDone f l').2.length ≤ m) :
    (statesAlg m l l').queries f = (evalDone f l).2 ++ (evalDone f l').2 := by
  rw [evalDone_length, evalDone_length] at h
  rw [statesAlg, if_pos h, OracleAlg.queries_bind, stateAlg_queries, stateAlg_queries]

end Merlin

end ElasticElgamal
