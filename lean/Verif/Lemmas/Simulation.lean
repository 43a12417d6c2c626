import Verif.Spec.Privacy
import Verif.Lemmas.Oracle
import Mathlib.Algebra.BigOperators.Field

/-!
# Lemmas about means and programmed hash functions
-/

set_option autoImplicit false
set_option linter.unusedSectionVars false

namespace ElasticElgamal

open Spec

section
variable {Q A : Type} [DecidableEq Q]

theorem program_cons (H : Q → A) (qa : Q × A) (l : List (Q × A)) :
    program H (qa :: l) = program (Function.update H qa.1 qa.2) l := rfl

theorem program_of_notMem {H : Q → A} {l : List (Q × A)} {q : Q} (h : q ∉ l.map Prod.fst) :
    program H l q = H q := by
  induction l generalizing H with
  | nil => rfl
  | cons qa l ih =>
    simp only [List.map_cons, List.mem_cons, not_or] at h
    rw [program_cons, ih h.2, Function.update_of_ne h.1]

theorem program_of_mem {H : Q → A} {l : List (Q × A)} (hl : (l.map Prod.fst).Nodup) {q : Q} {a : A}
    (h : (q, a) ∈ l) : program H l q = a := by
  induction l generalizing H with
  | nil => simp at h
  | cons qa l ih =>
    rw [List.map_cons, List.nodup_cons] at hl
    rw [program_cons]
    rcases List.mem_cons.mp h with rfl | h
    · rw [program_of_notMem hl.1, Function.update_self]
    · exact ih hl.2 h

/-- `H` has the given values. -/
def Has (H : Q → A) (l : List (Q × A)) : Prop := ∀ qa ∈ l, H qa.1 = qa.2

theorem program_has {H : Q → A} {l : List (Q × A)} (hl : (l.map Prod.fst).Nodup) : Has (program H l) l :=
  fun _ h => program_of_mem hl h

/-- A function with the given values that agrees elsewhere. -/
theorem program_eq {H H' : Q → A} {l : List (Q × A)} (hl : (l.map Prod.fst).Nodup) (h : Has H' l)
    (h' : ∀ q, q ∉ l.map Prod.fst → H q = H' q) : program H l = H' := by
  funext q
  by_cases hq : q ∈ l.map Prod.fst
  · obtain ⟨⟨q, a⟩, hm, rfl⟩ := List.mem_map.mp hq
    rw [program_of_mem hl hm]
    exact (h _ hm).symm
  · rw [program_of_notMem hq, h' q hq]

variable [Fintype A] {P : Type} [Fintype P]

/-- Values to be programmed: their places may depend on the hash function, but not on its values at these places. -/
structure Programmable (pts : (Q → A) → P → List (Q × A)) (k : ℕ) (D : Finset Q) : Prop where
  stable : ∀ H H' p, (∀ q, q ∉ (pts H p).map Prod.fst → H' q = H q) → pts H' p = pts H p
  length : ∀ H p, (pts H p).length = k
  within : ∀ H p, ∀ qa ∈ pts H p, qa.1 ∈ D

open Classical in
theorem sum_program {pts : (Q → A) → P → List (Q × A)} {k : ℕ} {D : Finset Q} (hp : Programmable pts k D)
    (H₀ : Q → A) (p : P) (g : (Q → A) → ℚ) :
    (∑ H ∈ (hashFamily D H₀).filter (fun H => ((pts H p).map Prod.fst).Nodup ∧ Has H (pts H p)), g H) *
        (Fintype.card A : ℚ) ^ k =
      ∑ H ∈ (hashFamily D H₀).filter (fun H => ((pts H p).map Prod.fst).Nodup), g (program H (pts H p)) := by
  have hst : ∀ H, pts (program H (pts H p)) p = pts H p :=
    fun H => hp.stable _ _ _ fun q hq => program_of_notMem hq
  rw [← Finset.sum_fiberwise_of_maps_to (s := (hashFamily D H₀).filter fun H => ((pts H p).map Prod.fst).Nodup)
    (g := fun H => program H (pts H p))
    (t := (hashFamily D H₀).filter (fun H => ((pts H p).map Prod.fst).Nodup ∧ Has H (pts H p))), Finset.sum_mul]
  · refine Finset.sum_congr rfl fun H' hH' => ?_
    simp only [Finset.mem_filter, mem_hashFamily] at hH'
    obtain ⟨h1, h2, h3⟩ := hH'
    have hfib : (((hashFamily D H₀).filter (fun H => ((pts H p).map Prod.fst).Nodup)).filter
        fun H => program H (pts H p) = H') = hashFamily ((pts H' p).map Prod.fst).toFinset H' := by
      ext H
      simp only [Finset.mem_filter, mem_hashFamily, List.mem_toFinset]
      constructor
      · rintro ⟨⟨-, -⟩, rfl⟩ q hq
        rw [hst] at hq
        rw [program_of_notMem hq]
      · intro h
        have he : pts H p = pts H' p := hp.stable _ _ _ h
        refine ⟨⟨fun q hq => ?_, he ▸ h2⟩, ?_⟩
        · rw [h q, h1 q hq]
          intro hm
          obtain ⟨qa, hqa, rfl⟩ := List.mem_map.mp hm
          exact hq (hp.within _ _ _ hqa)
        · rw [he]; exact program_eq h2 h3 h
    rw [Finset.sum_congr rfl (g := fun _ => g H') (fun H hH => by rw [(Finset.mem_filter.mp hH).2]), hfib,
      Finset.sum_const, card_hashFamily, List.toFinset_card_of_nodup h2, List.length_map, hp.length, nsmul_eq_mul]
    push_cast
    ring
  · intro H hH
    simp only [Finset.mem_filter, mem_hashFamily] at hH ⊢
    rw [hst]
    refine ⟨fun q hq => ?_, hH.2, program_has hH.2⟩
    rw [program_of_notMem, hH.1 q hq]
    intro hm
    obtain ⟨qa, hqa, rfl⟩ := List.mem_map.mp hm
    exact hq (hp.within _ _ _ hqa)

end

/-! ## Means -/

section
variable {α β : Type} [Fintype α] [Fintype β]

theorem mean_prod (f : α × β → ℚ) : mean f = mean fun a => mean fun b => f (a, b) := by
  simp only [mean, Fintype.card_prod, Fintype.sum_prod_type, Nat.cast_mul, ← Finset.sum_div, div_div, mul_comm]

theorem mean_comm (f : α → β → ℚ) : (mean fun a => mean fun b => f a b) = mean fun b => mean fun a => f a b := by
  simp only [mean, ← Finset.sum_div, div_div, mul_comm]
  rw [Finset.sum_comm]

theorem mean_equiv (e : α ≃ β) (f : β → ℚ) : (mean fun a => f (e a)) = mean f := by
  rw [mean, mean, Fintype.card_congr e, Equiv.sum_comp e f]

theorem mean_const [Nonempty α] (x : ℚ) : mean (fun _ : α => x) = x := by
  have : (Fintype.card α : ℚ) ≠ 0 := by exact_mod_cast Fintype.card_ne_zero
  rw [mean, Finset.sum_const, Finset.card_univ, nsmul_eq_mul, mul_div_cancel_left₀ _ this]

theorem meanHash_const {Q : Type} (D : Finset Q) (H₀ : Q → α) (x : ℚ) : meanHash D H₀ (fun _ => x) = x := by
  have : ((hashFamily D H₀).card : ℚ) ≠ 0 := by
    rw [Nat.cast_ne_zero, Finset.card_ne_zero]
    exact ⟨H₀, mem_hashFamily.mpr fun _ _ => rfl⟩
  rw [meanHash, Finset.sum_const, nsmul_eq_mul, mul_div_cancel_left₀ _ this]

theorem meanHash_mean {Q : Type} (D : Finset Q) (H₀ : Q → α) (f : (Q → α) → β → ℚ) :
    (meanHash D H₀ fun H => mean fun b => f H b) = mean fun b => meanHash D H₀ fun H => f H b := by
  simp only [mean, meanHash, ← Finset.sum_div, div_div, mul_comm]
  rw [Finset.sum_comm]

theorem mean_sub (f g : α → ℚ) : (mean fun a => f a - g a) = mean f - mean g := by
  rw [mean, mean, mean, Finset.sum_sub_distrib, sub_div]

/-- Choosing one coordinate again changes nothing. -/
theorem mean_update {n : ℕ} [Nonempty α] (i : Fin n) (f : (Fin n → α) → ℚ) :
    (mean fun rs => mean fun x => f (Function.update rs i x)) = mean f := by
  rw [← mean_equiv (Equiv.funSplitAt i α).symm f, ← mean_equiv (Equiv.funSplitAt i α).symm, mean_prod, mean_prod]
  have h : ∀ (y : α) (rest : {j // j ≠ i} → α) (x : α), Function.update ((Equiv.funSplitAt i α).symm (y, rest)) i x =
      (Equiv.funSplitAt i α).symm (x, rest) := by
    intro y rest x
    funext j
    by_cases hj : j = i
    · subst hj; simp [Equiv.funSplitAt, Equiv.piSplitAt]
    · simp [Equiv.funSplitAt, Equiv.piSplitAt, hj]
  simp only [h, mean_const]
  rw [mean_comm]

theorem mean_update_fst {n : ℕ} [Nonempty α] (i : Fin n) (f : (Fin n → α) × β → ℚ) :
    mean f = mean fun x => mean fun rs : (Fin n → α) × β => f (Function.update rs.1 i x, rs.2) := by
  rw [mean_prod, ← mean_update i, mean_comm]
  simp only [mean_prod (α := Fin n → α)]

theorem mean_update_both {n : ℕ} [Nonempty α] (i : Fin n) (f : (Fin n → α) × (Fin n → α) → ℚ) :
    mean f = mean fun x => mean fun y => mean fun rs : (Fin n → α) × (Fin n → α) =>
      f (Function.update rs.1 i x, Function.update rs.2 i y) := by
  rw [mean_update_fst i]
  congr 1
  funext x
  rw [← mean_equiv (Equiv.prodComm _ _), mean_update_fst i]
  congr 1
  funext y
  rw [← mean_equiv (Equiv.prodComm _ _)]
  rfl

end

/-! ## Simulation with a programmed hash function -/

open Classical in
/-- Sums over all tapes are sums over the outputs, if every good output is produced by exactly one tape. -/
theorem sum_outputs {S T O : Type} [Fintype S] [Fintype T] {good : S → Prop} {out : T → O} {dec : S → O}
    (hinj : Function.Injective dec) (hex : ∀ s, good s → ∃! t, out t = dec s)
    (hcov : ∀ t, ∃ s, good s ∧ out t = dec s) (f : O → ℚ) :
    ∑ t, f (out t) = ∑ s, if good s then f (dec s) else 0 := by
  rw [← Finset.sum_filter]
  refine Finset.sum_bij (fun t _ => (hcov t).choose) ?_ ?_ ?_ ?_
  · intro t _
    simpa using (hcov t).choose_spec.1
  · intro t _ t' _ he
    obtain ⟨hs, ht⟩ := (hcov t).choose_spec
    have ht' := (hcov t').choose_spec.2
    rw [← he] at ht'
    exact (hex _ hs).unique ht ht'
  · intro s hs
    simp only [Finset.mem_filter, Finset.mem_univ, true_and] at hs
    obtain ⟨t, ht, -⟩ := hex s hs
    exact ⟨t, Finset.mem_univ _, hinj ((hcov t).choose_spec.2.symm.trans ht)⟩
  · intro t _
    exact congrArg _ (hcov t).choose_spec.2

open Classical in
/-- The same for several independent tapes. -/
theorem sum_outputs_pi {ι S T O : Type} [Fintype ι] [DecidableEq ι] [Fintype S] [Fintype T] {good : ι → S → Prop} {out : ι → T → O}
    {dec : ι → S → O} (hinj : ∀ i, Function.Injective (dec i)) (hex : ∀ i s, good i s → ∃! t, out i t = dec i s)
    (hcov : ∀ i t, ∃ s, good i s ∧ out i t = dec i s) (f : (ι → O) → ℚ) :
    (∑ ts : ι → T, f fun i => out i (ts i)) =
      ∑ ss : ι → S, if ∀ i, good i (ss i) then f (fun i => dec i (ss i)) else 0 := by
  refine (sum_outputs (T := ι → T) (S := ι → S) (out := fun ts i => out i (ts i)) (dec := fun ss i => dec i (ss i))
    (good := fun ss => ∀ i, good i (ss i)) ?_ ?_ ?_ f).trans (Finset.sum_congr rfl fun _ _ => by congr)
  · intro s s' h
    exact funext fun i => hinj i (congrFun h i)
  · intro s hs
    choose t ht hu using fun i => hex i (s i) (hs i)
    exact ⟨t, funext ht, fun t' ht' => funext fun i => hu i _ (congrFun ht' i)⟩
  · intro t
    choose s hs ht using fun i => hcov i (t i)
    exact ⟨s, hs, funext ht⟩

open Classical in
/-- Outputs of an algorithm with a random tape can be replaced by uniformly random ones, if the hash function is
programmed accordingly: `dec s` is the output described by `s`, and it is produced by exactly one tape if the
hash function has the values `pts H s`, otherwise by none. -/
theorem rom_simulation {Q A S T O : Type} [DecidableEq Q] [Fintype A] [Nonempty A] [Fintype S] [Fintype T]
    {pts : (Q → A) → S → List (Q × A)} {k : ℕ} {D : Finset Q} (hp : Programmable pts k D)
    (hnd : ∀ H s, ((pts H s).map Prod.fst).Nodup) (H₀ : Q → A) (out : (Q → A) → T → O) (dec : S → O)
    (hinj : Function.Injective dec) (hex : ∀ H s, Has H (pts H s) → ∃! t, out H t = dec s)
    (hcov : ∀ H t, ∃ s, Has H (pts H s) ∧ out H t = dec s)
    (hcard : Fintype.card S = Fintype.card T * Fintype.card A ^ k) (f : (Q → A) → O → ℚ) :
    meanHash D H₀ (fun H => mean fun t => f H (out H t)) =
      mean fun s => meanHash D H₀ fun H => f (program H (pts H s)) (dec s) := by
  have hA : (Fintype.card A : ℚ) ^ k ≠ 0 := pow_ne_zero _ (by exact_mod_cast Fintype.card_ne_zero)
  have h1 : ∀ H, ∑ t, f H (out H t) = ∑ s, if Has H (pts H s) then f H (dec s) else 0 :=
    fun H => sum_outputs hinj (hex H) (hcov H) (f H)
  have h2 : ∀ s, ∑ H ∈ hashFamily D H₀, f (program H (pts H s)) (dec s) =
      (∑ H ∈ hashFamily D H₀, if Has H (pts H s) then f H (dec s) else 0) * (Fintype.card A : ℚ) ^ k := by
    intro s
    have := sum_program hp H₀ s (fun H => f H (dec s))
    simp only [hnd, true_and, Finset.filter_true] at this
    rw [← this, Finset.sum_filter]
  simp only [meanHash, mean, h1, h2, ← Finset.sum_div, hcard]
  rw [Finset.sum_comm, ← Finset.sum_mul]
  push_cast
  rw [div_div, div_div, ← mul_assoc, mul_comm _ ((Fintype.card T : ℚ)),
    mul_div_mul_right _ _ hA]

/-! ## The hybrid argument -/

section
variable {F E : Type} [Field F] [Fintype F] [AddCommGroup E] [Module F E]

/-- Encryptions of `m` under a random key, with the first `t` ciphertexts replaced by random ones. -/
def hybrid (B : Backend F E) {n : ℕ} (m : E → Fin n → E) (guess : E → (Fin n → Ciphertext E) → ℚ) (t : ℕ) : ℚ :=
  mean fun k : F => mean fun rs : (Fin n → F) × (Fin n → F) => guess (k • B.gen) fun j =>
    if j.1 < t then ⟨rs.1 j • B.gen, rs.2 j • B.gen⟩
    else ⟨rs.1 j • B.gen, m (k • B.gen) j + rs.1 j • k • B.gen⟩

theorem hybrid_step (B : Backend F E) (hB : B.Lawful) {n : ℕ} (m : E → Fin n → E)
    (guess : E → (Fin n → Ciphertext E) → ℚ) (i : Fin n) :
    ddhGap B (hybridReduction B m guess i) = hybrid B m guess i - hybrid B m guess (i + 1) := by
  rw [ddhGap]
  congr 1
  · rw [hybrid, mean_prod]
    congr 1
    funext k
    rw [mean_update_fst i]
    congr 1
    funext x
    simp only [hybridReduction]
    congr 1
    funext rs
    congr 1
    funext j
    rcases lt_trichotomy j i with h | h | h
    · simp [h, h.ne, Fin.lt_def.mp h]
    · subst h
      simp [mul_smul, smul_comm x k]
    · simp [h.not_gt, h.ne']
  · rw [hybrid, mean_prod]
    congr 1
    funext k
    rw [mean_prod, mean_update_both i]
    congr 1
    funext x
    obtain ⟨w, hw⟩ := hB.gen_spans (m (k • B.gen) i)
    rw [← mean_equiv (Equiv.addLeft (-w))]
    congr 1
    funext y
    simp only [hybridReduction]
    congr 1
    funext rs
    congr 1
    funext j
    rcases lt_trichotomy j i with h | h | h
    · simp [h, h.ne, Nat.lt_succ_of_lt (Fin.lt_def.mp h)]
    · subst h
      simp [hw, add_smul]
    · have : ¬ j.1 < i.1 + 1 := by have := Fin.lt_def.mp h; omega
      simp [h.not_gt, h.ne', this]

/-- Encryptions of any messages compared with random ciphertexts. -/
theorem hybrid_total (B : Backend F E) (hB : B.Lawful) {n : ℕ} (m : E → Fin n → E)
    (guess : E → (Fin n → Ciphertext E) → ℚ) :
    (mean fun k : F => mean fun rs : Fin n → F => guess (k • B.gen) fun j =>
        ⟨rs j • B.gen, m (k • B.gen) j + rs j • k • B.gen⟩) -
      (mean fun k : F => mean fun rs : (Fin n → F) × (Fin n → F) => guess (k • B.gen) fun j =>
        ⟨rs.1 j • B.gen, rs.2 j • B.gen⟩) =
      ∑ i, ddhGap B (hybridReduction B m guess i) := by
  have h0 : (mean fun k : F => mean fun rs : Fin n → F => guess (k • B.gen) fun j =>
        ⟨rs j • B.gen, m (k • B.gen) j + rs j • k • B.gen⟩) = hybrid B m guess 0 := by
    rw [hybrid]
    congr 1
    funext k
    rw [mean_prod]
    simp [mean_const]
  have hn : (mean fun k : F => mean fun rs : (Fin n → F) × (Fin n → F) => guess (k • B.gen) fun j =>
        ⟨rs.1 j • B.gen, rs.2 j • B.gen⟩) = hybrid B m guess n := by
    simp [hybrid]
  rw [h0, hn, Finset.sum_congr rfl fun i _ => hybrid_step B hB m guess i,
    Fin.sum_univ_eq_sum_range fun i => hybrid B m guess i - hybrid B m guess (i + 1), Finset.sum_range_sub']

end

end ElasticElgamal
