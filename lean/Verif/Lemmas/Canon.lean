import Verif.Lemmas.RangeDecomp

/-!
# The result of the optimizer does not depend on the estimate
-/

set_option autoImplicit false

namespace ElasticElgamal

open Spec

/-- Replace `o` by the candidate if the candidate is better. -/
def betterOf (o oi : OptimalDecomposition) (t k : ℕ) : OptimalDecomposition :=
  if t + 2 + oi.optimalLen < o.optimalLen ∨ (t + 2 + oi.optimalLen = o.optimalLen ∧
      1 + oi.decomposition.rings.length < o.decomposition.rings.length) then
    ⟨⟨oi.decomposition.rings.map (fun s => ⟨s.size, s.step * k⟩) ++ [⟨t, 1⟩]⟩, t + 2 + oi.optimalLen⟩
  else o

/-- Pairs (ring size, multiplier), ring sizes starting from `t`. -/
def pairsFrom (n t : ℕ) : List (ℕ × ℕ) :=
  (List.range' t (n + 1 - t)).flatMap fun t => (List.range' 2 (t - 1)).map fun k => (t, k)

/-- Search without pruning. -/
def canon (n : ℕ) : OptimalDecomposition :=
  (pairsFrom n 2).foldl (fun o p =>
    if h : (n - p.1) % p.2 = 0 ∧ 2 ≤ (n - p.1) / p.2 + 1 ∧ (n - p.1) / p.2 + 1 < n then
      betterOf o (canon ((n - p.1) / p.2 + 1)) p.1 p.2
    else o) ⟨⟨[⟨n, 1⟩]⟩, n + 2⟩
termination_by n
decreasing_by exact h.2.2

def canonStep (n : ℕ) (o : OptimalDecomposition) (p : ℕ × ℕ) : OptimalDecomposition :=
  if (n - p.1) % p.2 = 0 ∧ 2 ≤ (n - p.1) / p.2 + 1 ∧ (n - p.1) / p.2 + 1 < n then
    betterOf o (canon ((n - p.1) / p.2 + 1)) p.1 p.2
  else o

theorem canon_eq (n : ℕ) : canon n = (pairsFrom n 2).foldl (canonStep n) ⟨⟨[⟨n, 1⟩]⟩, n + 2⟩ := by
  rw [canon]
  rfl

def MemoCanon (memo : RangeDecomposition.Memo) : Prop := ∀ n o, memo.lookup n = some o → o = canon n

theorem addU64_true {a b c : ℕ} (h : addU64 true a b = some c) : c = a + b := by
  unfold addU64 at h
  split at h <;> simp_all

theorem subU64_true {a b c : ℕ} (h : subU64 true a b = some c) : b ≤ a ∧ c = a - b := by
  unfold subU64 at h
  split at h <;> simp_all

theorem mulU64_true {a b c : ℕ} (h : mulU64 true a b = some c) : c = a * b := by
  unfold mulU64 at h
  split at h <;> simp_all

theorem combineMul_true {d d' : RangeDecomposition} {t k : ℕ} (h : d.combineMul true t k = some d') :
    d' = ⟨d.rings.map (fun s => ⟨s.size, s.step * k⟩) ++ [⟨t, 1⟩]⟩ := by
  simp only [RangeDecomposition.combineMul, Option.bind_eq_bind, Option.bind_eq_some_iff, Option.pure_def,
    Option.some.injEq] at h
  obtain ⟨l, h, rfl⟩ := h
  congr 2
  generalize d.rings = rings at h
  induction rings generalizing l with
  | nil => simpa using h.symm
  | cons s rings ih =>
    simp only [List.mapM_cons, Option.bind_eq_bind, Option.bind_eq_some_iff, Option.pure_def,
      Option.some.injEq] at h
    obtain ⟨s', ⟨x, hx, rfl⟩, l', hl', rfl⟩ := h
    rw [ih l' hl', mulU64_true hx]
    rfl

theorem foldl_noop {α β : Type} {f : β → α → β} {l : List α} {b : β} (h : ∀ a ∈ l, f b a = b) :
    l.foldl f b = b := by
  induction l with
  | nil => rfl
  | cons a l ih => rw [List.foldl_cons, h a (by simp), ih fun a ha => h a (by simp [ha])]

theorem innerLoop_canon {est : ℕ → ℕ}
    {opt : ℕ → RangeDecomposition.Memo → Option (OptimalDecomposition × RangeDecomposition.Memo)}
    {n t : ℕ} (ht : 2 ≤ t) (htn : t ≤ n)
    (hopt : ∀ T memo o memo', 2 ≤ T → T < n → MemoCanon memo → opt T memo = some (o, memo') →
      o = canon T ∧ MemoCanon memo')
    (hest : ∀ T, 2 ≤ T → T < n → est T ≤ (canon T).optimalLen)
    (ks : List ℕ) : ∀ {o o' : OptimalDecomposition} {memo memo' : RangeDecomposition.Memo},
    (∀ k ∈ ks, 2 ≤ k) → MemoCanon memo →
    RangeDecomposition.innerLoop true est opt t (n - t) ks o memo = some (o', memo') →
    o' = (ks.map fun k => (t, k)).foldl (canonStep n) o ∧ MemoCanon memo' := by
  induction ks with
  | nil =>
    intro o o' memo memo' _ hm h
    simp only [RangeDecomposition.innerLoop, Option.some.injEq, Prod.mk.injEq] at h
    obtain ⟨rfl, rfl⟩ := h
    exact ⟨rfl, hm⟩
  | cons k ks ih =>
    intro o o' memo memo' hks hm h
    have hk2 := hks k (by simp)
    have hks' : ∀ k ∈ ks, 2 ≤ k := fun k hk => hks k (by simp [hk])
    rw [RangeDecomposition.innerLoop] at h
    rw [List.map_cons, List.foldl_cons]
    split at h
    · rename_i hmod
      have : canonStep n o (t, k) = o := by rw [canonStep, if_neg]; exact fun h => hmod h.1
      rw [this]
      exact ih hks' hm h
    · rename_i hmod
      rw [ne_eq, not_not] at hmod
      simp only [Option.bind_eq_bind, Option.bind_eq_some_iff] at h
      obtain ⟨T, hT, h⟩ := h
      obtain rfl := addU64_true hT
      have hdiv : k * ((n - t) / k) = n - t := Nat.mul_div_cancel' (Nat.dvd_of_mod_eq_zero hmod)
      have hq2 : 2 * ((n - t) / k) ≤ n - t := by
        calc _ ≤ k * ((n - t) / k) := Nat.mul_le_mul_right _ hk2
          _ = _ := hdiv
      split at h
      · rename_i hlt
        simp only [Option.pure_def, Option.some.injEq, Prod.mk.injEq] at h
        obtain ⟨rfl, rfl⟩ := h
        have h0 : (n - t) / k = 0 := by omega
        have hnt : n - t = 0 := by rw [h0] at hdiv; omega
        refine ⟨?_, hm⟩
        have hno : ∀ k, canonStep n o (t, k) = o := by
          intro k
          rw [canonStep, if_neg]
          simp [hnt]
        rw [hno, foldl_noop]
        intro p hp
        obtain ⟨k', -, rfl⟩ := List.mem_map.mp hp
        exact hno k'
      · rename_i hge
        simp only [Option.bind_eq_some_iff] at h
        obtain ⟨fl, hfl, be, hbe, h⟩ := h
        obtain rfl := addU64_true hfl
        obtain rfl := addU64_true hbe
        have hTn : (n - t) / k + 1 < n := by omega
        have hstep : canonStep n o (t, k) = betterOf o (canon ((n - t) / k + 1)) t k := by
          rw [canonStep, if_pos]
          exact ⟨hmod, by simp only; omega, hTn⟩
        rw [hstep]
        split at h
        · rename_i hprune
          have := hest ((n - t) / k + 1) (by omega) hTn
          have : betterOf o (canon ((n - t) / k + 1)) t k = o := by
            rw [betterOf, if_neg]
            omega
          rw [this]
          exact ih hks' hm h
        · simp only [Option.bind_eq_some_iff, Prod.exists] at h
          obtain ⟨oi, memo1, hoi, cl, hcl, h⟩ := h
          obtain rfl := addU64_true hcl
          obtain ⟨rfl, hm1⟩ := hopt _ _ _ _ (by omega) hTn hm hoi
          split at h
          · rename_i hb
            simp only [Option.bind_eq_some_iff] at h
            obtain ⟨d, hd, h⟩ := h
            rw [combineMul_true hd] at h
            rw [betterOf, if_pos hb]
            exact ih hks' hm1 h
          · rename_i hb
            rw [betterOf, if_neg hb]
            exact ih hks' hm1 h

theorem pairsFrom_cons {n t : ℕ} (h : t ≤ n) :
    pairsFrom n t = ((List.range' 2 (t - 1)).map fun k => (t, k)) ++ pairsFrom n (t + 1) := by
  have : n + 1 - t = (n + 1 - (t + 1)) + 1 := by omega
  rw [pairsFrom, this, List.range'_succ, List.flatMap_cons]
  rfl

theorem outerLoop_canon {est : ℕ → ℕ}
    {opt : ℕ → RangeDecomposition.Memo → Option (OptimalDecomposition × RangeDecomposition.Memo)} {n : ℕ}
    (hopt : ∀ T memo o memo', 2 ≤ T → T < n → MemoCanon memo → opt T memo = some (o, memo') →
      o = canon T ∧ MemoCanon memo')
    (hest : ∀ T, 2 ≤ T → T < n → est T ≤ (canon T).optimalLen) (fuel : ℕ) :
    ∀ {t : ℕ} {o o' : OptimalDecomposition} {memo memo' : RangeDecomposition.Memo},
    2 ≤ t → MemoCanon memo →
    RangeDecomposition.outerLoop true est opt n fuel t o memo = some (o', memo') →
    o' = (pairsFrom n t).foldl (canonStep n) o ∧ MemoCanon memo' := by
  induction fuel with
  | zero => intro t o o' memo memo' _ _ h; simp [RangeDecomposition.outerLoop] at h
  | succ fuel ih =>
    intro t o o' memo memo' ht hm h
    simp only [RangeDecomposition.outerLoop, Option.bind_eq_bind, Option.bind_eq_some_iff] at h
    obtain ⟨fl, hfl, h⟩ := h
    obtain rfl := addU64_true hfl
    split at h
    · rename_i hgt
      simp only [Option.pure_def, Option.some.injEq, Prod.mk.injEq] at h
      obtain ⟨rfl, rfl⟩ := h
      refine ⟨(foldl_noop ?_).symm, hm⟩
      rintro ⟨t', k⟩ hp
      simp only [pairsFrom, List.mem_flatMap, List.mem_range'_1, List.mem_map, Prod.mk.injEq] at hp
      obtain ⟨t'', ⟨h1, -⟩, k', -, rfl, rfl⟩ := hp
      rw [canonStep]
      split
      · rw [betterOf, if_neg]
        simp only
        omega
      · rfl
    · simp only [Option.bind_eq_some_iff, Prod.exists] at h
      obtain ⟨rem, hrem, o1, memo1, h1, h2⟩ := h
      obtain ⟨htn, rfl⟩ := subU64_true hrem
      obtain ⟨rfl, hm1⟩ := innerLoop_canon ht htn hopt hest _ (by
        intro k hk; rw [List.mem_range'_1] at hk; omega) hm h1
      rw [pairsFrom_cons htn, List.foldl_append]
      exact ih (by omega) hm1 h2

theorem optimize_canon {est : ℕ → ℕ} (he : EstimateOk est) (fuel : ℕ) :
    ∀ {n : ℕ} {o : OptimalDecomposition} {memo memo' : RangeDecomposition.Memo}, 2 ≤ n → n ≤ 2 ^ 64 - 3 →
    n ≤ fuel → MemoCanon memo → RangeDecomposition.optimize true est fuel n memo = some (o, memo') →
    o = canon n ∧ MemoCanon memo' := by
  induction fuel with
  | zero => intro n o memo memo' _ _ _ _ h; simp [RangeDecomposition.optimize] at h
  | succ fuel ih =>
    intro n o memo memo' hn2 hn hf hm h
    rw [RangeDecomposition.optimize] at h
    split at h
    · rename_i o1 ho
      simp only [Option.some.injEq, Prod.mk.injEq] at h
      obtain ⟨rfl, rfl⟩ := h
      exact ⟨hm n _ ho, hm⟩
    · simp only [Option.bind_eq_bind, Option.bind_eq_some_iff, Prod.exists, guard_eq_some', Option.pure_def,
        Option.some.injEq, Prod.mk.injEq] at h
      obtain ⟨fl, hfl, o1, memo1, h1, -, -, rfl, rfl⟩ := h
      obtain rfl := addU64_true hfl
      obtain ⟨rfl, hm1⟩ := outerLoop_canon (fun T memo o memo' hT hTn hm h => ih hT (by omega) (by omega) hm h)
        (fun T hT hTn => by
          obtain ⟨o, memo', h1, h2, -⟩ := optimize_spec (dbg := true) he fuel (n := T) (memo := []) hT
            (by omega) (by omega) (fun n o h => by simp at h)
          rw [← (ih hT (by omega) (by omega) (fun n o h => by simp at h) h1).1, h2.len]
          exact he.le_len (by omega) h2.nested) n (le_refl _) hm h1
      have hc := canon_eq n
      refine ⟨hc.symm, ?_⟩
      intro m o' hlk
      rw [List.lookup_cons] at hlk
      split at hlk
      · rename_i heq
        have : m = n := by simpa using heq
        subst this
        cases hlk
        exact hc.symm
      · exact hm1 m o' hlk

theorem optimal_canon {est : ℕ → ℕ} (he : EstimateOk est) {n : ℕ} (hn2 : 2 ≤ n) (hn : n ≤ 2 ^ 64 - 3) :
    RangeDecomposition.optimal true est n = some (canon n).decomposition := by
  obtain ⟨o, memo', h1, -⟩ := optimize_spec (dbg := true) he n (memo := []) hn2 hn (le_refl _)
    (fun n o h => by simp at h)
  obtain ⟨rfl, -⟩ := optimize_canon he n hn2 hn (le_refl _) (fun n o h => by simp at h) h1
  simp [RangeDecomposition.optimal, guard, hn2, h1]

end ElasticElgamal
