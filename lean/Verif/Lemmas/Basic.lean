import Verif.Model.Base
import Mathlib.Algebra.BigOperators.Group.List.Basic
import Mathlib.Algebra.Module.BigOperators
import Mathlib.Tactic.Module
import Mathlib.Tactic.LinearCombination
import Mathlib.Tactic.Ring

/-!
# Helper lemmas about backends and transcripts
-/

set_option autoImplicit false

namespace ElasticElgamal

variable {F E : Type}

namespace Backend

section
variable [Field F] [AddCommGroup E] [Module F E] (B : Backend F E)

theorem multiMul_foldl (l : List (F × E)) (acc : E) :
    l.foldl (fun output se => output + se.1 • se.2) acc = acc + (l.map fun se => se.1 • se.2).sum := by
  induction l generalizing acc with
  | nil => simp
  | cons x xs ih => simp [ih, add_assoc]

theorem multiMul_eq_sum (ss : List F) (es : List E) :
    multiMul ss es = (List.zipWith (fun s e => s • e) ss es).sum := by
  rw [multiMul, multiMul_foldl, zero_add, List.map_zip_eq_zipWith]
  rfl

@[simp] theorem multiMul_nil (es : List E) : multiMul ([] : List F) es = 0 := by
  simp [multiMul_eq_sum]

@[simp] theorem multiMul_nil_right (ss : List F) : multiMul ss ([] : List E) = 0 := by
  simp [multiMul_eq_sum]

@[simp] theorem multiMul_cons (s : F) (ss : List F) (e : E) (es : List E) :
    multiMul (s :: ss) (e :: es) = s • e + multiMul ss es := by
  simp [multiMul_eq_sum]

theorem multiMul_append (ss ss' : List F) (es es' : List E) (h : ss.length = es.length) :
    multiMul (ss ++ ss') (es ++ es') = multiMul ss es + multiMul ss' es' := by
  simp only [multiMul_eq_sum]
  rw [List.zipWith_append h, List.sum_append]

end

theorem appendElement_eq_some {B : Backend F E} {t t' : Transcript} {label : String} {e : E} :
    B.appendElement t label e = some t' ↔
      ∃ b, B.serElem e = some b ∧ t.appendElementBytes label b = t' := by
  simp [appendElement, Option.bind_eq_some_iff]

theorem appendElement_total {B : Backend F E} (h : B.TotalSer) (t : Transcript) (label : String)
    (e : E) : ∃ t', B.appendElement t label e = some t' := by
  obtain ⟨b, hb⟩ := h e
  exact ⟨t.appendElementBytes label b, by simp [appendElement, hb]⟩

theorem debugAssert_eq_some {B : Backend F E} {p : Prop} [Decidable p] {u : Unit} :
    B.debugAssert p = some u ↔ (B.debug = true → p) := by
  cases hb : B.debug <;> simp [debugAssert, hb]

theorem debugAssert_of {B : Backend F E} {p : Prop} [Decidable p] (h : p) :
    B.debugAssert p = some () := by
  simp [debugAssert, h]

end Backend

theorem invertScalar_of_ne [Field F] [DecidableEq F] {x : F} (h : x ≠ 0) :
    Backend.invertScalar x = some x⁻¹ := by
  simp [Backend.invertScalar, h]

/-! ## Discrete logarithms -/

namespace Backend

section
variable [Field F] [AddCommGroup E] [Module F E]

/-- Discrete logarithm to the base of the generator (exists by `Lawful.gen_spans`). -/
noncomputable def dlog (B : Backend F E) (e : E) : F :=
  open Classical in if h : ∃ k : F, e = k • B.gen then Classical.choose h else 0

variable {B : Backend F E} (hB : B.Lawful)
include hB

theorem Lawful.smul_gen_inj {k k' : F} (h : k • B.gen = k' • B.gen) : k = k' := by
  have : (k - k') • B.gen = 0 := by rw [sub_smul, h, sub_self]
  rcases smul_eq_zero.mp this with h | h
  · exact sub_eq_zero.mp h
  · exact absurd h hB.gen_ne_zero

theorem Lawful.smul_gen_eq_zero {k : F} (h : k • B.gen = 0) : k = 0 :=
  hB.smul_gen_inj (by rw [h, zero_smul])

theorem Lawful.dlog_smul_gen (e : E) : B.dlog e • B.gen = e := by
  have h := hB.gen_spans e
  rw [dlog, dif_pos h]
  exact (Classical.choose_spec h).symm

theorem Lawful.dlog_gen_smul (k : F) : B.dlog (k • B.gen) = k :=
  hB.smul_gen_inj (hB.dlog_smul_gen _)

theorem Lawful.dlog_eq_iff {e : E} {k : F} : B.dlog e = k ↔ e = k • B.gen :=
  ⟨fun h => by rw [← h, hB.dlog_smul_gen], fun h => by rw [h, hB.dlog_gen_smul]⟩

theorem Lawful.dlog_inj {e e' : E} (h : B.dlog e = B.dlog e') : e = e' := by
  rw [← hB.dlog_smul_gen e, h, hB.dlog_smul_gen]

theorem Lawful.dlog_inj_iff {e e' : E} : B.dlog e = B.dlog e' ↔ e = e' :=
  ⟨hB.dlog_inj, fun h => by rw [h]⟩

theorem Lawful.dlog_gen : B.dlog B.gen = 1 := by
  rw [hB.dlog_eq_iff, one_smul]

theorem Lawful.dlog_zero : B.dlog (0 : E) = 0 := by
  rw [hB.dlog_eq_iff, zero_smul]

theorem Lawful.dlog_add (a b : E) : B.dlog (a + b) = B.dlog a + B.dlog b := by
  rw [hB.dlog_eq_iff, add_smul, hB.dlog_smul_gen, hB.dlog_smul_gen]

theorem Lawful.dlog_sub (a b : E) : B.dlog (a - b) = B.dlog a - B.dlog b := by
  rw [hB.dlog_eq_iff, sub_smul, hB.dlog_smul_gen, hB.dlog_smul_gen]

theorem Lawful.dlog_neg (a : E) : B.dlog (-a) = -B.dlog a := by
  rw [hB.dlog_eq_iff, neg_smul, hB.dlog_smul_gen]

theorem Lawful.dlog_smul (k : F) (a : E) : B.dlog (k • a) = k * B.dlog a := by
  rw [hB.dlog_eq_iff, mul_smul, hB.dlog_smul_gen]

theorem Lawful.serElem_inj {e e' : E} {b : Bytes} (h : B.serElem e = some b)
    (h' : B.serElem e' = some b) : e = e' := by
  have h1 := hB.deElem_serElem e b h
  have h2 := hB.deElem_serElem e' b h'
  rw [h1] at h2
  exact Option.some.inj h2

theorem Lawful.serScalar_inj {s s' : F} (h : B.serScalar s = B.serScalar s') : s = s' := by
  have h1 := hB.deScalar_serScalar s
  rw [h, hB.deScalar_serScalar s'] at h1
  exact (Option.some.inj h1).symm

end

end Backend

/-! ## `Option` / list helpers -/

theorem guard_eq_some' {p : Prop} [Decidable p] {u : Unit} :
    (guard p : Option Unit) = some u ↔ p := by
  by_cases h : p <;> simp [guard, h]

theorem mapM_option_eq_some {α β : Type} {f : α → Option β} {l : List α} {l' : List β} :
    l.mapM f = some l' ↔ List.Forall₂ (fun a b => f a = some b) l l' := by
  induction l generalizing l' with
  | nil => simp [eq_comm]
  | cons x xs ih =>
    simp only [List.mapM_cons, Option.bind_eq_bind, Option.bind_eq_some_iff, Option.pure_def,
      Option.some.injEq]
    constructor
    · rintro ⟨y, hy, ys, hys, rfl⟩
      exact .cons hy (ih.mp hys)
    · intro h
      cases h with
      | cons hy hys => exact ⟨_, hy, _, ih.mpr hys, rfl⟩

theorem mapM_option_exists {α β : Type} {f : α → Option β} {l : List α}
    (h : ∀ a ∈ l, ∃ b, f a = some b) : ∃ l', l.mapM f = some l' := by
  induction l with
  | nil => exact ⟨[], rfl⟩
  | cons x xs ih =>
    obtain ⟨y, hy⟩ := h x (by simp)
    obtain ⟨ys, hys⟩ := ih fun a ha => h a (by simp [ha])
    exact ⟨y :: ys, by simp [List.mapM_cons, hy, hys]⟩

theorem mapM_option_pure {α β : Type} {f : α → Option β} {g : α → β} {l : List α}
    (h : ∀ a ∈ l, f a = some (g a)) : l.mapM f = some (l.map g) := by
  induction l with
  | nil => rfl
  | cons x xs ih =>
    simp [List.mapM_cons, h x (by simp), ih fun a ha => h a (by simp [ha])]

end ElasticElgamal
