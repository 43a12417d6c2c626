import Verif.Model.Proofs.Common
import Verif.Lemmas.Basic

/-!
# Lemmas about `chunks`
-/

set_option autoImplicit false

namespace ElasticElgamal

theorem chunks_nil {α : Type} (n : ℕ) : chunks n ([] : List α) = [] := by
  unfold chunks; simp

theorem chunks_cons_append {α : Type} {n : ℕ} (hn : 0 < n) (x l : List α) (hx : x.length = n) :
    chunks n (x ++ l) = x :: chunks n l := by
  conv_lhs => unfold chunks
  rw [dif_neg]
  · rw [← hx, List.take_left, List.drop_left]
  · rintro (h | h)
    · simp only [List.append_eq_nil_iff] at h
      rw [h.1] at hx; simp at hx; omega
    · omega

/-- Encode-then-decode of a list of fixed-size items. -/
theorem mapM_chunks_flatMap {α : Type} {n : ℕ} (hn : 0 < n) (ser : α → Bytes) (de : Bytes → Option α)
    (hlen : ∀ a, (ser a).length = n) (hde : ∀ a, de (ser a) = some a) (l : List α) :
    (chunks n (l.flatMap ser)).mapM de = some l := by
  induction l with
  | nil => simp [chunks_nil]
  | cons a l ih =>
    rw [List.flatMap_cons, chunks_cons_append hn _ _ (hlen a), List.mapM_cons, hde, ih]
    rfl

/-- Decode-then-encode of a list of fixed-size items. -/
theorem flatMap_of_mapM_chunks {α : Type} {n : ℕ} (hn : 0 < n) (ser : α → Bytes)
    (de : Bytes → Option α) (hser : ∀ b a, b.length = n → de b = some a → ser a = b) (k : ℕ) :
    ∀ (b : Bytes) (l : List α), b.length = k * n → (chunks n b).mapM de = some l →
      l.flatMap ser = b ∧ l.length = k := by
  induction k with
  | zero =>
    intro b l hb h
    have : b = [] := by rw [← List.length_eq_zero_iff]; omega
    subst this
    rw [chunks_nil] at h
    simp only [List.mapM_nil, Option.pure_def, Option.some.injEq] at h
    subst h
    exact ⟨rfl, rfl⟩
  | succ k ih =>
    intro b l hb h
    rw [Nat.add_mul, Nat.one_mul] at hb
    have hbs : b = b.take n ++ b.drop n := (List.take_append_drop n b).symm
    have hl : (b.take n).length = n := by rw [List.length_take]; omega
    rw [hbs, chunks_cons_append hn _ _ hl] at h
    simp only [List.mapM_cons, Option.bind_eq_bind, Option.bind_eq_some_iff, Option.pure_def,
      Option.some.injEq] at h
    obtain ⟨a, ha, l', hl', rfl⟩ := h
    obtain ⟨h1, h2⟩ := ih (b.drop n) l' (by rw [List.length_drop]; omega) hl'
    refine ⟨?_, by simp [h2]⟩
    rw [List.flatMap_cons, h1, hser _ _ hl ha, List.take_append_drop]

end ElasticElgamal
