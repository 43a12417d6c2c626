import Verif.Spec.Unique
import Verif.Lemmas.RingSound
import Verif.Lemmas.RingTape

/-!
# Ring proofs with the same commitments
-/

set_option autoImplicit false
set_option linter.unusedSectionVars false

namespace ElasticElgamal

open Spec

variable {F E : Type} [Field F] [AddCommGroup E] [Module F E] [DecidableEq F] [DecidableEq E]

theorem ringLoop_unique {B : Backend F E} (hB : B.Lawful) {K : PublicKey E} {ct : Ciphertext E} {t : Transcript} {n : ℕ}
    (vs : List E) : ∀ (j : ℕ) (s₁ s₂ : List F) (c : F) (m₁ m₂ m : E × E), j + vs.length = n → s₁.length = vs.length →
      s₂.length = vs.length → s₁.dropLast = s₂.dropLast →
      RingProof.verifyRingLoop B K ct t n j (vs.zip s₁) c m₁ = some m →
      RingProof.verifyRingLoop B K ct t n j (vs.zip s₂) c m₂ = some m → s₁ = s₂ := by
  induction vs with
  | nil =>
    intro j s₁ s₂ c m₁ m₂ m _ h1 h2 _ _ _
    rw [List.length_eq_zero_iff.mp h1, List.length_eq_zero_iff.mp h2]
  | cons v vs ih =>
    intro j s₁ s₂ c m₁ m₂ m hn h1 h2 hs hv1 hv2
    obtain ⟨a, s₁, rfl⟩ := List.exists_cons_of_length_eq_add_one h1
    obtain ⟨b, s₂, rfl⟩ := List.exists_cons_of_length_eq_add_one h2
    simp only [List.length_cons, Nat.add_right_cancel_iff] at h1 h2 hn
    rw [List.zip_cons_cons] at hv1 hv2
    by_cases hj : j + 1 < n
    · have hne1 : s₁ ≠ [] := by rintro rfl; simp at h1; omega
      have hne2 : s₂ ≠ [] := by rintro rfl; simp at h2; omega
      rw [List.dropLast_cons_of_ne_nil hne1, List.dropLast_cons_of_ne_nil hne2, List.cons.injEq] at hs
      obtain ⟨rfl, hs⟩ := hs
      rw [RingProof.verifyRingLoop_cons_lt hj, Option.bind_eq_some_iff] at hv1 hv2
      obtain ⟨c1, hc1, hv1⟩ := hv1
      obtain ⟨c2, hc2, hv2⟩ := hv2
      rw [hc1, Option.some.injEq] at hc2
      subst hc2
      rw [ih (j + 1) s₁ s₂ c1 _ _ m (by omega) h1 h2 hs hv1 hv2]
    · have hvs : vs = [] := List.length_eq_zero_iff.mp (by omega)
      subst hvs
      rw [List.length_eq_zero_iff.mp h1, List.length_eq_zero_iff.mp h2]
      rw [RingProof.verifyRingLoop_cons_last hj] at hv1 hv2
      simp only [List.zip_nil_left, RingProof.verifyRingLoop, Option.some.injEq] at hv1 hv2
      have := congrArg Prod.fst (hv1.trans hv2.symm)
      simp only [ringComm] at this
      rw [hB.smul_gen_inj (sub_left_injective this)]

theorem verifyLoop_prefix {B : Backend F E} {proof : RingProof F} {K : PublicKey E} {t₀ : Transcript}
    (l : List (List E × Ciphertext E)) : ∀ (i off : ℕ) (t w : Transcript),
      RingProof.verifyLoop B proof K t₀ i off l t = some w → ∃ s, w.log = t.log ++ s ∧ s.length = 2 * l.length := by
  induction l with
  | nil =>
    intro i off t w h
    simp only [RingProof.verifyLoop, Option.some.injEq] at h
    exact ⟨[], by simp [h]⟩
  | cons p l ih =>
    obtain ⟨values, ct⟩ := p
    intro i off t w h
    simp only [RingProof.verifyLoop, Option.bind_eq_bind, Option.bind_eq_some_iff] at h
    obtain ⟨enc, -, u, -, m, -, t1, h1, t2, h2, h⟩ := h
    obtain ⟨s, hs, hl⟩ := ih _ _ _ _ h
    obtain ⟨b1, -, rfl⟩ := Backend.appendElement_eq_some.mp h1
    obtain ⟨b2, -, rfl⟩ := Backend.appendElement_eq_some.mp h2
    refine ⟨[.msg "R_G" b1, .msg "R_K" b2] ++ s, ?_, ?_⟩
    · rw [hs]
      simp [Transcript.appendElementBytes, Transcript.appendMessage]
    · simp [hl]; omega

theorem verifyLoop_unique {B : Backend F E} (hB : B.Lawful) {p₁ p₂ : RingProof F} {K : PublicKey E} {t₀ : Transcript}
    (hc : p₁.commonChallenge = p₂.commonChallenge) (hlen : p₁.ringResponses.length = p₂.ringResponses.length)
    (l : List (List E × Ciphertext E)) : ∀ (i off : ℕ) (t w : Transcript),
      off + ((l.map fun p => p.1.length)).sum = p₁.ringResponses.length →
      withoutLast (l.map Prod.fst) (p₁.ringResponses.drop off) = withoutLast (l.map Prod.fst) (p₂.ringResponses.drop off) →
      RingProof.verifyLoop B p₁ K t₀ i off l t = some w → RingProof.verifyLoop B p₂ K t₀ i off l t = some w →
      p₁.ringResponses.drop off = p₂.ringResponses.drop off := by
  induction l with
  | nil =>
    intro i off t w hoff _ _ _
    simp only [List.map_nil, List.sum_nil, Nat.add_zero] at hoff
    rw [List.drop_of_length_le hoff.ge, List.drop_of_length_le (by omega)]
  | cons p l ih =>
    obtain ⟨vs, ct⟩ := p
    intro i off t w hoff hw h1 h2
    simp only [List.map_cons, List.sum_cons, withoutLast, List.cons.injEq, List.drop_drop] at hoff hw
    obtain ⟨hw, hrest⟩ := hw
    simp only [RingProof.verifyLoop, Option.bind_eq_bind, Option.bind_eq_some_iff] at h1 h2
    obtain ⟨enc, henc, -, -, m, hm, t1, ht1, t2, ht2, h1⟩ := h1
    obtain ⟨enc', henc', -, -, m', hm', t1', ht1', t2', ht2', h2⟩ := h2
    rw [henc, Option.some.injEq] at henc'
    subst henc'
    obtain ⟨b1, hb1, rfl⟩ := Backend.appendElement_eq_some.mp ht1
    obtain ⟨b2, hb2, rfl⟩ := Backend.appendElement_eq_some.mp ht2
    obtain ⟨b1', hb1', rfl⟩ := Backend.appendElement_eq_some.mp ht1'
    obtain ⟨b2', hb2', rfl⟩ := Backend.appendElement_eq_some.mp ht2'
    obtain ⟨s, hs, hl⟩ := verifyLoop_prefix _ _ _ _ _ h1
    obtain ⟨s', hs', hl'⟩ := verifyLoop_prefix _ _ _ _ _ h2
    rw [hs] at hs'
    have he := (List.append_inj' hs' (by omega)).1
    simp only [Transcript.appendElementBytes, Transcript.appendMessage, List.append_assoc, List.append_cancel_left_eq,
      List.cons_append, List.nil_append, List.cons.injEq, Entry.msg.injEq, true_and, and_true] at he
    obtain ⟨rfl, rfl⟩ := he
    have hmm : m = m' := Prod.ext (hB.serElem_inj hb1 hb1') (hB.serElem_inj hb2 hb2')
    subst hmm
    rw [← zip_take_left] at hm hm'
    rw [← hc] at hm'
    have hhead := ringLoop_unique hB vs 0 _ _ _ _ _ _ (by simp) (by simp; omega) (by simp; omega) hw hm hm'
    have htail := ih _ _ _ _ (by omega) hrest h1 h2
    rw [← List.take_append_drop vs.length (p₁.ringResponses.drop off), hhead, List.drop_drop, htail, ← List.drop_drop,
      List.take_append_drop]

end ElasticElgamal
