import Verif.Spec.Partial
import Verif.Props.Privacy
import Mathlib.Logic.Equiv.Fintype

/-!
# Lemmas: groups that cannot encode all elements
-/

set_option autoImplicit false
set_option linter.unusedSectionVars false

namespace ElasticElgamal

open Spec

variable {F E : Type} [Field F] [AddCommGroup E] [Module F E]

theorem totalize_total (B : Backend F E) (spare : Bytes) : (totalize B spare).TotalSer := fun _ => ⟨_, rfl⟩

theorem Backend.Lawful.totalize {B : Backend F E} (hB : B.Lawful) {spare : Bytes} (hs : SpareEncoding B spare) :
    (totalize B spare).Lawful where
  gen_ne_zero := hB.gen_ne_zero
  gen_spans := hB.gen_spans
  scalarSize_pos := hB.scalarSize_pos
  serScalar_length := hB.serScalar_length
  deScalar_serScalar := hB.deScalar_serScalar
  serScalar_deScalar := hB.serScalar_deScalar
  serElem_length e b h := by
    obtain rfl : (B.serElem e).getD spare = b := Option.some.inj h
    show _ = B.elementSize
    cases he : B.serElem e with
    | none => exact hs.1
    | some b => exact hB.serElem_length e b he
  deElem_serElem e b h := by
    obtain rfl : (B.serElem e).getD spare = b := Option.some.inj h
    cases he : B.serElem e with
    | none =>
      have : e = 0 := by
        by_contra h0
        obtain ⟨b, hb⟩ := hB.serElem_ne_zero e h0
        rw [he] at hb
        cases hb
      show (if spare = spare then some 0 else B.deElem spare) = some e
      rw [if_pos rfl, this]
    | some b =>
      show (if b = spare then _ else B.deElem b) = _
      rw [if_neg fun hb : b = spare => hs.2 e (hb ▸ he)]
      exact hB.deElem_serElem e b he
  serElem_ne_zero _ _ := ⟨_, rfl⟩
  sha256_length := hB.sha256_length
  fill32_length := hB.fill32_length

section
variable {B : Backend F E} {spare : Bytes}

theorem totalize_ser {e : E} {b : Bytes} (h : B.serElem e = some b) : (totalize B spare).serElem e = some b := by
  show some ((B.serElem e).getD spare) = _
  rw [h]
  rfl

theorem totalize_append {t t' : Transcript} {l : String} {e : E} (h : B.appendElement t l e = some t') :
    (totalize B spare).appendElement t l e = some t' := by
  rw [Backend.appendElement_eq_some] at h ⊢
  obtain ⟨b, hb, rfl⟩ := h
  exact ⟨b, totalize_ser hb, rfl⟩

theorem totalize_chal {base : List Entry} {j : ℕ} {m : E × E} {c : F} (h : ringChal B base j m = some c) :
    ringChal (totalize B spare) base j m = some c := by
  rw [ringChal_eq_some] at h ⊢
  obtain ⟨x, y, hx, hy, rfl⟩ := h
  exact ⟨x, y, totalize_ser hx, totalize_ser hy, rfl⟩

theorem totalize_ct {ct : Ciphertext E} {b : Bytes} (h : ct.toBytes B = some b) :
    ct.toBytes (totalize B spare) = some b := by
  simp only [Ciphertext.toBytes, Option.bind_eq_bind, Option.bind_eq_some_iff, Option.pure_def, Option.some.injEq] at h ⊢
  obtain ⟨x, hx, y, hy, rfl⟩ := h
  exact ⟨x, totalize_ser hx, y, totalize_ser hy, rfl⟩

theorem totalize_ringLoop {K : PublicKey E} {ct : Ciphertext E} {t : Transcript} {n : ℕ} (l : List (E × F)) :
    ∀ {j : ℕ} {c : F} {m m' : E × E}, RingProof.verifyRingLoop B K ct t n j l c m = some m' →
      RingProof.verifyRingLoop (totalize B spare) K ct t n j l c m = some m' := by
  induction l with
  | nil => intro j c m m' h; exact h
  | cons p l ih =>
    obtain ⟨v, s⟩ := p
    intro j c m m' h
    by_cases hj : j + 1 < n
    · rw [RingProof.verifyRingLoop_cons_lt hj, Option.bind_eq_some_iff] at h
      obtain ⟨c', hc, h⟩ := h
      rw [RingProof.verifyRingLoop_cons_lt hj]
      exact Option.bind_eq_some_iff.mpr ⟨c', totalize_chal hc, ih h⟩
    · rw [RingProof.verifyRingLoop_cons_last hj] at h ⊢
      exact ih h

theorem totalize_loop {K : PublicKey E} {proof : RingProof F} {t₀ : Transcript} (l : List (List E × Ciphertext E)) :
    ∀ {i off : ℕ} {t t' : Transcript}, RingProof.verifyLoop B proof K t₀ i off l t = some t' →
      RingProof.verifyLoop (totalize B spare) proof K t₀ i off l t = some t' := by
  induction l with
  | nil => intro i off t t' h; exact h
  | cons p l ih =>
    obtain ⟨values, ct⟩ := p
    intro i off t t' h
    simp only [RingProof.verifyLoop, Option.bind_eq_bind, Option.bind_eq_some_iff] at h ⊢
    obtain ⟨enc, henc, u, hu, m, hm, t1, h1, t2, h2, h⟩ := h
    exact ⟨enc, totalize_ct henc, u, hu, m, totalize_ringLoop _ hm, t1, totalize_append h1, t2, totalize_append h2, ih h⟩

variable [DecidableEq F]

theorem totalize_rings {K : PublicKey E} {proof : RingProof F} {values : List (List E)} {cts : List (Ciphertext E)}
    {t : Transcript} {out} (h : proof.verify B K values cts t = some out) :
    proof.verify (totalize B spare) K values cts t = some out := by
  unfold RingProof.verify at h ⊢
  dsimp only at h ⊢
  split
  · rename_i e he
    rw [he] at h
    exact h
  · rename_i he
    rw [he] at h
    simp only [Option.bind_eq_bind, Option.bind_eq_some_iff] at h ⊢
    obtain ⟨t', ht, h⟩ := h
    exact ⟨t', totalize_loop _ ht, h⟩

theorem totalize_logEq {K : PublicKey E} {proof : LogEqualityProof F} {powers : E × E} {t : Transcript} {out}
    (h : proof.verify B K powers t = some out) : proof.verify (totalize B spare) K powers t = some out := by
  obtain ⟨r, t'⟩ := out
  rw [LogEqualityProof.verify_eq_some] at h ⊢
  obtain ⟨a, d, x, y, h1, h2, h3, h4, h5, h6⟩ := h
  exact ⟨a, d, x, y, totalize_ser h1, totalize_ser h2, totalize_ser h3, totalize_ser h4, h5, h6⟩

theorem totalize_sum {kind : ChoiceKind} {ct : Ciphertext E} {proof : SumProof F kind} {K : PublicKey E} {out}
    (h : SumProof.verify B kind ct proof K = some out) : SumProof.verify (totalize B spare) kind ct proof K = some out := by
  cases kind with
  | multi => exact h
  | single =>
    simp only [SumProof.verify, Option.bind_eq_bind, Option.bind_eq_some_iff] at h ⊢
    obtain ⟨r, hr, h⟩ := h
    exact ⟨r, totalize_logEq hr, h⟩

variable [DecidableEq E]

theorem totalize_choice {kind : ChoiceKind} {ballot : EncryptedChoice F E kind} {params : ChoiceParams E kind} {out}
    (h : ballot.verify B params = some out) : ballot.verify (totalize B spare) params = some out := by
  unfold EncryptedChoice.verify at h ⊢
  split
  · rename_i e he
    rw [he] at h
    exact h
  · rename_i he
    rw [he] at h
    simp only [Option.bind_eq_bind, Option.bind_eq_some_iff] at h ⊢
    obtain ⟨s, hs, r, hr, h⟩ := h
    refine ⟨s, hs, r, totalize_sum hr, ?_⟩
    cases r with
    | error e => exact h
    | ok u =>
      simp only [Option.bind_eq_some_iff] at h ⊢
      obtain ⟨x, hx, h⟩ := h
      exact ⟨x, totalize_rings hx, h⟩

end

/-- Two ways to create objects from random numbers, where `g` fails more often: every object has one random number in both
ways. -/
theorem exists_perm_filter {T X : Type} [Fintype T] (g g' : T → Option X) (A : X → Bool)
    (h1 : ∀ t x, g t = some x → A x = true) (h2 : ∀ t₁ t₂ x, g t₁ = some x → g t₂ = some x → t₁ = t₂)
    (h2' : ∀ t₁ t₂ x, g' t₁ = some x → g' t₂ = some x → t₁ = t₂)
    (h3 : ∀ t x, g t = some x → ∃ t', g' t' = some x) (h4 : ∀ t x, g' t = some x → A x = true → ∃ t', g t' = some x) :
    ∃ σ : Equiv.Perm T, ∀ t, g t = (g' (σ t)).filter A := by
  classical
  have hx : ∀ t : {t // (g t).isSome}, ∃ t' : {t // ((g' t).filter A).isSome}, (g' t'.1).filter A = g t.1 := by
    rintro ⟨t, ht⟩
    obtain ⟨x, hx⟩ := Option.isSome_iff_exists.mp ht
    obtain ⟨t', ht'⟩ := h3 t x hx
    have : (g' t').filter A = g t := by
      rw [ht', hx, Option.filter_some, if_pos (h1 t x hx)]
    exact ⟨⟨t', by rw [this]; exact ht⟩, this⟩
  choose f hf using hx
  have hbij : Function.Bijective f := by
    constructor
    · rintro ⟨t, ht⟩ ⟨u, hu⟩ h
      obtain ⟨x, hx⟩ := Option.isSome_iff_exists.mp ht
      have e := hf ⟨t, ht⟩
      rw [h, hf ⟨u, hu⟩] at e
      exact Subtype.ext (h2 t u x hx (e.trans hx))
    · rintro ⟨u, hu⟩
      obtain ⟨x, hx⟩ := Option.isSome_iff_exists.mp hu
      obtain ⟨hg, hA⟩ := Option.filter_eq_some_iff.mp hx
      obtain ⟨t, ht⟩ := h4 u x hg hA
      refine ⟨⟨t, by rw [ht]; rfl⟩, Subtype.ext ?_⟩
      have e := (hf ⟨t, by rw [ht]; rfl⟩).trans ht
      exact h2' _ _ x (Option.filter_eq_some_iff.mp e).1 hg
  let e : {t // (g t).isSome} ≃ {t // ((g' t).filter A).isSome} := Equiv.ofBijective f hbij
  refine ⟨e.extendSubtype, fun t => ?_⟩
  by_cases ht : (g t).isSome
  · rw [Equiv.extendSubtype_apply_of_mem e t ht]
    exact (hf ⟨t, ht⟩).symm
  · have := Equiv.extendSubtype_not_mem e t ht
    rw [Option.not_isSome_iff_eq_none] at ht this
    rw [ht, this]

section choice
variable [DecidableEq F] [DecidableEq E] [Fintype F]

/-- What honest ballots look like. -/
theorem choice_output (B : Backend F E) {kind : ChoiceKind} {o : ℕ} (K : PublicKey E) (k : F) (hk : K.element = k • B.gen)
    (votes : Fin o → Bool) (hone : kind = .single → (List.ofFn votes).count true = 1)
    (tape : Fin (choiceDraws o kind) → F) (ballot : EncryptedChoice F E kind)
    (h : (EncryptedChoice.new B.withTape ⟨o, K⟩ (List.ofFn votes) (List.ofFn tape)).map Prod.fst = some ballot) :
    ballot.verify B ⟨o, K⟩ = some (.ok ballot.choices) ∧
    ∃ (rs : Fin o → F) (p : ChoiceProofs F o kind), ballot = makeChoice (choiceCts B K votes rs) p := by
  obtain ⟨⟨_, rest⟩, hnew, rfl⟩ := Option.map_eq_some_iff.mp h
  obtain ⟨hv, hl, -, hbits⟩ := C32_choice_complete B.withTape (kind := kind) ⟨o, K⟩ k hk (List.ofFn votes)
    hone _ _ _ hnew
  rw [EncryptedChoice.verify_withTape] at hv
  refine ⟨hv, ?_⟩
  obtain ⟨-, -, -, -, t', hring⟩ := EncryptedChoice.verify_ok hv
  rename_i ballot
  have hl : ballot.choices.length = o := hl
  obtain ⟨c, p, rfl⟩ := exists_makeChoice ballot hl (by
    rw [RingProof.verify_ok_length hring, hl]; simp [mul_comm])
  have hc : ∀ j, ∃ r : F, c j = ⟨r • B.gen, (if votes j then B.gen else 0) + r • K.element⟩ := by
    intro j
    have := (List.forall₂_iff_get.mp hbits).2 j (by simp [makeChoice]) (by simp)
    obtain ⟨r, h1, h2⟩ := this
    refine ⟨r, ?_⟩
    simp only [makeChoice, List.get_ofFn] at h1 h2
    rw [← hk] at h2
    exact Ciphertext.ext h1 h2
  choose rs hrs using hc
  obtain rfl : c = choiceCts B K votes rs := funext hrs
  exact ⟨rs, p, rfl⟩

/-- Every valid ballot is made from one list of random scalars. -/
theorem choice_input (B : Backend F E) (hB : B.Lawful) {kind : ChoiceKind} {o : ℕ} (ho : o ≠ 0) (K : PublicKey E)
    (votes : Fin o → Bool) (hone : kind = .single → (List.ofFn votes).count true = 1) (rs : Fin o → F)
    (p : ChoiceProofs F o kind)
    (hv : (makeChoice (choiceCts B K votes rs) p).verify B ⟨o, K⟩ = some (.ok (makeChoice (choiceCts B K votes rs) p).choices)) :
    ∃! tape : Fin (choiceDraws o kind) → F, (EncryptedChoice.new B.withTape ⟨o, K⟩ (List.ofFn votes)
        (List.ofFn tape)).map Prod.fst = some (makeChoice (choiceCts B K votes rs) p) := by
  have hcts : List.ofFn (choiceCts B K votes rs) =
      (bitInputs B K.element (List.ofFn fun j => (votes j, rs j))).map (·.ct.inner) := by
    rw [bitInputs, List.map_map, List.map_ofFn]
    rfl
  have hfl : (List.ofFn fun j => (votes j, rs j)).map Prod.fst = List.ofFn votes := by
    rw [List.map_ofFn]
    rfl
  obtain ⟨tape, ⟨hl, ht⟩, hu⟩ := choice_tape B hB K (List.ofFn fun j => (votes j, rs j))
    (by simpa using ho) (fun hk => by rw [hfl]; exact hone hk) (makeChoice (choiceCts B K votes rs) p) hcts (by simpa using hv)
  rw [hfl, List.length_ofFn] at ht
  rw [List.length_ofFn] at hl
  have hofn : List.ofFn (fun i : Fin (choiceDraws o kind) => tape.get ⟨i, by rw [hl]; exact i.2⟩) = tape :=
    List.ext_getElem (by simp [hl, choiceDraws]) fun i _ _ => by simp
  refine ⟨fun i => tape.get ⟨i, by rw [hl]; exact i.2⟩, ?_, ?_⟩
  · show Option.map _ _ = _
    rw [hofn]; exact ht
  · intro tape' ht'
    have := hu (List.ofFn tape') ⟨by rw [List.length_ofFn, List.length_ofFn]; rfl, by rw [hfl, List.length_ofFn]; exact ht'⟩
    rw [← hofn] at this
    exact List.ofFn_injective this

/-- Ballots in a group with partial encodings are those in the group with all encodings, without those that cannot be
verified. -/
theorem choice_partial (B : Backend F E) (hB : B.Lawful) {spare : Bytes} (hs : SpareEncoding B spare) {kind : ChoiceKind}
    {o : ℕ} (ho : o ≠ 0) (K : PublicKey E) (votes : Fin o → Bool)
    (hone : kind = .single → (List.ofFn votes).count true = 1) :
    ∃ σ : Equiv.Perm (Fin (choiceDraws o kind) → F), ∀ tape,
      (EncryptedChoice.new B.withTape ⟨o, K⟩ (List.ofFn votes) (List.ofFn tape)).map Prod.fst =
      ((EncryptedChoice.new (totalize B spare).withTape (kind := kind) ⟨o, K⟩ (List.ofFn votes)
        (List.ofFn (σ tape))).map Prod.fst).filter fun ballot => (ballot.verify B ⟨o, K⟩).isSome := by
  obtain ⟨k, hk⟩ := hB.gen_spans K.element
  have hB' := hB.totalize hs
  refine exists_perm_filter (fun tape : Fin (choiceDraws o kind) → F => (EncryptedChoice.new B.withTape (kind := kind)
    ⟨o, K⟩ (List.ofFn votes) (List.ofFn tape)).map Prod.fst) (fun tape => (EncryptedChoice.new (totalize B spare).withTape
      (kind := kind) ⟨o, K⟩ (List.ofFn votes) (List.ofFn tape)).map Prod.fst) _ ?_ ?_ ?_ ?_ ?_
  · intro tape x h
    rw [(choice_output B K k hk votes hone tape x h).1]
    rfl
  · intro t₁ t₂ x h₁ h₂
    obtain ⟨hv, rs, p, rfl⟩ := choice_output B K k hk votes hone t₁ x h₁
    exact (choice_input B hB ho K votes hone rs p hv).unique h₁ h₂
  · intro t₁ t₂ x h₁ h₂
    obtain ⟨hv, rs, p, rfl⟩ := choice_output (totalize B spare) K k hk votes hone t₁ x h₁
    exact (choice_input _ hB' ho K votes hone rs p hv).unique h₁ h₂
  · intro tape x h
    obtain ⟨hv, rs, p, rfl⟩ := choice_output B K k hk votes hone tape x h
    exact (choice_input _ hB' ho K votes hone rs p (totalize_choice hv)).exists
  · intro tape x h hA
    obtain ⟨hv, rs, p, rfl⟩ := choice_output (totalize B spare) K k hk votes hone tape x h
    obtain ⟨out, hout⟩ := Option.isSome_iff_exists.mp hA
    have e := totalize_choice (spare := spare) hout
    rw [hv] at e
    rw [← Option.some.inj e] at hout
    exact (choice_input B hB ho K votes hone rs p hout).exists

end choice

end ElasticElgamal
