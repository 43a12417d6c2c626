import Verif.Spec.Transcript
import Verif.Model.Proofs.Possession
import Verif.Lemmas.LogEq

/-!
# Lemmas about proofs of possession
-/

set_option autoImplicit false
set_option linter.unusedSectionVars false

namespace ElasticElgamal

open Spec

variable {F E : Type} [Field F] [AddCommGroup E] [Module F E]

theorem transcript_ext {t t' : Transcript} (h : t.log = t'.log) : t = t' := by
  cases t; cases t'; simpa using h

theorem checkLengths_ok {s : String} {a b : ℕ} :
    VerificationError.checkLengths s a b = .ok () ↔ a = b := by
  unfold VerificationError.checkLengths; split <;> simp_all

theorem checkLengths_ne {s : String} {a b : ℕ} (h : a ≠ b) :
    VerificationError.checkLengths s a b = .error (.LenMismatch s a b) := by
  simp [VerificationError.checkLengths, h]

theorem forall₂_zip {α β γ : Type} {R : α × β → γ → Prop} :
    ∀ {as : List α} {bs : List β} {cs : List γ}, as.length = bs.length →
      (List.Forall₂ R (as.zip bs) cs ↔ cs.length = as.length ∧
        ∀ i (h1 : i < as.length) (h2 : i < bs.length) (h3 : i < cs.length),
          R (as[i], bs[i]) cs[i]) := by
  intro as bs cs hl
  rw [List.forall₂_iff_get]
  simp only [List.length_zip, hl, min_self, List.get_eq_getElem, List.getElem_zip]
  constructor
  · rintro ⟨h1, h2⟩
    exact ⟨h1.symm, fun i _ h2' h3 => h2 i h2' h3⟩
  · rintro ⟨h1, h2⟩
    exact ⟨h1.symm, fun i h2' h3 => h2 i h2' h2' h3⟩

namespace ProofOfPossession

theorem appendKeys_log (t : Transcript) (pks : List (PublicKey E)) :
    (appendKeys t pks).log = t.log ++ (pks.map (·.bytes)).map (.msg "K") := by
  unfold appendKeys
  induction pks generalizing t with
  | nil => simp
  | cons pk pks ih =>
    rw [List.foldl_cons, ih]
    simp [Transcript.appendElementBytes, Transcript.appendMessage]

theorem appendCommitments_eq_some {B : Backend F E} {c : F} {l : List (PublicKey E × F)}
    {t t' : Transcript} :
    appendCommitments B c l t = some t' ↔
      ∃ rs : List Bytes, List.Forall₂ (fun p b =>
        B.serElem (p.2 • B.gen - c • p.1.element) = some b) l rs ∧
        t' = ⟨t.log ++ rs.map (.msg "R")⟩ := by
  induction l generalizing t with
  | nil => simp [appendCommitments, eq_comm]
  | cons p l ih =>
    obtain ⟨pk, r⟩ := p
    have e1 : B.doubleMulGen (-c) pk.element r = r • B.gen - c • pk.element := by
      simp only [Backend.doubleMulGen]; module
    simp only [appendCommitments, e1, Option.bind_eq_bind, Option.bind_eq_some_iff,
      Backend.appendElement_eq_some, ih]
    constructor
    · rintro ⟨_, ⟨b, hb, rfl⟩, rs, hrs, rfl⟩
      exact ⟨b :: rs, .cons hb hrs, by
        simp [Transcript.appendElementBytes, Transcript.appendMessage]⟩
    · rintro ⟨rs, hrs, rfl⟩
      cases hrs with
      | cons hb hrs =>
        exact ⟨_, ⟨_, hb, rfl⟩, _, hrs, by
          simp [Transcript.appendElementBytes, Transcript.appendMessage]⟩

/-- What `verify` does on proofs of the right shape. -/
theorem verify_eq_some [DecidableEq F] {B : Backend F E} {proof : ProofOfPossession F}
    {pks : List (PublicKey E)} {t t' : Transcript} {r : Except VerificationError Unit}
    (hl : proof.responses.length = pks.length) :
    proof.verify B pks t = some (r, t') ↔
      ∃ rs : List Bytes, List.Forall₂ (fun p b =>
        B.serElem (p.2 • B.gen - proof.challenge • p.1.element) = some b)
          (pks.zip proof.responses) rs ∧
        t' = ⟨popQuery t.log (pks.map (·.bytes)) rs⟩ ∧
        r = checkChallenge (B.challenge (popQuery t.log (pks.map (·.bytes)) rs)) proof.challenge := by
  simp only [verify, checkLengths_ok.mpr hl, Option.bind_eq_bind, Option.bind_eq_some_iff,
    appendCommitments_eq_some, appendKeys_log, Backend.challengeScalar, Option.pure_def,
    Option.some.injEq, Prod.mk.injEq, Transcript.startProof, Transcript.appendMessage, popQuery]
  constructor
  · rintro ⟨_, ⟨rs, hrs, rfl⟩, rfl, rfl⟩
    exact ⟨rs, hrs, by simp, rfl⟩
  · rintro ⟨rs, hrs, rfl, rfl⟩
    exact ⟨_, ⟨rs, hrs, rfl⟩, rfl, by simp⟩

theorem verify_ok [DecidableEq F] {B : Backend F E} {proof : ProofOfPossession F}
    {pks : List (PublicKey E)} {t t' : Transcript}
    (h : proof.verify B pks t = some (.ok (), t')) : proof.responses.length = pks.length := by
  by_contra hl
  simp [verify, checkLengths_ne hl] at h

/-- What the prover draws. -/
theorem drawRandomScalars_eq_some {B : Backend F E} {n : ℕ} {xs : List F} {t t' : Transcript}
    {rng rng' : B.Rng} (h : drawRandomScalars B n t rng = some (xs, t', rng')) :
    xs.length = n ∧ ∃ rs : List Bytes,
      List.Forall₂ (fun x b => B.serElem (x • B.gen) = some b) xs rs ∧
      t' = ⟨t.log ++ rs.map (.msg "R")⟩ := by
  induction n generalizing t xs rng with
  | zero =>
    simp only [drawRandomScalars, Option.some.injEq, Prod.mk.injEq] at h
    obtain ⟨rfl, rfl, rfl⟩ := h
    exact ⟨rfl, [], .nil, by simp⟩
  | succ n ih =>
    simp only [drawRandomScalars, Option.bind_eq_bind, Option.bind_eq_some_iff, Option.pure_def,
      Option.some.injEq, Prod.mk.injEq, Backend.appendElement_eq_some, Prod.exists] at h
    obtain ⟨_, ⟨b, hb, rfl⟩, xs', t1, rng1, h1, rfl, rfl, rfl⟩ := h
    obtain ⟨hlen, rs, hrs, rfl⟩ := ih h1
    refine ⟨by simp [hlen], b :: rs, .cons hb hrs, ?_⟩
    simp [Transcript.appendElementBytes, Transcript.appendMessage]

theorem drawRandomScalars_total {B : Backend F E} (hT : B.TotalSer) (n : ℕ) (t : Transcript)
    (rng : B.Rng) : ∃ out, drawRandomScalars B n t rng = some out := by
  induction n generalizing t rng with
  | zero => exact ⟨_, rfl⟩
  | succ n ih =>
    obtain ⟨t1, h1⟩ := Backend.appendElement_total hT t "R" (B.mulGen (SecretKey.generate B rng).1)
    obtain ⟨⟨xs, t2, rng2⟩, h2⟩ := ih t1 (SecretKey.generate B rng).2
    exact ⟨(_ :: xs, t2, rng2), by simp [drawRandomScalars, h1, h2]; rfl⟩

/-- Drawing from a tape reads the first `n` scalars. -/
theorem drawRandomScalars_tape {B : Backend F E} (xs : List F) (rs : List Bytes)
    (h : List.Forall₂ (fun x b => B.serElem (x • B.gen) = some b) xs rs) (t : Transcript) :
    drawRandomScalars B.withTape xs.length t xs = some (xs, ⟨t.log ++ rs.map (.msg "R")⟩, []) := by
  induction h generalizing t with
  | nil => simp [drawRandomScalars]
  | @cons x b xs rs hb hrs ih =>
    have h1 : B.withTape.appendElement t "R" (B.withTape.mulGen x) =
        some (t.appendElementBytes "R" b) :=
      Backend.appendElement_eq_some.mpr ⟨b, hb, rfl⟩
    simp only [drawRandomScalars, SecretKey.generate, List.headD_cons, List.tail_cons,
      List.length_cons, h1, Option.bind_eq_bind, Option.bind_some]
    rw [ih]
    simp [Transcript.appendElementBytes, Transcript.appendMessage]

theorem drawRandomScalars_tape_inv {B : Backend F E} {ys xs : List F} {t t' : Transcript} {u : List F}
    (h : drawRandomScalars B.withTape ys.length t ys = some (xs, t', u)) : xs = ys := by
  induction ys generalizing t xs t' u with
  | nil =>
    simp only [List.length_nil, drawRandomScalars, Option.some.injEq, Prod.mk.injEq] at h
    exact h.1.symm
  | cons y ys ih =>
    simp only [List.length_cons, drawRandomScalars, SecretKey.generate, List.headD_cons,
      List.tail_cons, Option.bind_eq_bind, Option.bind_eq_some_iff, Option.pure_def,
      Option.some.injEq, Prod.mk.injEq, Prod.exists] at h
    obtain ⟨_, -, xs', t1, rng1, h1, rfl, -, -⟩ := h
    rw [ih h1]

theorem fromKeys_eq_some {B : Backend F E} {secrets : List F} {pks : List (PublicKey E)}
    {t t' : Transcript} {rng rng' : B.Rng} {proof : ProofOfPossession F}
    (h : fromKeys B secrets pks t rng = some (proof, t', rng')) :
    ∃ (xs : List F) (rs : List Bytes), xs.length = pks.length ∧
      List.Forall₂ (fun x b => B.serElem (x • B.gen) = some b) xs rs ∧
      t' = ⟨popQuery t.log (pks.map (·.bytes)) rs⟩ ∧
      proof.challenge = B.challenge (popQuery t.log (pks.map (·.bytes)) rs) ∧
      proof.responses = (secrets.zip xs).map fun p => p.2 + p.1 * proof.challenge := by
  simp only [fromKeys, Option.bind_eq_bind, Option.bind_eq_some_iff, Option.pure_def,
    Option.some.injEq, Prod.mk.injEq, Prod.exists, Backend.challengeScalar] at h
  obtain ⟨xs, t1, rng1, hd, rfl, rfl, rfl⟩ := h
  obtain ⟨hlen, rs, hrs, rfl⟩ := drawRandomScalars_eq_some hd
  refine ⟨xs, rs, hlen, hrs, ?_, ?_, ?_⟩ <;>
    simp [appendKeys_log, popQuery, Transcript.startProof, Transcript.appendMessage, SecretKey.add,
      SecretKey.mul]

end ProofOfPossession

theorem popQuery_inj {c c' : List Entry} {ks ks' rs rs' : List Bytes}
    (hk : ks.length = ks'.length) (hr : rs.length = rs'.length)
    (h : popQuery c ks rs = popQuery c' ks' rs') : c = c' ∧ ks = ks' ∧ rs = rs' := by
  unfold popQuery at h
  have h1 := (List.append_inj' h rfl).1
  obtain ⟨h2, h3⟩ := List.append_inj' h1 (by simp [hr])
  obtain ⟨h4, h5⟩ := List.append_inj' h2 (by simp [hk])
  obtain ⟨h6, -⟩ := List.append_inj' h4 rfl
  have inj : ∀ s, Function.Injective (Entry.msg s) := fun s a b h => by cases h; rfl
  exact ⟨h6, (List.map_injective_iff.mpr (inj _)) h5, (List.map_injective_iff.mpr (inj _)) h3⟩

end ElasticElgamal
