import Verif.Lemmas.Range
import Verif.Lemmas.LogEq
import Verif.Spec.Choice
import Verif.Props.Ring
import Verif.Props.LogEq

/-!
# Lemmas about encrypted choices
-/

set_option autoImplicit false
set_option linter.unusedSectionVars false

namespace ElasticElgamal

open Spec

variable {F E : Type} [Field F] [AddCommGroup E] [Module F E]

/-- An extended ciphertext with its opening. -/
def OpenedExt (B : Backend F E) (K : E) (ext : ExtendedCiphertext F E) (v : E) : Prop :=
  ext.inner.random = ext.randomScalar • B.gen ∧ ext.inner.blinded = v + ext.randomScalar • K

theorem OpenedExt.encrypts {B : Backend F E} {K : E} {k : F} (hK : K = k • B.gen)
    {ext : ExtendedCiphertext F E} {v : E} (h : OpenedExt B K ext v) : Encrypts B k ext.inner v :=
  ⟨ext.randomScalar, h.1, by rw [h.2, hK]⟩

theorem Spec.Encrypts.decrypt {B : Backend F E} {k : F} {ct : Ciphertext E} {v : E}
    (h : Encrypts B k ct v) : SecretKey.decryptToElement k ct = v := by
  obtain ⟨r, h1, h2⟩ := h
  simp only [SecretKey.decryptToElement, h1, h2]
  module

/-- Flag steps. -/
def bitSteps (B : Backend F E) (flags : List Bool) : List (RingStep F E) :=
  flags.map fun f => ⟨none, [0, B.gen], if f then 1 else 0⟩

theorem bitSteps_honest {B : Backend F E} {K : E} (flags : List Bool) :
    ∀ s ∈ bitSteps B flags, s.Honest B K := by
  intro s hs ct hct
  obtain ⟨p, -, rfl⟩ := List.mem_map.mp hs
  cases hct

theorem addChoices_spec [DecidableEq E] {B : Backend F E} (flags : List Bool) :
    ∀ {b b' : RingProofBuilder B} {exts : List (ExtendedCiphertext F E)},
    EncryptedChoice.addChoices B [0, B.gen] flags b = some (exts, b') →
    runRingSteps B (bitSteps B flags) b = some (exts.map (·.inner), b') ∧
    List.Forall₂ (fun ext (f : Bool) => OpenedExt B b.receiver.element ext (if f then B.gen else 0))
      exts flags := by
  induction flags with
  | nil =>
    intro b b' exts h
    simp only [EncryptedChoice.addChoices, Option.some.injEq, Prod.mk.injEq] at h
    obtain ⟨rfl, rfl⟩ := h
    exact ⟨rfl, .nil⟩
  | cons f flags ih =>
    intro b b' exts h
    simp only [EncryptedChoice.addChoices, Option.bind_eq_bind, Option.bind_eq_some_iff,
      Option.pure_def, Option.some.injEq, Prod.mk.injEq, Prod.exists] at h
    obtain ⟨ext, b1, h1, exts', b2, h2, rfl, rfl⟩ := h
    obtain ⟨hr, hrand, v, hv, hbl⟩ := addValue_spec h1
    obtain ⟨i1, i2⟩ := ih h2
    have hv' : v = if f then B.gen else 0 := by cases f <;> simp_all
    refine ⟨?_, .cons ⟨hrand, by rw [hbl, hv']⟩ (by rw [← hr]; exact i2)⟩
    show runRingSteps B (⟨none, [0, B.gen], if f then 1 else 0⟩ :: bitSteps B flags) b = _
    simp only [runRingSteps, runRingStep, h1, Option.bind_eq_bind, Option.bind_some, i1,
      Option.pure_def, List.map_cons]

theorem addChoices_of_run [DecidableEq E] {B : Backend F E} (flags : List Bool) :
    ∀ {b b' : RingProofBuilder B} {cts : List (Ciphertext E)},
    runRingSteps B (bitSteps B flags) b = some (cts, b') →
    ∃ exts, EncryptedChoice.addChoices B [0, B.gen] flags b = some (exts, b') ∧
      exts.map (·.inner) = cts := by
  induction flags with
  | nil =>
    intro b b' cts h
    simp only [bitSteps, List.map_nil, runRingSteps, Option.some.injEq, Prod.mk.injEq] at h
    obtain ⟨rfl, rfl⟩ := h
    exact ⟨[], rfl, rfl⟩
  | cons f flags ih =>
    intro b b' cts h
    change runRingSteps B (⟨none, [0, B.gen], if f then 1 else 0⟩ :: bitSteps B flags) b = _ at h
    simp only [runRingSteps, runRingStep, Option.bind_eq_bind, Option.bind_eq_some_iff,
      Option.pure_def, Option.some.injEq, Prod.mk.injEq, Prod.exists] at h
    obtain ⟨ct, b1, h1, cts2, b2, h2, rfl, rfl⟩ := h
    obtain ⟨exts, he, hm⟩ := ih h2
    exact ⟨ct :: exts, by simp [EncryptedChoice.addChoices, h1, he], by simp [hm]⟩

theorem reduce_ciphertext {cts : List (Ciphertext E)} {s : Ciphertext E}
    (h : reduce Ciphertext.add cts = some s) : s = ctSum cts := by
  cases cts with
  | nil => cases h
  | cons c cts =>
    simp only [reduce, Option.some.injEq] at h
    rw [← h]
    have := foldl_add_eq cts c
    simp only [ctSum, List.map_cons, List.sum_cons]
    exact this

theorem reduce_ext {B : Backend F E} {K : E} {exts : List (ExtendedCiphertext F E)} {vs : List E}
    (ho : List.Forall₂ (OpenedExt B K) exts vs) {s : ExtendedCiphertext F E}
    (h : reduce ExtendedCiphertext.add exts = some s) :
    OpenedExt B K s vs.sum ∧ s.inner = ctSum (exts.map (·.inner)) := by
  have key : ∀ (exts : List (ExtendedCiphertext F E)) (vs : List E) (a : ExtendedCiphertext F E) (x : E),
      OpenedExt B K a x → List.Forall₂ (OpenedExt B K) exts vs →
      OpenedExt B K (exts.foldl ExtendedCiphertext.add a) (x + vs.sum) ∧
      (exts.foldl ExtendedCiphertext.add a).inner =
        ⟨a.inner.random + (exts.map (·.inner.random)).sum,
         a.inner.blinded + (exts.map (·.inner.blinded)).sum⟩ := by
    intro exts
    induction exts with
    | nil =>
      intro vs a x ha hv
      cases hv
      simpa using ha
    | cons e exts ih =>
      intro vs a x ha hv
      cases hv with
      | cons he hv =>
        rename_i v vs
        obtain ⟨i1, i2⟩ := ih vs (a.add e) (x + v) (by
          obtain ⟨a1, a2⟩ := ha
          obtain ⟨e1, e2⟩ := he
          constructor
          · simp only [ExtendedCiphertext.add, Ciphertext.add, SecretKey.add, a1, e1]; module
          · simp only [ExtendedCiphertext.add, Ciphertext.add, SecretKey.add, a2, e2]; module) hv
        rw [List.foldl_cons]
        refine ⟨by rw [List.sum_cons, ← add_assoc]; exact i1, ?_⟩
        rw [i2]
        simp [ExtendedCiphertext.add, Ciphertext.add, add_assoc]
  cases ho with
  | nil => cases h
  | cons he hv =>
    rename_i e v exts vs
    simp only [reduce, Option.some.injEq] at h
    obtain ⟨i1, i2⟩ := key exts vs e v he hv
    rw [h] at i1 i2
    refine ⟨by simpa using i1, ?_⟩
    rw [i2]
    simp [ctSum, Function.comp_def]

theorem sum_bits {B : Backend F E} (flags : List Bool) :
    (flags.map fun f : Bool => if f then B.gen else (0 : E)).sum =
      (((flags.map fun f => if f then 1 else 0).sum : ℕ) : F) • B.gen := by
  induction flags with
  | nil => simp
  | cons f flags ih =>
    simp only [List.map_cons, List.sum_cons, ih, Nat.cast_add, add_smul]
    cases f <;> simp

theorem EncryptedChoice.new_eq_some [DecidableEq F] [DecidableEq E] {B : Backend F E} {kind : ChoiceKind}
    {params : ChoiceParams E kind} {flags : List Bool} {rng rng' : B.Rng}
    {ballot : EncryptedChoice F E kind}
    (h : EncryptedChoice.new B params flags rng = some (ballot, rng')) :
    flags ≠ [] ∧ flags.length = params.optionsCount ∧
    ∃ (exts : List (ExtendedCiphertext F E)) (b : RingProofBuilder B) (c : F) (rs : List F)
      (t1 : Transcript) (rng1 : B.Rng) (s : ExtendedCiphertext F E),
      EncryptedChoice.addChoices B [0, B.gen] flags (RingProofBuilder.new B params.receiver
        (List.replicate (2 * params.optionsCount) 0) (Transcript.new "encrypted_choice_ranges") rng) =
          some (exts, b) ∧
      b.build B = some (c, rs, t1, rng1) ∧
      reduce ExtendedCiphertext.add exts = some s ∧
      SumProof.prove B kind (s.withValue (flags.map fun flag => if flag then 1 else 0).sum)
        params.receiver rng1 = some (ballot.sumProof, rng') ∧
      ballot.choices = exts.map (·.inner) ∧ ballot.rangeProof = ⟨c, rs⟩ := by
  simp only [EncryptedChoice.new, Option.bind_eq_bind, Option.bind_eq_some_iff,
    Option.pure_def, Option.some.injEq, Prod.mk.injEq, Prod.exists, guard_eq_some'] at h
  obtain ⟨-, hne, -, hlen, exts, b, hadd, c, rs, t1, rng1, hbuild, s, hred, sp, rng2, hsp, rfl, rfl⟩ := h
  exact ⟨hne, hlen, exts, b, c, rs, t1, rng1, s, hadd, hbuild, hred, hsp, rfl, rfl⟩

/-- An accepted log equality proof is for a true statement or forged. -/
theorem LogEqualityProof.verify_forged [DecidableEq F] {B : Backend F E} {proof : LogEqualityProof F}
    {K : PublicKey E} {powers : E × E} {t t' : Transcript}
    (h : proof.verify B K powers t = some (.ok (), t')) :
    SameLog B K.element powers ∨ LogEqForged B t.log K powers proof := by
  obtain ⟨a, d, x, y, ha, hd, hx, hy, rfl, hc⟩ := LogEqualityProof.verify_eq_some.mp h
  have hc := checkChallenge_ok.mp hc.symm
  by_cases hs : SameLog B K.element powers
  · exact .inl hs
  · exact .inr ⟨(proof.response • B.gen - proof.challenge • powers.1,
      proof.response • K.element - proof.challenge • powers.2), a, d, x, y, rfl, ha, hd, hx, hy, hs, proof.response, by rw [hc], by rw [hc]⟩

/-- Accepted rings: all plaintexts are admissible or some ring is forged. -/
theorem RingProof.verify_forged [DecidableEq F] [DecidableEq E] {B : Backend F E} {K : PublicKey E} {k : F}
    (hK : K.element = k • B.gen) {proof : RingProof F} {values : List (List E)}
    {cts : List (Ciphertext E)} {t t' : Transcript}
    (h : proof.verify B K values cts t = some (.ok (), t')) :
    (∀ (i : ℕ) vs ct, values[i]? = some vs → cts[i]? = some ct → vs ≠ [] →
      ∃ v ∈ vs, Encrypts B k ct v) ∨ SomeRingForged B t.log K values cts proof := by
  by_cases hg : ∀ (i : ℕ) vs ct, values[i]? = some vs → cts[i]? = some ct → vs ≠ [] →
      ∃ v ∈ vs, Encrypts B k ct v
  · exact .inl hg
  · right
    push Not at hg
    obtain ⟨i, vs, ct, hvs, hct, hne, hbad⟩ := hg
    rcases C23_ring_sound B K k hK proof _ _ _ _ h i vs ct hvs hct hne with
      ⟨v, hv, he⟩ | ⟨enc, terms, last, henc, hlog, hterm, hforged⟩
    · exact absurd he (hbad v hv)
    · rw [hlog] at hforged
      refine ⟨i, vs, ct, enc, terms, last, hvs, hct, henc, ?_, hterm, hforged⟩
      rw [h, ← hlog]

theorem Spec.EncryptsBits.sum {B : Backend F E} {k : F} {cts : List (Ciphertext E)} {bits : List Bool}
    (h : EncryptsBits B k cts bits) :
    Encrypts B k (ctSum cts) ((((bits.map fun f => if f then 1 else 0).sum : ℕ) : F) • B.gen) := by
  induction h with
  | nil => exact ⟨0, by simp [ctSum], by simp [ctSum]⟩
  | cons he _ ih =>
    rename_i c f cts bits _
    have := he.add ih
    simp only [List.map_cons, List.sum_cons, Nat.cast_add, add_smul]
    have e : (if f = true then B.gen else 0) = (((if f = true then 1 else 0 : ℕ) : F)) • B.gen := by
      cases f <;> simp
    rw [← e]
    simpa [Ciphertext.add, ctSum] using this

/-- If `k` encrypts one element in two ways the plaintexts agree. -/
theorem Spec.Encrypts.unique {B : Backend F E} {k : F} {ct : Ciphertext E} {v w : E}
    (h : Encrypts B k ct v) (h' : Encrypts B k ct w) : v = w := by
  rw [← h.decrypt, h'.decrypt]

end ElasticElgamal
