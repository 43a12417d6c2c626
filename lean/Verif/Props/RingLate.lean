import Verif.Props.Ring
import Verif.Lemmas.Points

/-!
# C23: admissible values of ring proofs must be fixed in advance

`src/proofs/ring.rs:92-93`: the admissible values are not hashed.
-/

set_option autoImplicit false
set_option linter.unusedSectionVars false

namespace ElasticElgamal

open Spec Toy

variable {F E : Type} [Field F] [AddCommGroup E] [Module F E] [DecidableEq F] [DecidableEq E]

/-- The first challenge of the cheating prover: the commitments of the second equation, `[a]G` and `[a]K + [y]G`, are
chosen first. -/
def lateCommon (B : Backend F E) (K : PublicKey E) (t : Transcript) (a y : F) : F :=
  B.challenge (commonQuery t.log K.bytes [(encOf B (a • B.gen), encOf B (a • K.element + y • B.gen))])

/-- The challenge of the second equation, for the response `s` to the first equation. -/
def lateSecond (B : Backend F E) (K : PublicKey E) (t : Transcript) (ct : Ciphertext E) (v : E) (a y s : F) : F :=
  let c := lateCommon B K t a y
  B.challenge (ringQuery (t.log ++ [.msg "dom-sep" (asciiBytes "multi_ring_enc"), .msg "K" K.bytes,
    .msg "dom-sep" (asciiBytes "ring_enc"), .msg "enc" (encOf B ct.random ++ encOf B ct.blinded),
    .msg "i" (leBytes 8 0)]) 0 (encOf B (s • B.gen - c • ct.random)) (encOf B (s • K.element - c • (ct.blinded - v))))

/-- A cheating prover that may choose the second of two admissible values last: it makes a proof for an encryption of
`m` with randomness `r`, and the second value. -/
def lateValues (B : Backend F E) (K : PublicKey E) (t : Transcript) (m v : E) (r a y s : F) : RingProof F × E :=
  let e := lateSecond B K t ⟨r • B.gen, m + r • K.element⟩ v a y s
  (⟨lateCommon B K t a y, [s, a + e * r]⟩, m + (y / e) • B.gen)

/-- C23, finding: ring proofs do not hash the admissible values. A prover that may choose one of two values last, after
the context, the key, the ciphertext and the other value are fixed, makes an accepted proof for an encryption of any
other message `m` (unless a challenge is zero). So C57 and C89 need values fixed in advance. -/
theorem C23_late_values (B : Backend F E) (hB : B.Lawful) (hT : B.TotalSer) (K : PublicKey E) (k : F)
    (hK : K.element = k • B.gen) (t : Transcript) (m v : E) (hv : v ≠ m) (r a y s : F) (hy : y ≠ 0)
    (he : lateSecond B K t ⟨r • B.gen, m + r • K.element⟩ v a y s ≠ 0) :
    (∃ t', (lateValues B K t m v r a y s).1.verify B K [[v, (lateValues B K t m v r a y s).2]]
      [⟨r • B.gen, m + r • K.element⟩] t = some (.ok (), t')) ∧
    Encrypts B k ⟨r • B.gen, m + r • K.element⟩ m ∧
    ¬ Encrypts B k ⟨r • B.gen, m + r • K.element⟩ v ∧
    ¬ Encrypts B k ⟨r • B.gen, m + r • K.element⟩ (lateValues B K t m v r a y s).2 := by
  have huniq : ∀ w, Encrypts B k ⟨r • B.gen, m + r • K.element⟩ w → w = m := by
    rintro w ⟨r', h1, h2⟩
    have h1 := hB.smul_gen_inj h1
    simp only [hK, h1] at h2
    exact (add_right_cancel h2).symm
  refine ⟨?_, ⟨r, rfl, by rw [hK]⟩, fun h => hv (huniq _ h), fun h => ?_⟩
  · set ct : Ciphertext E := ⟨r • B.gen, m + r • K.element⟩ with hct
    set e := lateSecond B K t ct v a y s with hedef
    set c := lateCommon B K t a y with hcdef
    obtain ⟨x1, h1⟩ := hT (a • B.gen)
    obtain ⟨x2, h2⟩ := hT (a • K.element + y • B.gen)
    obtain ⟨x3, h3⟩ := hT (s • B.gen - c • ct.random)
    obtain ⟨x4, h4⟩ := hT (s • K.element - c • (ct.blinded - v))
    obtain ⟨x5, h5⟩ := hT ct.random
    obtain ⟨x6, h6⟩ := hT ct.blinded
    have henc : ct.toBytes B = some (x5 ++ x6) := by simp [Ciphertext.toBytes, h5, h6]
    have e1 : (a + e * r) • B.gen - e • ct.random = a • B.gen := by
      rw [hct]; module
    have e2 : (a + e * r) • K.element - e • (ct.blinded - (m + (y / e) • B.gen)) = a • K.element + y • B.gen := by
      have : e • (y / e) • B.gen = y • B.gen := by rw [smul_smul, mul_div_cancel₀ _ he]
      rw [hct]
      linear_combination (norm := module) this
    have hc : ringChal B (t.log ++ [.msg "dom-sep" (asciiBytes "multi_ring_enc"), .msg "K" K.bytes,
        .msg "dom-sep" (asciiBytes "ring_enc"), .msg "enc" (x5 ++ x6), .msg "i" (leBytes 8 0)]) 0
        (s • B.gen - c • ct.random, s • K.element - c • (ct.blinded - v)) = some e := by
      refine ringChal_eq_some.mpr ⟨x3, x4, h3, h4, ?_⟩
      rw [hedef, lateSecond]
      simp only [encOf_eq h3, encOf_eq h4, encOf_eq h5, encOf_eq h6, ← hcdef]
    refine ⟨⟨commonQuery t.log K.bytes [(x1, x2)]⟩, ?_⟩
    rw [RingProof.verify_eq_some (by rfl)]
    refine ⟨⟨t.log ++ [.msg "dom-sep" (asciiBytes "multi_ring_enc"), .msg "K" K.bytes,
      .msg "R_G" x1, .msg "R_K" x2]⟩, ?_, by simp [commonQuery], ?_⟩
    · simp only [lateValues, ← hct, ← hedef, List.zip_cons_cons, List.zip_nil_right, RingProof.verifyLoop, henc,
        Option.bind_eq_bind, Option.bind_some, List.length_cons, List.length_nil, zero_add,
        List.drop_zero, zero_le, guard_true, Option.pure_def]
      rw [RingProof.verifyRingLoop_cons_lt (by omega)]
      have hlog : ((((RingProof.initializeTranscript t K).startProof "ring_enc").appendMessage "enc"
          (x5 ++ x6)).appendU64 "i" 0).log = t.log ++ [.msg "dom-sep" (asciiBytes "multi_ring_enc"), .msg "K" K.bytes,
          .msg "dom-sep" (asciiBytes "ring_enc"), .msg "enc" (x5 ++ x6), .msg "i" (leBytes 8 0)] := by
        simp [RingProof.initializeTranscript, Transcript.startProof, Transcript.appendElementBytes,
          Transcript.appendMessage, Transcript.appendU64]
      rw [hlog, ← hcdef, show ringComm B K.element ct v s c =
        (s • B.gen - c • ct.random, s • K.element - c • (ct.blinded - v)) from rfl, hc, Option.bind_some,
        RingProof.verifyRingLoop_cons_last (by omega)]
      simp only [RingProof.verifyRingLoop, Option.pure_def, Option.bind_some, ringComm, e1, e2, Backend.appendElement, h1,
        h2, Option.bind_eq_bind]
      simp [RingProof.initializeTranscript, Transcript.startProof, Transcript.appendElementBytes,
        Transcript.appendMessage]
    · refine (checkChallenge_ok.mpr ?_).symm
      simp only [lateValues, lateCommon, encOf_eq h1, encOf_eq h2]
  · have := huniq _ h
    simp only [lateValues] at this
    exact smul_ne_zero (div_ne_zero hy he) hB.gen_ne_zero (by simpa using this)

/-- For a hash that always answers 7: a proof that an encryption of 5 encrypts 0 or another value, which is not 5. -/
example : (∃ t', (lateValues (B101.withHash fun _ => 7) ⟨[42], 42⟩ (Transcript.new "test") 5 0 9 2 14 3).1.verify
      (B101.withHash fun _ => 7) ⟨[42], 42⟩ [[0, 7]] [⟨9, 5 + 9 * 42⟩] (Transcript.new "test") = some (.ok (), t')) ∧
    ¬ Encrypts (B101.withHash fun _ => 7) (42 : ZMod 101) ⟨9, 5 + 9 * 42⟩ 7 := by
  have h := C23_late_values (B101.withHash fun _ => 7) (B101_lawful.withHash _) B101_total ⟨[42], 42⟩ 42 (by decide)
    (Transcript.new "test") 5 0 (by decide) 9 2 14 3 (by decide) (by decide)
  have e : (lateValues (B101.withHash fun _ => 7) (⟨[42], 42⟩ : PublicKey (ZMod 101)) (Transcript.new "test") 5 0 9 2 14
      3).2 = 7 := by
    have hd : (14 / 7 : ZMod 101) = 2 := by rw [div_eq_iff (by decide)]; decide
    change (5 : ZMod 101) + (14 / 7 : ZMod 101) • 1 = 7
    rw [hd]
    decide
  rw [e] at h
  exact ⟨h.1, h.2.2.2⟩

end ElasticElgamal
