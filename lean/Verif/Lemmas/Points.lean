import Verif.Lemmas.Simulation
import Verif.Lemmas.RingOracle
import Verif.Props.Ring

/-!
# Lemmas: where the hash function is programmed
-/

set_option autoImplicit false
set_option linter.unusedSectionVars false

namespace ElasticElgamal

open Spec

variable {F E : Type} [Field F] [AddCommGroup E] [Module F E] [DecidableEq F] [DecidableEq E]

theorem RingProof.verifyRingLoop_congr {B : Backend F E} {H H' : List Entry → F} {K : PublicKey E}
    {ct : Ciphertext E} {t : Transcript} {n : ℕ}
    (h : ∀ j x y, H' (ringQuery t.log j x y) = H (ringQuery t.log j x y)) (l : List (E × F)) :
    ∀ (j : ℕ) (c : F) (m : E × E), verifyRingLoop (B.withHash H') K ct t n j l c m =
      verifyRingLoop (B.withHash H) K ct t n j l c m := by
  induction l with
  | nil => intro j c m; rfl
  | cons p l ih =>
    obtain ⟨v, s⟩ := p
    intro j c m
    by_cases hj : j + 1 < n
    · rw [verifyRingLoop_cons_lt hj, verifyRingLoop_cons_lt hj]
      have hc : ringChal (B.withHash H') t.log j (ringComm (B.withHash H') K.element ct v s c) =
          ringChal (B.withHash H) t.log j (ringComm (B.withHash H) K.element ct v s c) := by
        simp only [ringChal, h]
        rfl
      rw [hc]
      congr 1
      funext c'
      exact ih _ _ _
    · rw [verifyRingLoop_cons_last hj, verifyRingLoop_cons_last hj]
      exact ih _ _ _

theorem RingProof.verifyLoop_congr {B : Backend F E} {H H' : List Entry → F} {K : PublicKey E}
    {proof : RingProof F} {t₀ : Transcript}
    (h : ∀ enc i j x y, H' (ringQuery (ringBase t₀.log K.bytes enc i) j x y) =
      H (ringQuery (ringBase t₀.log K.bytes enc i) j x y)) (l : List (List E × Ciphertext E)) :
    ∀ (i off : ℕ) (t : Transcript), verifyLoop (B.withHash H') proof K (initializeTranscript t₀ K) i off l t =
      verifyLoop (B.withHash H) proof K (initializeTranscript t₀ K) i off l t := by
  induction l with
  | nil => intro i off t; rfl
  | cons p l ih =>
    obtain ⟨vs, ct⟩ := p
    intro i off t
    simp only [verifyLoop, ih]
    congr 1
    funext enc
    congr 1
    funext _
    congr 1
    exact verifyRingLoop_congr (t := Ring.ringTranscript (initializeTranscript t₀ K) enc i)
      (fun j x y => by rw [ringTranscript_log]; exact h enc i j x y) _ _ _ _

/-- Terminal commitments. -/
theorem RingProof.verifyLoop_terms {B : Backend F E} {K : PublicKey E} {proof : RingProof F} {t₀ : Transcript}
    (l : List (List E × Ciphertext E)) : ∀ {i off : ℕ} {t t' : Transcript},
    verifyLoop B proof K t₀ i off l t = some t' →
    ∃ terms : List (E × E), terms.length = l.length ∧
      ∃ enc : List (Bytes × Bytes), List.Forall₂ (fun (p : Bytes × Bytes) (e : E × E) =>
        B.serElem e.1 = some p.1 ∧ B.serElem e.2 = some p.2) enc terms ∧
      t'.log = t.log ++ enc.flatMap (fun p => [.msg "R_G" p.1, .msg "R_K" p.2]) := by
  induction l with
  | nil =>
    intro i off t t' h
    simp only [verifyLoop, Option.some.injEq] at h
    subst h
    exact ⟨[], rfl, [], .nil, by simp⟩
  | cons p l ih =>
    obtain ⟨vs, ct⟩ := p
    intro i off t t' h
    simp only [verifyLoop, Option.bind_eq_bind, Option.bind_eq_some_iff,
      Backend.appendElement_eq_some] at h
    obtain ⟨enc, henc, -, -, m, hm, t1, ⟨x, hx, rfl⟩, t2, ⟨y, hy, rfl⟩, h⟩ := h
    obtain ⟨terms, hl, enc', hf, hlog⟩ := ih h
    refine ⟨m :: terms, by simp [hl], (x, y) :: enc', .cons ⟨hx, hy⟩ hf, ?_⟩
    rw [hlog]
    simp [Transcript.appendElementBytes, Transcript.appendMessage]

/-- Encodings, for total encodings. -/
def encOf (B : Backend F E) (e : E) : Bytes := (B.serElem e).getD []

theorem encOf_eq {B : Backend F E} {e : E} {b : Bytes} (h : B.serElem e = some b) : encOf B e = b := by
  simp [encOf, h]

/-- The data hashed for the common challenge, for given terminal commitments. -/
def commonPoint (B : Backend F E) (ctx : List Entry) (k : Bytes) (terms : List (E × E)) : List Entry :=
  commonQuery ctx k (terms.map fun e => (encOf B e.1, encOf B e.2))

theorem ringPoint_spec (B : Backend F E) (hT : B.TotalSer) (H : List Entry → F) (K : PublicKey E)
    (values : List (List E)) (cts : List (Ciphertext E)) (t : Transcript) (proof : RingProof F)
    (hl : proof.ringResponses.length = (values.map List.length).sum) :
    ∃ terms : List (E × E), terms.length = (values.zip cts).length ∧
      (∀ H' : List Entry → F, (∀ enc i j x y, H' (ringQuery (ringBase t.log K.bytes enc i) j x y) =
        H (ringQuery (ringBase t.log K.bytes enc i) j x y)) →
        ringPoint (B.withHash H') K values cts t proof =
          [(commonPoint B t.log K.bytes terms, proof.commonChallenge)]) ∧
      ((∃ t', proof.verify (B.withHash H) K values cts t = some (.ok (), t')) ↔
        H (commonPoint B t.log K.bytes terms) = proof.commonChallenge) := by
  obtain ⟨⟨r, t'⟩, hv⟩ := C50_ring_verify_total (B.withHash H) hT proof K values cts t
  obtain ⟨t1, hloop, hlog, hr⟩ := (RingProof.verify_eq_some hl).mp hv
  obtain ⟨terms, hlen, enc, hf, hlog1⟩ := RingProof.verifyLoop_terms _ hloop
  have hq : t'.log = commonPoint B t.log K.bytes terms := by
    rw [hlog, hlog1, RingProof.initializeTranscript_log, commonPoint, commonQuery]
    congr 3
    clear hlen hlog1
    induction hf with
    | nil => rfl
    | cons h _ ih =>
      rw [List.map_cons, encOf_eq (B := B) h.1, encOf_eq (B := B) h.2, ← ih]
  refine ⟨terms, hlen, ?_, ?_⟩
  · intro H' hH'
    have hv' : proof.verify (B.withHash H') K values cts t =
        some (checkChallenge (H' t'.log) proof.commonChallenge, t') := by
      refine (RingProof.verify_eq_some hl).mpr ⟨t1, ?_, hlog, rfl⟩
      rw [RingProof.verifyLoop_congr hH']
      exact hloop
    simp [ringPoint, hv', hq]
  · rw [hv]
    constructor
    · rintro ⟨t2, h2⟩
      cases Prod.mk.inj (Option.some.inj h2) with
      | intro h3 h4 =>
        rw [← hq]
        exact checkChallenge_ok.mp (hr.symm.trans h3)
    · intro h
      refine ⟨t', ?_⟩
      rw [hr, checkChallenge_ok.mpr]
      rw [hq]
      exact h

/-- The data hashed by a log equality proof, for given commitments. -/
def logEqData (B : Backend F E) (ctx : List Entry) (k : Bytes) (e : (E × E) × (E × E)) : List Entry :=
  logEqQuery ctx k (encOf B e.1.1) (encOf B e.1.2) (encOf B e.2.1) (encOf B e.2.2)

theorem logEqPoint_spec (B : Backend F E) (hT : B.TotalSer) (K : PublicKey E) (powers : E × E) (t : Transcript)
    (proof : LogEqualityProof F) :
    ∃ e, (∀ H : List Entry → F, logEqPoint (B.withHash H) K powers t proof =
        [(logEqData B t.log K.bytes e, proof.challenge)]) ∧
      ∀ H : List Entry → F, (∃ t', proof.verify (B.withHash H) K powers t = some (.ok (), t')) ↔
        H (logEqData B t.log K.bytes e) = proof.challenge := by
  let e : (E × E) × (E × E) := (powers, (proof.response • B.gen - proof.challenge • powers.1,
    proof.response • K.element - proof.challenge • powers.2))
  have hs : ∀ x : E, B.serElem x = some (encOf B x) := by
    intro x
    obtain ⟨b, hb⟩ := hT x
    rw [encOf_eq hb, hb]
  have hv : ∀ H : List Entry → F, proof.verify (B.withHash H) K powers t =
      some (checkChallenge (H (logEqData B t.log K.bytes e)) proof.challenge, ⟨logEqData B t.log K.bytes e⟩) := by
    intro H
    exact LogEqualityProof.verify_eq_some.mpr ⟨_, _, _, _, hs _, hs _, hs _, hs _, rfl, rfl⟩
  refine ⟨e, fun H => by simp [logEqPoint, hv], fun H => ?_⟩
  simp only [hv, Option.some.injEq, Prod.mk.injEq]
  constructor
  · rintro ⟨_, h, -⟩; exact checkChallenge_ok.mp h
  · intro h; exact ⟨_, checkChallenge_ok.mpr h, rfl⟩

end ElasticElgamal
