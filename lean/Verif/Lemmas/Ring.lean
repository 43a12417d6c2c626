import Verif.Spec.Ring
import Verif.Lemmas.Possession

/-!
# Lemmas about ring proofs
-/

set_option autoImplicit false
set_option linter.unusedSectionVars false

namespace ElasticElgamal

open Spec

variable {F E : Type} [Field F] [AddCommGroup E] [Module F E]

/-- For a false statement at most one challenge can be answered. -/
theorem Spec.Forgeable.unique {B : Backend F E} {K : E} {powers comm : E × E}
    {c c' : F} (h : Forgeable B K powers comm c) (h' : Forgeable B K powers comm c') : c = c' := by
  obtain ⟨hn, s, h1, h2⟩ := h
  obtain ⟨-, s', h1', h2'⟩ := h'
  by_contra hne
  apply hn
  have hne' : c - c' ≠ 0 := sub_ne_zero.mpr hne
  refine ⟨(s - s') / (c - c'), ?_, ?_⟩
  · have e : (c - c') • powers.1 = (s - s') • B.gen := by
      rw [h1] at h1'
      linear_combination (norm := module) -h1'
    rw [div_eq_inv_mul, mul_smul, ← e, smul_smul, inv_mul_cancel₀ hne', one_smul]
  · have e : (c - c') • powers.2 = (s - s') • K := by
      rw [h2] at h2'
      linear_combination (norm := module) -h2'
    rw [div_eq_inv_mul, mul_smul, ← e, smul_smul, inv_mul_cancel₀ hne', one_smul]

/-- The challenge derived from the commitments of equation `j`. -/
def ringChal (B : Backend F E) (base : List Entry) (j : ℕ) (m : E × E) : Option F := do
  let x ← B.serElem m.1
  let y ← B.serElem m.2
  return B.challenge (ringQuery base j x y)

theorem ringChal_eq_some {B : Backend F E} {base : List Entry} {j : ℕ} {m : E × E} {c : F} :
    ringChal B base j m = some c ↔ ∃ x y, B.serElem m.1 = some x ∧ B.serElem m.2 = some y ∧
      c = B.challenge (ringQuery base j x y) := by
  simp only [ringChal, Option.bind_eq_bind, Option.bind_eq_some_iff, Option.pure_def,
    Option.some.injEq]
  constructor
  · rintro ⟨x, hx, y, hy, rfl⟩; exact ⟨x, y, hx, hy, rfl⟩
  · rintro ⟨x, y, hx, hy, rfl⟩; exact ⟨x, hx, y, hy, rfl⟩

namespace RingProof

theorem comm_eq (B : Backend F E) (K : PublicKey E) (ct : Ciphertext E) (v : E) (s c : F) :
    ((B.doubleMulGen (-c) ct.random s,
      Backend.multiMul [s, -c] [K.element, ct.blinded - v]) : E × E) =
    ringComm B K.element ct v s c := by
  simp only [ringComm, Backend.doubleMulGen, Backend.multiMul_cons, Backend.multiMul_nil,
    Prod.mk.injEq]
  constructor <;> module

theorem query_step (B : Backend F E) (t : Transcript) (j : ℕ) (m : E × E) :
    (do
      let eqT ← B.appendElement (t.appendU64 "j" j) "R_G" m.1
      let eqT ← B.appendElement eqT "R_K" m.2
      pure (B.challengeScalar eqT "c").1) = ringChal B t.log j m := by
  simp only [ringChal, Backend.appendElement, Option.bind_eq_bind, Option.pure_def,
    Option.bind_assoc, Option.bind_some, Backend.challengeScalar, Transcript.appendElementBytes,
    Transcript.appendMessage, Transcript.appendU64, ringQuery, List.append_assoc,
    List.cons_append, List.nil_append]

theorem verifyRingLoop_cons_lt {B : Backend F E} {K : PublicKey E} {ct : Ciphertext E}
    {t : Transcript} {n j : ℕ} {v : E} {s : F} {l : List (E × F)} {c : F} {m : E × E}
    (h : j + 1 < n) :
    verifyRingLoop B K ct t n j ((v, s) :: l) c m =
      (ringChal B t.log j (ringComm B K.element ct v s c)).bind fun c' =>
        verifyRingLoop B K ct t n (j + 1) l c' (ringComm B K.element ct v s c) := by
  have e := comm_eq B K ct v s c
  have e1 := congrArg Prod.fst e
  have e2 := congrArg Prod.snd e
  dsimp only at e1 e2
  rw [← query_step]
  simp only [verifyRingLoop, h, if_true, e1, e2, Option.bind_eq_bind, Option.bind_assoc,
    Option.pure_def, Option.bind_some]

theorem verifyRingLoop_cons_last {B : Backend F E} {K : PublicKey E} {ct : Ciphertext E}
    {t : Transcript} {n j : ℕ} {v : E} {s : F} {l : List (E × F)} {c : F} {m : E × E}
    (h : ¬ j + 1 < n) :
    verifyRingLoop B K ct t n j ((v, s) :: l) c m =
      verifyRingLoop B K ct t n (j + 1) l c (ringComm B K.element ct v s c) := by
  simp only [verifyRingLoop, h, if_false, comm_eq]
  rfl

end RingProof

theorem setAt_eq_some {α : Type} {l l' : List α} {i : ℕ} {x : α} :
    setAt l i x = some l' ↔ i < l.length ∧ l.set i x = l' := by
  simp only [setAt]; split <;> simp_all

namespace Ring

theorem comm_eq (B : Backend F E) (K : E) (ct : Ciphertext E) (v : E) (s c : F) :
    ((B.mulGen s - c • ct.random,
      Backend.multiMul [s, -c] [K, ct.blinded - v]) : E × E) = ringComm B K ct v s c := by
  simp only [ringComm, Backend.mulGen, Backend.multiMul_cons, Backend.multiMul_nil, Prod.mk.injEq]
  refine ⟨trivial, ?_⟩
  module

theorem newLoop_cons {B : Backend F E} {K : E} {ct : Ciphertext E} {t : Transcript} {j : ℕ} {v : E}
    {vs : List E} {m : E × E} {rs : List F} {rng : B.Rng} :
    newLoop B K ct t (j + 1) (v :: vs) m rs rng =
      (ringChal B t.log j m).bind fun c =>
        (setAt rs (j + 1) (B.genScalar rng).1).bind fun rs' =>
          newLoop B K ct t (j + 2) vs (ringComm B K ct v (B.genScalar rng).1 c) rs'
            (B.genScalar rng).2 := by
  rw [← RingProof.query_step]
  simp only [newLoop, comm_eq, Nat.add_sub_cancel, Option.bind_eq_bind, Option.bind_assoc,
    Option.pure_def, Option.bind_some]

theorem finalizeLoop_cons {B : Backend F E} {K : E} {ct : Ciphertext E} {t : Transcript} {j : ℕ}
    {v : E} {vs : List E} {c : F} {rs : List F} {rng : B.Rng} :
    finalizeLoop B K ct t j (v :: vs) c rs rng =
      (setAt rs j (B.genScalar rng).1).bind fun rs' =>
        (ringChal B t.log j (ringComm B K ct v (B.genScalar rng).1 c)).bind fun c' =>
          finalizeLoop B K ct t (j + 1) vs c' rs' (B.genScalar rng).2 := by
  have e := comm_eq B K ct v (B.genScalar rng).1 c
  have e1 := congrArg Prod.fst e
  have e2 := congrArg Prod.snd e
  dsimp only at e1 e2
  simp only [← RingProof.query_step, finalizeLoop, e1, e2, Option.bind_eq_bind, Option.bind_assoc,
    Option.pure_def, Option.bind_some]

/-- The equations after the known one, as seen by the verifier. -/
theorem newLoop_spec {B : Backend F E} {K : PublicKey E} {ct : Ciphertext E} {t : Transcript} {n : ℕ}
    (vs : List E) :
    ∀ {j : ℕ} {m : E × E} {rs : List F} {rng : B.Rng} {m' : E × E} {rs' : List F} {rng' : B.Rng},
    newLoop B K.element ct t (j + 1) vs m rs rng = some (m', rs', rng') → j + 1 + vs.length = n →
    ∃ ss : List F, ss.length = vs.length ∧
      (vs ≠ [] → j + 1 + vs.length ≤ rs.length) ∧
      rs' = rs.take (j + 1) ++ ss ++ rs.drop (j + 1 + vs.length) ∧
      ∀ v₀ s₀ c₀ m₀, ringComm B K.element ct v₀ s₀ c₀ = m →
        RingProof.verifyRingLoop B K ct t n j ((v₀, s₀) :: vs.zip ss) c₀ m₀ = some m' := by
  induction vs with
  | nil =>
    intro j m rs rng m' rs' rng' h hn
    simp only [newLoop, Option.some.injEq, Prod.mk.injEq] at h
    obtain ⟨rfl, rfl, rfl⟩ := h
    refine ⟨[], rfl, by simp, by simp, ?_⟩
    rintro v₀ s₀ c₀ m₀ rfl
    rw [RingProof.verifyRingLoop_cons_last (by simp at hn; omega)]
    rfl
  | cons v vs ih =>
    intro j m rs rng m' rs' rng' h hn
    rw [newLoop_cons] at h
    simp only [Option.bind_eq_some_iff, setAt_eq_some] at h
    obtain ⟨c, hc, rs1, ⟨hlt, rfl⟩, h⟩ := h
    simp only [List.length_cons] at hn
    obtain ⟨ss, hl, hle, rfl, hv⟩ := ih (j := j + 1) h (by omega)
    refine ⟨(B.genScalar rng).1 :: ss, by simp [hl], ?_, ?_, ?_⟩
    · intro _
      by_cases hvs : vs = []
      · subst hvs; simp; omega
      · have := hle hvs; simp at this ⊢; omega
    · have h1 : j + 1 + 1 + vs.length = j + 1 + (v :: vs).length := by simp; omega
      rw [h1, List.drop_set_of_lt (by simp)]
      rw [List.take_succ_eq_append_getElem (by simpa using hlt)]
      simp [List.take_set, List.set_eq_of_length_le]
    · rintro v₀ s₀ c₀ m₀ rfl
      rw [RingProof.verifyRingLoop_cons_lt (by omega), hc]
      exact hv v _ c (ringComm B K.element ct v₀ s₀ c₀) rfl

/-- The equations before the known one, as seen by the verifier. -/
theorem finalizeLoop_spec {B : Backend F E} {K : PublicKey E} {ct : Ciphertext E} {t : Transcript}
    {n : ℕ} (vs : List E) :
    ∀ {j : ℕ} {c : F} {rs : List F} {rng : B.Rng} {c' : F} {rs' : List F} {rng' : B.Rng},
    finalizeLoop B K.element ct t j vs c rs rng = some (c', rs', rng') → j + vs.length < n →
    ∃ ss : List F, ss.length = vs.length ∧
      (vs ≠ [] → j + vs.length ≤ rs.length) ∧
      rs' = rs.take j ++ ss ++ rs.drop (j + vs.length) ∧
      ∀ v s l m₀, ∃ m₁,
        RingProof.verifyRingLoop B K ct t n j (vs.zip ss ++ (v, s) :: l) c m₀ =
        RingProof.verifyRingLoop B K ct t n (j + vs.length) ((v, s) :: l) c' m₁ := by
  induction vs with
  | nil =>
    intro j c rs rng c' rs' rng' h hn
    simp only [finalizeLoop, Option.some.injEq, Prod.mk.injEq] at h
    obtain ⟨rfl, rfl, rfl⟩ := h
    exact ⟨[], rfl, by simp, by simp, fun v s l m₀ => ⟨m₀, rfl⟩⟩
  | cons v vs ih =>
    intro j c rs rng c' rs' rng' h hn
    rw [finalizeLoop_cons] at h
    simp only [Option.bind_eq_some_iff, setAt_eq_some] at h
    obtain ⟨rs1, ⟨hlt, rfl⟩, c1, hc, h⟩ := h
    simp only [List.length_cons] at hn
    obtain ⟨ss, hl, hle, rfl, hv⟩ := ih (j := j + 1) h (by omega)
    have h1 : j + 1 + vs.length = j + (v :: vs).length := by simp; omega
    refine ⟨(B.genScalar rng).1 :: ss, by simp [hl], ?_, ?_, ?_⟩
    · intro _
      by_cases hvs : vs = []
      · subst hvs; simp; omega
      · have := hle hvs; simp at this ⊢; omega
    · rw [h1, List.drop_set_of_lt (by simp)]
      rw [List.take_succ_eq_append_getElem (by simpa using hlt)]
      simp [List.take_set, List.set_eq_of_length_le]
    · intro v₀ s₀ l m₀
      obtain ⟨m₁, hm⟩ := hv v₀ s₀ l (ringComm B K.element ct v (B.genScalar rng).1 c)
      refine ⟨m₁, ?_⟩
      rw [List.zip_cons_cons, List.cons_append, RingProof.verifyRingLoop_cons_lt (by omega), hc]
      rw [h1] at hm
      exact hm

/-- Transcript of ring number `i`. -/
def ringTranscript (t : Transcript) (enc : Bytes) (i : ℕ) : Transcript :=
  ((t.startProof "ring_enc").appendMessage "enc" enc).appendU64 "i" i

/-- Invariant of a ring in a builder. `t` is the transcript after `initialize_transcript`. -/
def Good (B : Backend F E) (K : PublicKey E) (t : Transcript) (i : ℕ) (ring : Ring F E) : Prop :=
  ring.index = i ∧ ring.responses.length = ring.admissibleValues.length ∧
  (∃ enc, ring.ciphertext.toBytes B = some enc ∧ ring.transcript = ringTranscript t enc i) ∧
  ∃ v, ring.admissibleValues[ring.valueIndex]? = some v ∧
    ring.ciphertext.random = ring.discreteLog • B.gen ∧
    ring.ciphertext.blinded = v + ring.discreteLog • K.element ∧
    ∀ v₀ s₀ c₀ m₀, ringComm B K.element ring.ciphertext v₀ s₀ c₀ =
        (ring.randomScalar • B.gen, ring.randomScalar • K.element) →
      RingProof.verifyRingLoop B K ring.ciphertext ring.transcript ring.admissibleValues.length
        ring.valueIndex ((v₀, s₀) :: (ring.admissibleValues.drop (ring.valueIndex + 1)).zip
          (ring.responses.drop (ring.valueIndex + 1))) c₀ m₀ = some ring.terminalCommitments

theorem new_good [DecidableEq E] {B : Backend F E} {K : PublicKey E} {t : Transcript} {i : ℕ}
    {ct : ExtendedCiphertext F E} {values : List E} {idx : ℕ} {rs : List F} {rng rng' : B.Rng}
    {ring : Ring F E} (h : Ring.new B i K.element ct values idx t rs rng = some (ring, rng'))
    (hl : rs.length = values.length) {v : E} (hv : values[idx]? = some v)
    (h1 : ct.inner.random = ct.randomScalar • B.gen)
    (h2 : ct.inner.blinded = v + ct.randomScalar • K.element) :
    Good B K t i ring ∧ ring.admissibleValues = values ∧ ring.ciphertext = ct.inner := by
  have hidx : idx < values.length := (List.getElem?_eq_some_iff.mp hv).1
  simp only [Ring.new, Option.bind_eq_bind, Option.bind_eq_some_iff, Option.pure_def,
    Option.some.injEq, Prod.mk.injEq, Prod.exists, guard_eq_some'] at h
  obtain ⟨-, -, -, -, -, -, v', hv', -, -, enc, henc, m1, m2, rs', rng1, hloop, rfl, rfl⟩ := h
  obtain ⟨ss, hss, -, rfl, hver⟩ := newLoop_spec (n := values.length) _ hloop (by simp; omega)
  have hlen : (List.take (idx + 1) rs ++ ss ++
      List.drop (idx + 1 + (List.drop (idx + 1) values).length) rs).length = values.length := by
    simp [hss, hl]; omega
  have hdrop : (List.take (idx + 1) rs ++ ss ++
      List.drop (idx + 1 + (List.drop (idx + 1) values).length) rs).drop (idx + 1) = ss := by
    have e : List.drop (idx + 1 + (List.drop (idx + 1) values).length) rs = [] := by
      rw [List.drop_eq_nil_iff]; simp; omega
    rw [e, List.append_nil, List.drop_append_of_le_length (by simp; omega)]
    rw [List.drop_eq_nil_of_le (by simp)]
    rfl
  refine ⟨⟨rfl, hlen, ⟨enc, henc, rfl⟩, v, hv, h1, h2, ?_⟩, rfl, rfl⟩
  intro v₀ s₀ c₀ m₀ hm
  dsimp only at hm ⊢
  rw [hdrop]
  exact hver v₀ s₀ c₀ m₀ hm

theorem finalize_spec [DecidableEq F] {B : Backend F E} {K : PublicKey E} {t : Transcript} {i : ℕ}
    {ring : Ring F E} {c : F} {rng rng' : B.Rng} {rs : List F} (hg : Good B K t i ring)
    (h : ring.finalize B K.element c rng = some (rs, rng')) :
    rs.length = ring.admissibleValues.length ∧ ∀ m₀,
      RingProof.verifyRingLoop B K ring.ciphertext ring.transcript ring.admissibleValues.length 0
        (ring.admissibleValues.zip rs) c m₀ = some ring.terminalCommitments := by
  obtain ⟨-, hl, -, v, hv, h1, h2, hver⟩ := hg
  obtain ⟨hidx, hv⟩ := List.getElem?_eq_some_iff.mp hv
  simp only [Ring.finalize, Option.bind_eq_bind, Option.bind_eq_some_iff, Option.pure_def,
    Option.some.injEq, Prod.mk.injEq, Prod.exists, setAt_eq_some] at h
  obtain ⟨c', rs', rng1, hloop, p, hp, -, -, rs2, ⟨hlt, rfl⟩, rfl, rfl⟩ := h
  have htl : (ring.admissibleValues.take ring.valueIndex).length = ring.valueIndex := by
    simp; omega
  obtain ⟨ss, hss, -, rfl, hfin⟩ := finalizeLoop_spec (n := ring.admissibleValues.length) _ hloop
    (by omega)
  rw [htl] at hss hfin hlt ⊢
  simp only [List.take_zero, List.nil_append, Nat.zero_add] at hlt hfin ⊢
  have hrs : (ss ++ List.drop ring.valueIndex ring.responses).set ring.valueIndex
      (c' * ring.discreteLog + ring.randomScalar) =
      ss ++ (c' * ring.discreteLog + ring.randomScalar) ::
        ring.responses.drop (ring.valueIndex + 1) := by
    rw [List.set_append_right _ _ (by omega), hss, Nat.sub_self,
      List.drop_eq_getElem_cons (by omega), List.set_cons_zero]
  have hvals : ring.admissibleValues = ring.admissibleValues.take ring.valueIndex ++
      v :: ring.admissibleValues.drop (ring.valueIndex + 1) := by
    rw [← hv, ← List.drop_eq_getElem_cons hidx, List.take_append_drop]
  rw [hrs]
  constructor
  · simp [hss, hl]; omega
  · intro m₀
    have hz : ring.admissibleValues.zip (ss ++ (c' * ring.discreteLog + ring.randomScalar) ::
        ring.responses.drop (ring.valueIndex + 1)) =
        (ring.admissibleValues.take ring.valueIndex).zip ss ++
          (v, c' * ring.discreteLog + ring.randomScalar) ::
          (ring.admissibleValues.drop (ring.valueIndex + 1)).zip
            (ring.responses.drop (ring.valueIndex + 1)) := by
      conv_lhs => rw [hvals]
      rw [List.zip_append (by omega), List.zip_cons_cons]
    rw [hz]
    obtain ⟨m₁, hm₁⟩ := hfin v (c' * ring.discreteLog + ring.randomScalar)
      ((ring.admissibleValues.drop (ring.valueIndex + 1)).zip
        (ring.responses.drop (ring.valueIndex + 1))) m₀
    rw [hm₁]
    apply hver
    simp only [ringComm, h1, h2, Prod.mk.injEq]
    constructor <;> module

/-- All rings satisfy the invariant, numbered from `i`. -/
def AllGood (B : Backend F E) (K : PublicKey E) (t : Transcript) : ℕ → List (Ring F E) → Prop
  | _, [] => True
  | i, r :: rs => Good B K t i r ∧ AllGood B K t (i + 1) rs

theorem AllGood.append {B : Backend F E} {K : PublicKey E} {t : Transcript} {i : ℕ}
    {rs rs' : List (Ring F E)} (h : AllGood B K t i rs) (h' : AllGood B K t (i + rs.length) rs') :
    AllGood B K t i (rs ++ rs') := by
  induction rs generalizing i with
  | nil => simpa using h'
  | cons r rs ih =>
    refine ⟨h.1, ih h.2 ?_⟩
    have : i + 1 + rs.length = i + (r :: rs).length := by simp; omega
    rw [this]; exact h'

theorem AllGood.index {B : Backend F E} {K : PublicKey E} {t : Transcript} {i : ℕ}
    {rs : List (Ring F E)} (h : AllGood B K t i rs) :
    rs.map (·.index) = List.range' i rs.length := by
  induction rs generalizing i with
  | nil => rfl
  | cons r rs ih => simp [List.range'_succ, ih h.2, h.1.1]

/-- The verifier's loop over rings retraces the prover's terminal commitments. -/
theorem finalizeAll_spec [DecidableEq F] {B : Backend F E} {K : PublicKey E} {t₀ : Transcript} {c : F}
    (rings : List (Ring F E)) :
    ∀ {i : ℕ} {rng rng' : B.Rng} {rs : List F} (pre post : List F) (t : Transcript),
    AllGood B K t₀ i rings → finalizeAll B K.element c rings rng = some (rs, rng') →
    rs.length = (rings.map (·.admissibleValues.length)).sum ∧
    RingProof.verifyLoop B ⟨c, pre ++ rs ++ post⟩ K t₀ i pre.length
      (rings.map fun r => (r.admissibleValues, r.ciphertext)) t = appendTerminal B rings t := by
  induction rings with
  | nil =>
    intro i rng rng' rs pre post t _ h
    simp only [finalizeAll, Option.some.injEq, Prod.mk.injEq] at h
    obtain ⟨rfl, rfl⟩ := h
    exact ⟨rfl, rfl⟩
  | cons ring rings ih =>
    intro i rng rng' rs pre post t hg h
    simp only [finalizeAll, Option.bind_eq_bind, Option.bind_eq_some_iff, Option.pure_def,
      Option.some.injEq, Prod.mk.injEq, Prod.exists] at h
    obtain ⟨rs1, rng1, hf, rs2, rng2, hrest, rfl, rfl⟩ := h
    obtain ⟨hl, hver⟩ := finalize_spec hg.1 hf
    obtain ⟨-, -, ⟨enc, henc, htr⟩, -⟩ := hg.1
    refine ⟨by simp [hl, (ih [] [] t hg.2 hrest).1], ?_⟩
    simp only [List.map_cons, RingProof.verifyLoop, henc, Option.bind_eq_bind, Option.bind_some,
      appendTerminal]
    rw [show guard (pre.length ≤ (pre ++ (rs1 ++ rs2) ++ post).length) = some () from by
      simp [guard]]
    simp only [Option.bind_some]
    have hz : ring.admissibleValues.zip ((pre ++ (rs1 ++ rs2) ++ post).drop pre.length) =
        ring.admissibleValues.zip rs1 := by
      rw [List.append_assoc, List.drop_left, List.append_assoc]
      conv_lhs => rw [← List.append_nil ring.admissibleValues]
      rw [List.zip_append hl.symm]
      simp
    rw [hz]
    have hver := hver (B.gen, B.gen)
    rw [htr] at hver
    simp only [ringTranscript] at hver
    rw [hver]
    simp only [Option.bind_some]
    congr 1; funext t1; congr 1; funext t2
    have := (ih (pre ++ rs1) post t2 hg.2 hrest).2
    rw [List.length_append, hl] at this
    rw [← this]
    simp [List.append_assoc]

end Ring

namespace RingProofBuilder

variable [DecidableEq E]

/-- Invariant of a builder after some calls: `done` lists the (values, ciphertext) added so far. -/
def Good (B : Backend F E) (K : PublicKey E) (t : Transcript) (total : ℕ)
    (done : List (List E × Ciphertext E)) (b : RingProofBuilder B) : Prop :=
  b.receiver = K ∧ b.transcript = RingProof.initializeTranscript t K ∧
  Ring.AllGood B K (RingProof.initializeTranscript t K) 0 b.rings ∧
  (b.rings.map fun r => (r.admissibleValues, r.ciphertext)) = done ∧
  b.ringResponses.length + (done.map (·.1.length)).sum = total

theorem addPrecomputedValue_good {B : Backend F E} {K : PublicKey E} {t : Transcript} {total : ℕ}
    {done : List (List E × Ciphertext E)} {b b' : RingProofBuilder B} (hb : Good B K t total done b)
    {ct : ExtendedCiphertext F E} {values : List E} {idx : ℕ}
    (h : b.addPrecomputedValue B ct values idx = some b') {v : E} (hv : values[idx]? = some v)
    (h1 : ct.inner.random = ct.randomScalar • B.gen)
    (h2 : ct.inner.blinded = v + ct.randomScalar • K.element) :
    Good B K t total (done ++ [(values, ct.inner)]) b' := by
  obtain ⟨hK, ht, hg, hdone, hlen⟩ := hb
  simp only [addPrecomputedValue, Option.bind_eq_bind, Option.bind_eq_some_iff, Option.pure_def,
    Option.some.injEq, Prod.exists, guard_eq_some'] at h
  obtain ⟨-, hle, ring, rng, hnew, rfl⟩ := h
  rw [hK, ht] at hnew
  obtain ⟨hgood, hvals, hct⟩ := Ring.new_good hnew (by simp; omega) hv h1 h2
  refine ⟨hK, ht, hg.append ⟨by simpa using hgood, trivial⟩, by simp [hdone, hvals, hct], ?_⟩
  simp
  omega

theorem runRingStep_good {B : Backend F E} {K : PublicKey E} {t : Transcript} {total : ℕ}
    {done : List (List E × Ciphertext E)} {b b' : RingProofBuilder B} (hb : Good B K t total done b)
    {step : RingStep F E} (hs : step.Honest B K.element) {ct : ExtendedCiphertext F E}
    (h : runRingStep B step b = some (ct, b')) :
    Good B K t total (done ++ [(step.values, ct.inner)]) b' := by
  unfold runRingStep at h
  split at h
  · simp only [addValue, Option.bind_eq_bind, Option.bind_eq_some_iff, Option.pure_def,
      Option.some.injEq, Prod.mk.injEq] at h
    obtain ⟨v, hv, b1, hb1, rfl, rfl⟩ := h
    refine addPrecomputedValue_good (b := { b with rng := (ExtendedCiphertext.new B v b.receiver b.rng).2 }) hb hb1 hv ?_ ?_
    · rfl
    · simp [ExtendedCiphertext.new, hb.1]
  · rename_i ct' hct
    simp only [Option.map_eq_some_iff, Prod.mk.injEq] at h
    obtain ⟨b1, hb1, rfl, rfl⟩ := h
    obtain ⟨v, hv, h1, h2⟩ := hs _ hct
    exact addPrecomputedValue_good hb hb1 hv h1 h2

theorem runRingSteps_good {B : Backend F E} {K : PublicKey E} {t : Transcript} {total : ℕ}
    (steps : List (RingStep F E)) :
    ∀ {done : List (List E × Ciphertext E)} {b b' : RingProofBuilder B} {cts : List (Ciphertext E)},
    Good B K t total done b → (∀ s ∈ steps, s.Honest B K.element) →
    runRingSteps B steps b = some (cts, b') →
    cts.length = steps.length ∧
    Good B K t total (done ++ (steps.map (·.values)).zip cts) b' := by
  induction steps with
  | nil =>
    intro done b b' cts hb _ h
    simp only [runRingSteps, Option.some.injEq, Prod.mk.injEq] at h
    obtain ⟨rfl, rfl⟩ := h
    exact ⟨rfl, by simpa using hb⟩
  | cons step steps ih =>
    intro done b b' cts hb hs h
    simp only [runRingSteps, Option.bind_eq_bind, Option.bind_eq_some_iff, Option.pure_def,
      Option.some.injEq, Prod.mk.injEq, Prod.exists] at h
    obtain ⟨ct, b1, hstep, cts', b2, hrest, rfl, rfl⟩ := h
    have hb1 := runRingStep_good hb (hs step (by simp)) hstep
    obtain ⟨hl, hb2⟩ := ih hb1 (fun s h => hs s (by simp [h])) hrest
    refine ⟨by simp [hl], ?_⟩
    simpa [List.append_assoc] using hb2

/-- What a finished builder yields verifies. -/
theorem build_verify [DecidableEq F] {B : Backend F E} {K : PublicKey E} {t t' : Transcript}
    {total : ℕ} {done : List (List E × Ciphertext E)} {b : RingProofBuilder B}
    (hb : Good B K t total done b) (hfull : b.ringResponses = []) {c : F} {rs : List F}
    {rng' : B.Rng} (h : b.build B = some (c, rs, t', rng')) :
    (⟨c, rs⟩ : RingProof F).verify B K (done.map (·.1)) (done.map (·.2)) t = some (.ok (), t') := by
  obtain ⟨hK, ht, hg, rfl, hlen⟩ := hb
  simp only [build, Ring.aggregate, Option.bind_eq_bind, Option.bind_eq_some_iff, Option.pure_def,
    Option.some.injEq, Prod.mk.injEq, Prod.exists, hfull, List.append_nil] at h
  obtain ⟨-, -, c', rs', t1, rng1, ⟨-, -, t2, ht2, rs2, rng2, hfin, rfl, rfl, rfl, rfl⟩, rfl, rfl,
    rfl, rfl⟩ := h
  rw [hK] at hfin
  obtain ⟨hl, hver⟩ := Ring.finalizeAll_spec b.rings [] []
    (RingProof.initializeTranscript t K) hg hfin
  have hsum : rs2.length = (((b.rings.map fun r => (r.admissibleValues, r.ciphertext)).map
      (·.1)).map List.length).sum := by
    rw [hl]; simp [Function.comp_def]
  unfold RingProof.verify RingProof.totalRingsSize
  dsimp only
  rw [checkLengths_ok.mpr hsum]
  simp only [Option.bind_eq_bind]
  have hzip : ((b.rings.map fun r => (r.admissibleValues, r.ciphertext)).map (·.1)).zip
      ((b.rings.map fun r => (r.admissibleValues, r.ciphertext)).map (·.2)) =
      b.rings.map fun r => (r.admissibleValues, r.ciphertext) := by
    simp [List.zip_map', Function.comp_def]
  rw [hzip]
  simp only [List.nil_append, List.append_nil, List.length_nil] at hver
  rw [hver]
  rw [ht] at ht2
  rw [ht2]
  simp [Backend.challengeScalar, checkChallenge_self]

end RingProofBuilder

end ElasticElgamal
