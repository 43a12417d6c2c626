import Verif.Lemmas.Ring

/-!
# Lemmas about ring proofs: totality and the verifier's equations
-/

set_option autoImplicit false
set_option linter.unusedSectionVars false

namespace ElasticElgamal

open Spec

variable {F E : Type} [Field F] [AddCommGroup E] [Module F E]

theorem ringChal_total {B : Backend F E} (hT : B.TotalSer) (base : List Entry) (j : ℕ) (m : E × E) :
    ∃ c, ringChal B base j m = some c := by
  obtain ⟨x, hx⟩ := hT m.1
  obtain ⟨y, hy⟩ := hT m.2
  exact ⟨_, ringChal_eq_some.mpr ⟨x, y, hx, hy, rfl⟩⟩

theorem Ciphertext.toBytes_total {B : Backend F E} (hT : B.TotalSer) (ct : Ciphertext E) :
    ∃ b, ct.toBytes B = some b := by
  obtain ⟨x, hx⟩ := hT ct.random
  obtain ⟨y, hy⟩ := hT ct.blinded
  exact ⟨x ++ y, by simp [Ciphertext.toBytes, hx, hy]⟩

theorem setAt_of_lt {α : Type} {l : List α} {i : ℕ} (x : α) (h : i < l.length) :
    setAt l i x = some (l.set i x) := by
  simp [setAt, h]

namespace Ring

theorem newLoop_total {B : Backend F E} (hT : B.TotalSer) (K : E) (ct : Ciphertext E) (t : Transcript)
    (vs : List E) : ∀ (j : ℕ) (m : E × E) (rs : List F) (rng : B.Rng), j + 1 + vs.length ≤ rs.length →
    ∃ out, newLoop B K ct t (j + 1) vs m rs rng = some out := by
  induction vs with
  | nil => intro j m rs rng _; exact ⟨_, rfl⟩
  | cons v vs ih =>
    intro j m rs rng h
    simp only [List.length_cons] at h
    obtain ⟨c, hc⟩ := ringChal_total hT t.log j m
    rw [newLoop_cons, hc, Option.bind_some, setAt_of_lt _ (by omega), Option.bind_some]
    exact ih (j + 1) _ _ _ (by simp; omega)

theorem finalizeLoop_total {B : Backend F E} (hT : B.TotalSer) (K : E) (ct : Ciphertext E)
    (t : Transcript) (vs : List E) : ∀ (j : ℕ) (c : F) (rs : List F) (rng : B.Rng),
    j + vs.length ≤ rs.length → ∃ out, finalizeLoop B K ct t j vs c rs rng = some out := by
  induction vs with
  | nil => intro j m rs rng _; exact ⟨_, rfl⟩
  | cons v vs ih =>
    intro j c rs rng h
    simp only [List.length_cons] at h
    obtain ⟨c', hc⟩ := ringChal_total hT t.log j (ringComm B K ct v (B.genScalar rng).1 c)
    rw [finalizeLoop_cons, setAt_of_lt _ (by omega), Option.bind_some, hc, Option.bind_some]
    exact ih (j + 1) _ _ _ (by simp; omega)

theorem new_total [DecidableEq E] {B : Backend F E} (hT : B.TotalSer) {K : PublicKey E}
    {t : Transcript} {i : ℕ}
    {ct : ExtendedCiphertext F E} {values : List E} {idx : ℕ} {rs : List F} {rng : B.Rng}
    (hl : rs.length = values.length) {v : E} (hv : values[idx]? = some v)
    (h2 : ct.inner.blinded = v + ct.randomScalar • K.element) :
    ∃ ring rng', Ring.new B i K.element ct values idx t rs rng = some (ring, rng') ∧
      ring.responses[ring.valueIndex]? = rs[idx]? := by
  have hidx : idx < values.length := (List.getElem?_eq_some_iff.mp hv).1
  have hne : values ≠ [] := by rintro rfl; simp at hidx
  obtain ⟨enc, henc⟩ := Ciphertext.toBytes_total hT ct.inner
  obtain ⟨⟨m, rs', rng'⟩, hloop⟩ := newLoop_total hT K.element ct.inner (ringTranscript t enc i)
    (values.drop (idx + 1)) idx
    (B.mulGen (SecretKey.generate B rng).1, (SecretKey.generate B rng).1 • K.element) rs
    (SecretKey.generate B rng).2 (by simp; omega)
  obtain ⟨ss, -, -, hrs', -⟩ := newLoop_spec (n := values.length) _ hloop (by simp; omega)
  simp only [ringTranscript] at hloop
  refine ⟨{ index := i, valueIndex := idx, admissibleValues := values, ciphertext := ct.inner,
            transcript := ringTranscript t enc i,
            responses := rs', terminalCommitments := m,
            discreteLog := ct.randomScalar, randomScalar := (SecretKey.generate B rng).1 },
    rng', ?_, ?_⟩
  · simp only [Ring.new, Option.bind_eq_bind, guard, hne, hidx, ne_eq, not_false_eq_true, if_true,
      Option.pure_def, Option.bind_some, Backend.debugAssert_of hl, hv,
      Backend.debugAssert_of (show ct.randomScalar • K.element + v = ct.inner.blinded by
        rw [h2, add_comm]), henc, hloop]
    rfl
  · simp only [hrs']
    rw [List.append_assoc, List.getElem?_append_left (by simp; omega), List.getElem?_take_of_lt
      (by omega)]

theorem finalize_total [DecidableEq F] {B : Backend F E} (hT : B.TotalSer) {K : PublicKey E}
    {t : Transcript} {i : ℕ} {ring : Ring F E} (c : F) (rng : B.Rng) (hg : Good B K t i ring)
    (h0 : ring.responses[ring.valueIndex]? = some 0) :
    ∃ out, ring.finalize B K.element c rng = some out := by
  obtain ⟨-, hl, -, v, hv, -⟩ := hg
  obtain ⟨hidx, hv⟩ := List.getElem?_eq_some_iff.mp hv
  have htl : (ring.admissibleValues.take ring.valueIndex).length = ring.valueIndex := by
    simp; omega
  obtain ⟨⟨c', rs', rng'⟩, hloop⟩ := finalizeLoop_total hT K.element ring.ciphertext ring.transcript
    (ring.admissibleValues.take ring.valueIndex) 0 c ring.responses rng (by omega)
  obtain ⟨ss, hss, -, hrs', -⟩ := finalizeLoop_spec (n := ring.admissibleValues.length) _ hloop
    (by omega)
  rw [htl] at hss hrs'
  simp only [List.take_zero, List.nil_append, Nat.zero_add] at hrs'
  have hp : rs'[ring.valueIndex]? = some 0 := by
    rw [hrs', List.getElem?_append_right (by omega), hss, Nat.sub_self, List.getElem?_drop]
    simpa using h0
  have hlt : ring.valueIndex < rs'.length := (List.getElem?_eq_some_iff.mp hp).1
  simp only [Ring.finalize, hloop, Option.bind_eq_bind, Option.bind_some, hp]
  rw [Backend.debugAssert_of (by simp), Option.bind_some, setAt_of_lt _ hlt, Option.bind_some]
  exact ⟨_, rfl⟩

theorem appendTerminal_total {B : Backend F E} (hT : B.TotalSer) (rings : List (Ring F E))
    (t : Transcript) : ∃ t', appendTerminal B rings t = some t' := by
  induction rings generalizing t with
  | nil => exact ⟨t, rfl⟩
  | cons r rings ih =>
    obtain ⟨t1, h1⟩ := Backend.appendElement_total hT t "R_G" r.terminalCommitments.1
    obtain ⟨t2, h2⟩ := Backend.appendElement_total hT t1 "R_K" r.terminalCommitments.2
    simp only [appendTerminal, h1, h2, Option.bind_eq_bind, Option.bind_some]
    exact ih t2

theorem finalizeAll_total [DecidableEq F] {B : Backend F E} (hT : B.TotalSer) {K : PublicKey E}
    {t : Transcript} (c : F) (rings : List (Ring F E)) : ∀ {i : ℕ} (rng : B.Rng),
    AllGood B K t i rings → (∀ r ∈ rings, r.responses[r.valueIndex]? = some 0) →
    ∃ out, finalizeAll B K.element c rings rng = some out := by
  induction rings with
  | nil => intro i rng _ _; exact ⟨_, rfl⟩
  | cons r rings ih =>
    intro i rng hg h0
    obtain ⟨⟨rs, rng1⟩, h1⟩ := finalize_total hT c rng hg.1 (h0 r (by simp))
    obtain ⟨⟨rs2, rng2⟩, h2⟩ := ih rng1 hg.2 fun r hr => h0 r (by simp [hr])
    exact ⟨(rs ++ rs2, rng2), by simp [finalizeAll, h1, h2]⟩

end Ring

namespace RingProofBuilder

variable [DecidableEq E]

/-- Additional invariant needed for totality: unfilled responses are zero. -/
def Zeroed {B : Backend F E} (b : RingProofBuilder B) : Prop :=
  (∀ s ∈ b.ringResponses, s = 0) ∧ ∀ r ∈ b.rings, r.responses[r.valueIndex]? = some 0

theorem addPrecomputedValue_total {B : Backend F E} (hT : B.TotalSer) {K : PublicKey E}
    {b : RingProofBuilder B} (hK : b.receiver = K) (hz : b.Zeroed)
    {ct : ExtendedCiphertext F E} {values : List E} {idx : ℕ}
    (hl : values.length ≤ b.ringResponses.length) {v : E} (hv : values[idx]? = some v)
    (h2 : ct.inner.blinded = v + ct.randomScalar • K.element) :
    ∃ b', b.addPrecomputedValue B ct values idx = some b' ∧ b'.Zeroed := by
  have hidx : idx < values.length := (List.getElem?_eq_some_iff.mp hv).1
  obtain ⟨ring, rng', hnew, hr⟩ := Ring.new_total hT (i := b.rings.length) (t := b.transcript)
    (rs := b.ringResponses.take values.length) (rng := b.rng) (by simpa using hl) hv h2
  rw [← hK] at hnew
  refine ⟨{ b with rings := b.rings ++ [ring], ringResponses := b.ringResponses.drop values.length,
                   rng := rng' },
    by simp only [addPrecomputedValue, Option.bind_eq_bind, guard, hl, if_true,
      Option.pure_def, Option.bind_some, hnew], ?_, ?_⟩
  · intro s hs
    exact hz.1 s (List.mem_of_mem_drop hs)
  · intro r hr'
    rw [List.mem_append, List.mem_singleton] at hr'
    rcases hr' with h | rfl
    · exact hz.2 r h
    · rw [hr, List.getElem?_take_of_lt hidx, List.getElem?_eq_some_iff]
      exact ⟨by omega, hz.1 _ (List.getElem_mem _)⟩

theorem runRingStep_total {B : Backend F E} (hT : B.TotalSer) {K : PublicKey E}
    {b : RingProofBuilder B} (hK : b.receiver = K) (hz : b.Zeroed) {step : RingStep F E}
    (hl : step.values.length ≤ b.ringResponses.length) (hi : step.index < step.values.length)
    (hs : step.Honest B K.element) :
    ∃ ct b', runRingStep B step b = some (ct, b') ∧ b'.Zeroed := by
  unfold runRingStep
  split
  · have hv : step.values[step.index]? = some step.values[step.index] := by simp [hi]
    obtain ⟨b', hb', hz'⟩ := addPrecomputedValue_total hT (K := K)
      (b := { b with rng := (ExtendedCiphertext.new B step.values[step.index] b.receiver b.rng).2 })
      (ct := (ExtendedCiphertext.new B step.values[step.index] b.receiver b.rng).1) hK hz hl hv
      (by simp [ExtendedCiphertext.new, hK])
    exact ⟨(ExtendedCiphertext.new B step.values[step.index] b.receiver b.rng).1, b',
      by simp only [addValue, hv, Option.bind_eq_bind, Option.bind_some, hb',
      Option.pure_def], hz'⟩
  · rename_i ct hct
    obtain ⟨v, hv, -, h2⟩ := hs ct hct
    obtain ⟨b', hb', hz'⟩ := addPrecomputedValue_total hT hK hz hl hv h2
    exact ⟨ct, b', by simp [hb'], hz'⟩

theorem runRingSteps_total {B : Backend F E} (hT : B.TotalSer) {K : PublicKey E} {t : Transcript}
    {total : ℕ} (steps : List (RingStep F E)) :
    ∀ {done : List (List E × Ciphertext E)} {b : RingProofBuilder B}, Good B K t total done b →
    b.Zeroed → (steps.map (·.values.length)).sum ≤ b.ringResponses.length →
    (∀ s ∈ steps, s.index < s.values.length) → (∀ s ∈ steps, s.Honest B K.element) →
    ∃ cts b', runRingSteps B steps b = some (cts, b') ∧ b'.Zeroed := by
  induction steps with
  | nil => intro done b _ hz _ _ _; exact ⟨[], b, rfl, hz⟩
  | cons step steps ih =>
    intro done b hg hz hl hi hs
    simp only [List.map_cons, List.sum_cons] at hl
    obtain ⟨ct, b1, h1, hz1⟩ := runRingStep_total hT hg.1 hz (step := step) (by omega)
      (hi step (by simp)) (hs step (by simp))
    have hg1 := runRingStep_good hg (hs step (by simp)) h1
    have hlen := hg.2.2.2.2
    have hlen1 := hg1.2.2.2.2
    simp only [List.map_append, List.map_cons, List.map_nil, List.sum_append, List.sum_cons,
      List.sum_nil] at hlen1
    obtain ⟨cts, b2, h2, hz2⟩ := ih hg1 hz1 (by omega) (fun s h => hi s (by simp [h]))
      (fun s h => hs s (by simp [h]))
    exact ⟨ct.inner :: cts, b2, by simp [runRingSteps, h1, h2], hz2⟩

theorem build_total [DecidableEq F] {B : Backend F E} (hT : B.TotalSer) {K : PublicKey E}
    {t : Transcript} {total : ℕ} {done : List (List E × Ciphertext E)} {b : RingProofBuilder B}
    (hg : Good B K t total done b) (hz : b.Zeroed) (hfull : b.ringResponses = []) :
    ∃ out, b.build B = some out := by
  obtain ⟨hK, ht, hgood, hdone, hlen⟩ := hg
  obtain ⟨t1, h1⟩ := Ring.appendTerminal_total hT b.rings b.transcript
  obtain ⟨⟨rs, rng'⟩, h2⟩ := Ring.finalizeAll_total hT (B.challengeScalar t1 "c").1 b.rings b.rng
    hgood hz.2
  have hidx := hgood.index
  rw [← List.range_eq_range'] at hidx
  rw [← hK] at h2
  simp only [build, Ring.aggregate, Option.bind_eq_bind, Backend.debugAssert_of hfull,
    Backend.debugAssert_of hidx, Option.bind_some, h1, h2, Option.pure_def]
  exact ⟨_, rfl⟩

end RingProofBuilder

namespace RingProof

/-- The equations checked by the verifier in one ring. -/
theorem verifyRingLoop_chain {B : Backend F E} {K : PublicKey E} {ct : Ciphertext E} {t : Transcript}
    {n : ℕ} (l : List (E × F)) : ∀ {j : ℕ} {c : F} {m₀ m : E × E}, l ≠ [] → j + l.length = n →
    verifyRingLoop B K ct t n j l c m₀ = some m →
    ∃ (comms : List (E × E)) (cs : List F), comms.length = l.length ∧ cs.length = l.length ∧
      cs.head? = some c ∧ comms.getLast? = some m ∧
      (∀ (i : ℕ) v s m' c', l[i]? = some (v, s) → comms[i]? = some m' → cs[i]? = some c' →
        m' = ringComm B K.element ct v s c') ∧
      (∀ (i : ℕ) m' c', comms[i]? = some m' → cs[i + 1]? = some c' →
        ringChal B t.log (j + i) m' = some c') := by
  induction l with
  | nil => intro j c m₀ m h; exact absurd rfl h
  | cons p l ih =>
    obtain ⟨v, s⟩ := p
    intro j c m₀ m _ hn h
    simp only [List.length_cons] at hn
    by_cases hl : l = []
    · subst hl
      rw [verifyRingLoop_cons_last (by simp at hn; omega)] at h
      simp only [verifyRingLoop, Option.some.injEq] at h
      subst h
      refine ⟨[ringComm B K.element ct v s c], [c], rfl, rfl, rfl, rfl, ?_, ?_⟩
      · intro i v' s' m' c' h1 h2 h3
        cases i with
        | zero => simp_all
        | succ i => simp at h1
      · intro i m' c' _ h2
        simp at h2
    · have hpos : 0 < l.length := List.length_pos_iff.mpr hl
      rw [verifyRingLoop_cons_lt (by omega), Option.bind_eq_some_iff] at h
      obtain ⟨c1, hc1, h⟩ := h
      obtain ⟨comms, cs, hlc, hls, hhead, hlast, heq, hch⟩ := ih hl (by omega) h
      refine ⟨ringComm B K.element ct v s c :: comms, c :: cs, by simp [hlc], by simp [hls], rfl, ?_,
        ?_, ?_⟩
      · rw [List.getLast?_cons, hlast]; rfl
      · intro i v' s' m' c' h1 h2 h3
        cases i with
        | zero => simp_all
        | succ i => exact heq i v' s' m' c' (by simpa using h1) (by simpa using h2) (by simpa using h3)
      · intro i m' c' h1 h2
        cases i with
        | zero =>
          simp only [List.getElem?_cons_zero, Option.some.injEq] at h1
          subst h1
          rw [List.getElem?_cons_succ, ← List.head?_eq_getElem?, hhead] at h2
          rw [← h2]; exact hc1
        | succ i =>
          have := hch i m' c' (by simpa using h1) (by simpa using h2)
          rw [show j + (i + 1) = j + 1 + i by omega]
          exact this

/-- What the loop over rings does. -/
theorem verifyLoop_spec {B : Backend F E} {proof : RingProof F} {K : PublicKey E} {t₀ : Transcript}
    (l : List (List E × Ciphertext E)) : ∀ {i off : ℕ} {t t' : Transcript},
    verifyLoop B proof K t₀ i off l t = some t' →
    ∃ terms : List (Bytes × Bytes), terms.length = l.length ∧
      t'.log = t.log ++ terms.flatMap (fun p => [.msg "R_G" p.1, .msg "R_K" p.2]) ∧
      ∀ (k : ℕ) values ct, l[k]? = some (values, ct) → ∃ enc m term, ct.toBytes B = some enc ∧
        terms[k]? = some term ∧ B.serElem m.1 = some term.1 ∧ B.serElem m.2 = some term.2 ∧
        verifyRingLoop B K ct (Ring.ringTranscript t₀ enc (i + k)) values.length 0
          (values.zip (proof.ringResponses.drop (off + ((l.take k).map (·.1.length)).sum)))
          proof.commonChallenge (B.gen, B.gen) = some m := by
  induction l with
  | nil =>
    intro i off t t' h
    simp only [verifyLoop, Option.some.injEq] at h
    subst h
    exact ⟨[], rfl, by simp, by simp⟩
  | cons p l ih =>
    obtain ⟨values, ct⟩ := p
    intro i off t t' h
    simp only [verifyLoop, Option.bind_eq_bind, Option.bind_eq_some_iff,
      Backend.appendElement_eq_some] at h
    obtain ⟨enc, henc, -, -, m, hm, t1, ⟨x, hx, rfl⟩, t2, ⟨y, hy, rfl⟩, h⟩ := h
    obtain ⟨terms, hl, hlog, hk⟩ := ih h
    refine ⟨(x, y) :: terms, by simp [hl], ?_, ?_⟩
    · rw [hlog]
      simp [Transcript.appendElementBytes, Transcript.appendMessage]
    · intro k values' ct' hget
      cases k with
      | zero =>
        simp only [List.getElem?_cons_zero, Option.some.injEq, Prod.mk.injEq] at hget
        obtain ⟨rfl, rfl⟩ := hget
        exact ⟨enc, m, (x, y), henc, rfl, hx, hy, by simpa [Ring.ringTranscript] using hm⟩
      | succ k =>
        obtain ⟨enc', m', term', h1, h2, h3, h4, h5⟩ := hk k values' ct' (by simpa using hget)
        refine ⟨enc', m', term', h1, by simpa using h2, h3, h4, ?_⟩
        rw [show i + (k + 1) = i + 1 + k by omega]
        simpa [Nat.add_assoc] using h5

theorem verifyRingLoop_total {B : Backend F E} (hT : B.TotalSer) (K : PublicKey E)
    (ct : Ciphertext E) (t : Transcript) (n : ℕ) (l : List (E × F)) :
    ∀ (j : ℕ) (c : F) (m : E × E), ∃ out, verifyRingLoop B K ct t n j l c m = some out := by
  induction l with
  | nil => intro j c m; exact ⟨m, rfl⟩
  | cons p l ih =>
    obtain ⟨v, s⟩ := p
    intro j c m
    by_cases h : j + 1 < n
    · obtain ⟨c', hc'⟩ := ringChal_total hT t.log j (ringComm B K.element ct v s c)
      rw [verifyRingLoop_cons_lt h, hc', Option.bind_some]
      exact ih _ _ _
    · rw [verifyRingLoop_cons_last h]
      exact ih _ _ _

theorem verifyLoop_total {B : Backend F E} (hT : B.TotalSer) (proof : RingProof F) (K : PublicKey E)
    (t₀ : Transcript) (l : List (List E × Ciphertext E)) : ∀ (i off : ℕ) (t : Transcript),
    off + (l.map (·.1.length)).sum ≤ proof.ringResponses.length →
    ∃ t', verifyLoop B proof K t₀ i off l t = some t' := by
  induction l with
  | nil => intro i off t _; exact ⟨t, rfl⟩
  | cons p l ih =>
    obtain ⟨values, ct⟩ := p
    intro i off t h
    simp only [List.map_cons, List.sum_cons] at h
    obtain ⟨enc, henc⟩ := Ciphertext.toBytes_total hT ct
    obtain ⟨m, hm⟩ := verifyRingLoop_total hT K ct (Ring.ringTranscript t₀ enc i) values.length
      (values.zip (proof.ringResponses.drop off)) 0 proof.commonChallenge (B.gen, B.gen)
    obtain ⟨t1, h1⟩ := Backend.appendElement_total hT t "R_G" m.1
    obtain ⟨t2, h2⟩ := Backend.appendElement_total hT t1 "R_K" m.2
    simp only [Ring.ringTranscript] at hm
    have hg : (guard (off ≤ proof.ringResponses.length) : Option Unit) = some () :=
      guard_eq_some'.mpr (by omega)
    simp only [verifyLoop, henc, hm, h1, h2, hg, Option.bind_eq_bind, Option.bind_some]
    exact ih _ _ _ (by omega)

/-- What `verify` does when lengths agree. -/
theorem verify_eq_some [DecidableEq F] {B : Backend F E} {proof : RingProof F} {K : PublicKey E}
    {values : List (List E)} {cts : List (Ciphertext E)} {t t' : Transcript}
    {r : Except VerificationError Unit}
    (hl : proof.ringResponses.length = (values.map List.length).sum) :
    proof.verify B K values cts t = some (r, t') ↔
      ∃ t1, verifyLoop B proof K (initializeTranscript t K) 0 0 (values.zip cts)
        (initializeTranscript t K) = some t1 ∧ t'.log = t1.log ++ [.chal "c"] ∧
        r = checkChallenge (B.challenge t'.log) proof.commonChallenge := by
  simp only [verify, totalRingsSize, checkLengths_ok.mpr hl, Option.bind_eq_bind,
    Option.bind_eq_some_iff, Option.pure_def, Option.some.injEq, Prod.mk.injEq,
    Backend.challengeScalar]
  constructor
  · rintro ⟨t1, h1, rfl, rfl⟩
    exact ⟨t1, h1, rfl, rfl⟩
  · rintro ⟨t1, h1, h2, rfl⟩
    refine ⟨t1, h1, by rw [h2], ?_⟩
    rw [← h2]

theorem verify_ok_length [DecidableEq F] {B : Backend F E} {proof : RingProof F} {K : PublicKey E}
    {values : List (List E)} {cts : List (Ciphertext E)} {t t' : Transcript}
    (h : proof.verify B K values cts t = some (.ok (), t')) :
    proof.ringResponses.length = (values.map List.length).sum := by
  by_contra hl
  simp [verify, totalRingsSize, checkLengths_ne hl] at h

theorem initializeTranscript_log (t : Transcript) (K : PublicKey E) :
    (initializeTranscript t K).log = t.log ++
      [.msg "dom-sep" (asciiBytes "multi_ring_enc"), .msg "K" K.bytes] := by
  simp [initializeTranscript, Transcript.startProof, Transcript.appendElementBytes,
    Transcript.appendMessage]

theorem ringTranscript_log (t : Transcript) (K : PublicKey E) (enc : Bytes) (i : ℕ) :
    (Ring.ringTranscript (initializeTranscript t K) enc i).log = ringBase t.log K.bytes enc i := by
  simp [initializeTranscript, Transcript.startProof, Transcript.appendElementBytes,
    Transcript.appendMessage, Transcript.appendU64, Ring.ringTranscript, ringBase]

end RingProof

theorem sum_take_le {α : Type} (f : α → ℕ) (l : List α) (k : ℕ) (a : α) (h : l[k]? = some a) :
    ((l.take k).map f).sum + f a ≤ (l.map f).sum := by
  obtain ⟨hk, rfl⟩ := List.getElem?_eq_some_iff.mp h
  conv_rhs => rw [← List.take_append_drop k l, List.drop_eq_getElem_cons hk]
  simp only [List.map_append, List.map_cons, List.sum_append, List.sum_cons]
  omega

end ElasticElgamal
