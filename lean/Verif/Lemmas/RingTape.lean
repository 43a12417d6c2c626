import Verif.Lemmas.RingSound

/-!
# Lemmas about ring proofs: the prover's randomness as a function of the proof
-/

set_option autoImplicit false
set_option linter.unusedSectionVars false

namespace ElasticElgamal

open Spec

variable {F E : Type} [Field F] [AddCommGroup E] [Module F E]

/-- The challenge after a list of equations, starting with challenge `c` at equation `j`. -/
def ringFold (B : Backend F E) (K : E) (ct : Ciphertext E) (base : List Entry) :
    ℕ → List (E × F) → F → Option F
  | _, [], c => some c
  | j, (v, s) :: l, c =>
    (ringChal B base j (ringComm B K ct v s c)).bind fun c' => ringFold B K ct base (j + 1) l c'

namespace Ring

variable {B : Backend F E} {K : PublicKey E} {ct : Ciphertext E} {t : Transcript}

/-- `Ring::new` loop on a tape: existence. -/
theorem newLoop_tape (vs : List E) : ∀ {n j : ℕ} {ss rest rs : List F} {v₀ : E} {s₀ c₀ : F}
    {m₀ m' : E × E}, ss.length = vs.length → j + 1 + vs.length = n → n ≤ rs.length →
    RingProof.verifyRingLoop B K ct t n j ((v₀, s₀) :: vs.zip ss) c₀ m₀ = some m' →
    ∃ rs', newLoop B.withTape K.element ct t (j + 1) vs (ringComm B K.element ct v₀ s₀ c₀) rs
      (ss ++ rest) = some (m', rs', rest) := by
  induction vs with
  | nil =>
    intro n j ss rest rs v₀ s₀ c₀ m₀ m' hl hn hr h
    have : ss = [] := List.length_eq_zero_iff.mp hl
    subst this
    rw [RingProof.verifyRingLoop_cons_last (by simp at hn; omega)] at h
    simp only [List.zip_nil_left, RingProof.verifyRingLoop, Option.some.injEq] at h
    subst h
    exact ⟨rs, rfl⟩
  | cons v vs ih =>
    intro n j ss rest rs v₀ s₀ c₀ m₀ m' hl hn hr h
    cases ss with
    | nil => simp at hl
    | cons s ss =>
      simp only [List.length_cons, Nat.add_right_cancel_iff] at hl hn
      rw [RingProof.verifyRingLoop_cons_lt (by omega), Option.bind_eq_some_iff] at h
      obtain ⟨c1, hc1, h⟩ := h
      have hc1' : ringChal B.withTape t.log j (ringComm B K.element ct v₀ s₀ c₀) = some c1 := hc1
      rw [newLoop_cons, hc1', Option.bind_some, setAt_of_lt _ (by omega), Option.bind_some]
      exact ih (n := n) (j := j + 1) (m₀ := ringComm B K.element ct v₀ s₀ c₀) hl (by omega)
        (by simp; omega) h

/-- `Ring::finalize` loop on a tape: existence. -/
theorem finalizeLoop_tape (vs : List E) : ∀ {n j : ℕ} {ss rest rs : List F} {v : E} {s : F}
    {l : List (E × F)} {c : F} {m₀ m' : E × E}, ss.length = vs.length → j + vs.length < n →
    j + vs.length ≤ rs.length →
    RingProof.verifyRingLoop B K ct t n j (vs.zip ss ++ (v, s) :: l) c m₀ = some m' →
    ∃ c' m₁, finalizeLoop B.withTape K.element ct t j vs c rs (ss ++ rest) =
        some (c', rs.take j ++ ss ++ rs.drop (j + vs.length), rest) ∧
      ringFold B K.element ct t.log j (vs.zip ss) c = some c' ∧
      RingProof.verifyRingLoop B K ct t n (j + vs.length) ((v, s) :: l) c' m₁ = some m' := by
  induction vs with
  | nil =>
    intro n j ss rest rs v s l c m₀ m' hl hn hr h
    have : ss = [] := List.length_eq_zero_iff.mp hl
    subst this
    exact ⟨c, m₀, by simp [finalizeLoop], by simp [ringFold], by simpa using h⟩
  | cons v₁ vs ih =>
    intro n j ss rest rs v s l c m₀ m' hl hn hr h
    cases ss with
    | nil => simp at hl
    | cons s₁ ss =>
      simp only [List.length_cons, Nat.add_right_cancel_iff] at hl hn hr
      rw [List.zip_cons_cons, List.cons_append, RingProof.verifyRingLoop_cons_lt (by omega),
        Option.bind_eq_some_iff] at h
      obtain ⟨c1, hc1, h⟩ := h
      obtain ⟨c', m₁, h1, h2, h3⟩ := ih (rest := rest) (rs := rs.set j s₁) hl (by omega)
        (by simp; omega) h
      have hj : j + 1 + vs.length = j + (v₁ :: vs).length := by simp; omega
      refine ⟨c', m₁, ?_, ?_, ?_⟩
      · have hc1' : ringChal B.withTape t.log j (ringComm B.withTape K.element ct v₁
          (B.withTape.genScalar (s₁ :: ss ++ rest)).1 c) = some c1 := hc1
        rw [finalizeLoop_cons, setAt_of_lt _ (by omega), Option.bind_some, hc1', Option.bind_some]
        have : finalizeLoop B.withTape K.element ct t (j + 1) vs c1 (rs.set j s₁) (ss ++ rest) = _ := h1
        refine this.trans ?_
        rw [hj, List.drop_set_of_lt (by simp)]
        rw [List.take_succ_eq_append_getElem (by simp; omega)]
        simp [List.take_set, List.set_eq_of_length_le]
      · simp only [List.zip_cons_cons, ringFold, hc1, Option.bind_some, h2]
      · rw [hj] at h3; exact h3

/-- `Ring::new` loop on a tape: the tape is determined by the responses. -/
theorem newLoop_tape_inv (vs : List E) : ∀ {j : ℕ} {m : E × E} {rs tape : List F} {m' : E × E}
    {rs' rest : List F}, newLoop B.withTape K.element ct t (j + 1) vs m rs tape = some (m', rs', rest) →
    vs.length ≤ tape.length → rs.length = j + 1 + vs.length →
    tape = rs'.drop (j + 1) ++ rest ∧ rs'.take (j + 1) = rs.take (j + 1) := by
  induction vs with
  | nil =>
    intro j m rs tape m' rs' rest h _ hr
    simp only [newLoop, Option.some.injEq, Prod.mk.injEq] at h
    obtain ⟨rfl, rfl, rfl⟩ := h
    rw [List.drop_eq_nil_of_le (by simpa using hr.le)]
    exact ⟨rfl, rfl⟩
  | cons v vs ih =>
    intro j m rs tape m' rs' rest h hl hr
    cases tape with
    | nil => simp at hl
    | cons s tape =>
      rw [newLoop_cons] at h
      simp only [Option.bind_eq_some_iff, setAt_eq_some] at h
      obtain ⟨c, -, rs1, ⟨hlt, rfl⟩, h⟩ := h
      simp only [List.length_cons, Nat.add_le_add_iff_right] at hl hr
      obtain ⟨h1, h2⟩ := ih (j := j + 1) (tape := tape) h hl (by simp; omega)
      have e : rs'.take (j + 1) = rs.take (j + 1) := by
        have := congrArg (List.take (j + 1)) h2
        simp only [List.take_take] at this
        rw [Nat.min_eq_left (by omega), List.take_set, List.set_eq_of_length_le (by simp)] at this
        exact this
      refine ⟨?_, e⟩
      have hlen : j + 1 < rs'.length := by
        have := congrArg List.length h2
        simp only [List.length_take, List.length_set] at this
        omega
      have e2 : rs'[j + 1] = s := by
        have := congrArg (fun l => l[j + 1]?) h2
        simp only [List.getElem?_take_of_lt (Nat.lt_succ_self _)] at this
        rw [List.getElem?_eq_getElem hlen, List.getElem?_set_self hlt] at this
        exact Option.some.inj this
      rw [List.drop_eq_getElem_cons hlen, e2, h1]
      rfl

/-- `Ring::finalize` loop on a tape: tape and final challenge are determined by the responses. -/
theorem finalizeLoop_tape_inv (vs : List E) : ∀ {j : ℕ} {c : F} {rs tape : List F} {c' : F}
    {rs' rest : List F}, finalizeLoop B.withTape K.element ct t j vs c rs tape = some (c', rs', rest) →
    vs.length ≤ tape.length →
    tape = (rs'.drop j).take vs.length ++ rest ∧ rs'.take j = rs.take j ∧
      rs'.drop (j + vs.length) = rs.drop (j + vs.length) ∧ rs'.length = rs.length ∧
      ringFold B K.element ct t.log j (vs.zip ((rs'.drop j).take vs.length)) c = some c' := by
  induction vs with
  | nil =>
    intro j c rs tape c' rs' rest h _
    simp only [finalizeLoop, Option.some.injEq, Prod.mk.injEq] at h
    obtain ⟨rfl, rfl, rfl⟩ := h
    simp [ringFold]
  | cons v vs ih =>
    intro j c rs tape c' rs' rest h hl
    cases tape with
    | nil => simp at hl
    | cons s tape =>
      rw [finalizeLoop_cons] at h
      simp only [Option.bind_eq_some_iff, setAt_eq_some] at h
      obtain ⟨rs1, ⟨hlt, rfl⟩, c1, hc1, h⟩ := h
      simp only [List.length_cons, Nat.add_le_add_iff_right] at hl
      obtain ⟨h1, h2, h3, h4, h5⟩ := ih (tape := tape) h hl
      simp only [List.length_set] at h4
      have e : rs'.take j = rs.take j := by
        have := congrArg (List.take j) h2
        simp only [List.take_take] at this
        rw [Nat.min_eq_left (by omega), List.take_set, List.set_eq_of_length_le (by simp)] at this
        exact this
      have e2 : rs'[j]'(by omega) = s := by
        have := congrArg (fun l => l[j]?) h2
        simp only [List.getElem?_take_of_lt (Nat.lt_succ_self _)] at this
        rw [List.getElem?_eq_getElem (by omega), List.getElem?_set_self hlt] at this
        exact Option.some.inj this
      have hj : j + 1 + vs.length = j + (v :: vs).length := by simp; omega
      have hd : rs'.drop j = s :: rs'.drop (j + 1) := by
        rw [List.drop_eq_getElem_cons (by omega), e2]
      refine ⟨?_, e, ?_, h4, ?_⟩
      · rw [hd, List.length_cons, List.take_succ_cons, h1]; rfl
      · rw [← hj, h3, List.drop_set_of_lt (by omega)]
      · rw [hd, List.length_cons, List.take_succ_cons, List.zip_cons_cons, ringFold]
        have hc1' : ringChal B t.log j (ringComm B K.element ct v s c) = some c1 := hc1
        rw [hc1', Option.bind_some, h5]

/-- The nonce of a ring, reconstructed from its responses and the common challenge. -/
def nonce (B : Backend F E) (K : PublicKey E) (ct : ExtendedCiphertext F E) (base : List Entry)
    (values : List E) (idx : ℕ) (rs : List F) (c : F) : F :=
  rs[idx]?.getD 0 - (ringFold B K.element ct.inner base 0
    ((values.take idx).zip (rs.take idx)) c).getD 0 * ct.randomScalar

/-- A verified ring is what the prover outputs on the reconstructed tape. -/
theorem new_finalize_tape [DecidableEq E] [DecidableEq F] {i idx : ℕ} {ext : ExtendedCiphertext F E}
    {values : List E} {v : E} (hv : values[idx]? = some v)
    (h1 : ext.inner.random = ext.randomScalar • B.gen)
    (h2 : ext.inner.blinded = v + ext.randomScalar • K.element) {enc : Bytes}
    (henc : ext.inner.toBytes B = some enc) {rs : List F} (hl : rs.length = values.length) {c : F}
    {m₀ m : E × E}
    (hver : RingProof.verifyRingLoop B K ext.inner (ringTranscript t enc i) values.length 0
      (values.zip rs) c m₀ = some m) (rest : List F) :
    ∃ ring, Ring.new B.withTape i K.element ext values idx t (List.replicate values.length 0)
        (nonce B K ext (ringTranscript t enc i).log values idx rs c :: rs.drop (idx + 1) ++ rest)
          = some (ring, rest) ∧ ring.terminalCommitments = m ∧ ring.index = i ∧
      ∀ rest', ring.finalize B.withTape K.element c (rs.take idx ++ rest') = some (rs, rest') := by
  obtain ⟨hidx, hv'⟩ := List.getElem?_eq_some_iff.mp hv
  have hne : values ≠ [] := by rintro rfl; simp at hidx
  have hvals : values = values.take idx ++ v :: values.drop (idx + 1) := by
    rw [← hv', ← List.drop_eq_getElem_cons hidx, List.take_append_drop]
  have hidx' : idx < rs.length := by omega
  have hrs : rs = rs.take idx ++ rs[idx] :: rs.drop (idx + 1) := by
    rw [← List.drop_eq_getElem_cons hidx', List.take_append_drop]
  have htl : (values.take idx).length = idx := by simp; omega
  have htl' : (rs.take idx).length = idx := by simp; omega
  have hz : values.zip rs = (values.take idx).zip (rs.take idx) ++
      (v, rs[idx]) :: (values.drop (idx + 1)).zip (rs.drop (idx + 1)) := by
    conv_lhs => rw [hvals, hrs]
    rw [List.zip_append (by omega), List.zip_cons_cons]
  rw [hz] at hver
  -- the part before the known equation
  have hfin := fun (rs0 : List F) (h0 : rs0.length = values.length) (rest' : List F) =>
    finalizeLoop_tape (B := B) (K := K) (ct := ext.inner) (t := ringTranscript t enc i)
      (values.take idx) (rest := rest') (rs := rs0) (by omega) (by omega) (by omega) hver
  obtain ⟨c', m₁, -, hfold, hver2⟩ := hfin rs hl []
  rw [htl, Nat.zero_add] at hver2
  set x := nonce B K ext (ringTranscript t enc i).log values idx rs c with hx
  have hx' : rs[idx] = c' * ext.randomScalar + x := by
    rw [hx, nonce, hfold, List.getElem?_eq_getElem hidx']
    simp
  have hcomm : ringComm B K.element ext.inner v rs[idx] c' =
      (B.withTape.mulGen (SecretKey.generate B.withTape (x :: rs.drop (idx + 1) ++ rest)).1,
       (SecretKey.generate B.withTape (x :: rs.drop (idx + 1) ++ rest)).1 • K.element) := by
    simp only [ringComm, h1, h2, SecretKey.generate, Backend.mulGen, List.cons_append,
      List.headD_cons, hx', Prod.mk.injEq]
    constructor <;> module
  obtain ⟨rs1, hnew⟩ := newLoop_tape (rest := rest) (rs := List.replicate values.length (0 : F))
    (values.drop (idx + 1)) (by simp; omega) (by simp; omega) (by simp) hver2
  rw [hcomm] at hnew
  have hinv := newLoop_tape_inv _ hnew (by simp; omega) (by simp; omega)
  have hrs1 := newLoop_spec (n := values.length) _ hnew (by simp; omega)
  obtain ⟨ss, hss, -, hrs1, -⟩ := hrs1
  have hrs1l : rs1.length = values.length := by
    rw [hrs1]; simp [hss]; omega
  have hd1 : rs1.drop (idx + 1) = rs.drop (idx + 1) := by
    have := hinv.1
    exact (List.append_cancel_right this).symm
  have hp : rs1[idx]? = some 0 := by
    have := congrArg (fun l => l[idx]?) hinv.2
    simp only [List.getElem?_take_of_lt (Nat.lt_succ_self _)] at this
    rw [this]
    simp [hidx]
  refine ⟨{ index := i, valueIndex := idx, admissibleValues := values, ciphertext := ext.inner,
            transcript := ringTranscript t enc i,
            responses := rs1, terminalCommitments := m,
            discreteLog := ext.randomScalar, randomScalar := x }, ?_, rfl, rfl, ?_⟩
  · have henc' : ext.inner.toBytes B.withTape = some enc := henc
    simp only [ringTranscript] at hnew
    have htail : (SecretKey.generate B.withTape (x :: rs.drop (idx + 1) ++ rest)).2 =
      rs.drop (idx + 1) ++ rest := rfl
    simp only [Ring.new, Option.bind_eq_bind, guard, hne, hidx, ne_eq, not_false_eq_true, if_true,
      Option.pure_def, Option.bind_some, hv, henc',
      Backend.debugAssert_of (show (List.replicate values.length (0 : F)).length = values.length by
        simp),
      Backend.debugAssert_of (show ext.randomScalar • K.element + v = ext.inner.blinded by
        rw [h2, add_comm]), htail, hnew]
    rfl
  · intro rest'
    obtain ⟨c2, -, hf, hfold2, -⟩ := hfin rs1 hrs1l rest'
    rw [hfold] at hfold2
    obtain rfl := Option.some.inj hfold2
    rw [htl] at hf
    simp only [List.take_zero, List.nil_append, Nat.zero_add] at hf
    have hp2 : (rs.take idx ++ rs1.drop idx)[idx]? = some 0 := by
      rw [List.getElem?_append_right (by omega), htl', Nat.sub_self, List.getElem?_drop]
      simpa using hp
    have hlt : idx < (rs.take idx ++ rs1.drop idx).length := (List.getElem?_eq_some_iff.mp hp2).1
    simp only [Ring.finalize, hf, Option.bind_eq_bind, Option.bind_some, hp2]
    rw [Backend.debugAssert_of (by simp), Option.bind_some, setAt_of_lt _ hlt, Option.bind_some]
    simp only [Option.pure_def, Option.some.injEq, Prod.mk.injEq, and_true]
    rw [List.set_append_right _ _ (by omega), htl', Nat.sub_self,
      List.drop_eq_getElem_cons (by omega), List.set_cons_zero, hd1]
    conv_rhs => rw [hrs, hx']

/-- The prover's tape is determined by its output. -/
theorem new_tape_inv [DecidableEq E] {i idx : ℕ} {ext : ExtendedCiphertext F E} {values : List E}
    {rs0 tape rest : List F} (hl : rs0.length = values.length) {ring : Ring F E}
    (h : Ring.new B.withTape i K.element ext values idx t rs0 tape = some (ring, rest))
    (htape : values.length - idx ≤ tape.length) :
    tape = ring.randomScalar :: ring.responses.drop (idx + 1) ++ rest ∧
      ring.responses.length = values.length ∧ ring.valueIndex = idx ∧ ring.admissibleValues = values ∧
      ring.ciphertext = ext.inner ∧ ring.discreteLog = ext.randomScalar ∧ idx < values.length ∧
      ∃ enc, ext.inner.toBytes B = some enc ∧ ring.transcript = ringTranscript t enc i := by
  simp only [Ring.new, Option.bind_eq_bind, Option.bind_eq_some_iff, Option.pure_def,
    Option.some.injEq, Prod.mk.injEq, Prod.exists, guard_eq_some'] at h
  obtain ⟨-, -, -, hidx, -, -, v', hv', -, -, enc, henc, m1, m2, rs', rng1, hloop, rfl, rfl⟩ := h
  cases tape with
  | nil => simp at htape; omega
  | cons x tape =>
    simp only [List.length_cons] at htape
    obtain ⟨ss, hss, -, hrs', -⟩ := newLoop_spec (n := values.length) _ hloop (by simp; omega)
    obtain ⟨h1, h2⟩ := newLoop_tape_inv (tape := tape) _ hloop (by simp; omega) (by simp; omega)
    refine ⟨?_, ?_, rfl, rfl, rfl, rfl, hidx, enc, henc, rfl⟩
    · rw [h1]; rfl
    · simp only [hrs']; simp [hss]; omega

theorem finalize_tape_inv [DecidableEq F] {ring : Ring F E} {values : List E} {idx : ℕ}
    (h1 : ring.admissibleValues = values) (h2 : ring.valueIndex = idx) (hidx : idx < values.length)
    (hl : ring.responses.length = values.length) {c : F} {tape rs rest : List F}
    (h : ring.finalize B.withTape K.element c tape = some (rs, rest)) (htape : idx ≤ tape.length) :
    tape = rs.take idx ++ rest ∧ rs.length = values.length ∧
      rs.drop (idx + 1) = ring.responses.drop (idx + 1) ∧
      ring.randomScalar = rs[idx]?.getD 0 - (ringFold B K.element ring.ciphertext ring.transcript.log 0
        ((values.take idx).zip (rs.take idx)) c).getD 0 * ring.discreteLog := by
  subst h1 h2
  simp only [Ring.finalize, Option.bind_eq_bind, Option.bind_eq_some_iff, Option.pure_def,
    Option.some.injEq, Prod.mk.injEq, Prod.exists, setAt_eq_some] at h
  obtain ⟨c', rs', rng1, hloop, p, hp, -, -, rs2, ⟨hlt, rfl⟩, rfl, rfl⟩ := h
  have htl : (ring.admissibleValues.take ring.valueIndex).length = ring.valueIndex := by
    simp; omega
  obtain ⟨e1, -, e3, e4, e5⟩ := finalizeLoop_tape_inv _ hloop (by omega)
  rw [htl] at e1 e3 e5
  rw [List.drop_zero] at e1 e5
  rw [Nat.zero_add] at e3
  have ht : (rs'.set ring.valueIndex (c' * ring.discreteLog + ring.randomScalar)).take
      ring.valueIndex = rs'.take ring.valueIndex := by
    rw [List.take_set, List.set_eq_of_length_le (by simp)]
  refine ⟨?_, by simp; omega, ?_, ?_⟩
  · rw [ht]; exact e1
  · rw [List.drop_set_of_lt (by omega)]
    have := congrArg (List.drop 1) e3
    simpa [List.drop_drop] using this
  · rw [ht, e5, List.getElem?_set_self hlt]
    simp

end Ring

/-- The randomness consumed while adding rings, reconstructed from the responses. -/
def ringTape₁ (B : Backend F E) (K : PublicKey E) (t : Transcript) (c : F) :
    ℕ → List (RingInput F E) → List F → List F
  | _, [], _ => []
  | i, r :: l, rs =>
    (if r.fresh then [r.ct.randomScalar] else []) ++
    Ring.nonce B K r.ct (Ring.ringTranscript t ((r.ct.inner.toBytes B).getD []) i).log r.values r.index
        (rs.take r.values.length) c ::
      (rs.take r.values.length).drop (r.index + 1) ++
      ringTape₁ B K t c (i + 1) l (rs.drop r.values.length)

/-- The randomness consumed while finalizing rings. -/
def ringTape₂ : List (RingInput F E) → List F → List F
  | [], _ => []
  | r :: l, rs => (rs.take r.values.length).take r.index ++ ringTape₂ l (rs.drop r.values.length)

theorem ringTape_length (B : Backend F E) (K : PublicKey E) (t : Transcript) (c : F)
    (l : List (RingInput F E)) : ∀ {i : ℕ} {rs : List F}, (∀ r ∈ l, r.index < r.values.length) →
    rs.length = (l.map (·.values.length)).sum →
    (ringTape₁ B K t c i l rs).length + (ringTape₂ l rs).length =
      (l.map (·.draws)).sum := by
  induction l with
  | nil => intro i rs _ _; rfl
  | cons r l ih =>
    intro i rs hi hl
    simp only [List.map_cons, List.sum_cons] at hl
    have := ih (i := i + 1) (rs := rs.drop r.values.length) (fun r hr => hi r (by simp [hr]))
      (by simp; omega)
    have hr := hi r (by simp)
    simp only [ringTape₁, ringTape₂, List.map_cons, List.sum_cons, List.length_append,
      List.length_cons, List.length_drop, List.length_take, RingInput.draws] at this ⊢
    have : (if r.fresh then [r.ct.randomScalar] else []).length = if r.fresh then 1 else 0 := by
      split <;> rfl
    omega

/-- The rings verify with terminal commitments `ms`. -/
def RingsVerified (B : Backend F E) (K : PublicKey E) (t : Transcript) (c : F) :
    ℕ → List (RingInput F E) → List F → List (E × E) → Prop
  | _, [], rs, [] => rs = []
  | i, r :: l, rs, m :: ms => r.values.length ≤ rs.length ∧
      (∃ enc, r.ct.inner.toBytes B = some enc ∧
        RingProof.verifyRingLoop B K r.ct.inner (Ring.ringTranscript t enc i) r.values.length 0
          (r.values.zip (rs.take r.values.length)) c (B.gen, B.gen) = some m) ∧
      RingsVerified B K t c (i + 1) l (rs.drop r.values.length) ms
  | _, _, _, _ => False

/-- Append terminal commitments. -/
def appendComms (B : Backend F E) : List (E × E) → Transcript → Option Transcript
  | [], t => some t
  | m :: ms, t => do
    let t ← B.appendElement t "R_G" m.1
    let t ← B.appendElement t "R_K" m.2
    appendComms B ms t

theorem appendComms_withTape (B : Backend F E) (ms : List (E × E)) (t : Transcript) :
    appendComms B.withTape ms t = appendComms B ms t := by
  induction ms generalizing t with
  | nil => rfl
  | cons m ms ih => simp only [appendComms, ih]; rfl

theorem appendTerminal_eq (B : Backend F E) (rings : List (Ring F E)) (t : Transcript) :
    Ring.appendTerminal B rings t = appendComms B (rings.map (·.terminalCommitments)) t := by
  induction rings generalizing t with
  | nil => rfl
  | cons r rings ih => simp only [Ring.appendTerminal, List.map_cons, appendComms, ih]

theorem zip_take_left {α β : Type} (l : List α) (l' : List β) :
    l.zip (l'.take l.length) = l.zip l' := by
  induction l generalizing l' with
  | nil => simp
  | cons a l ih => cases l' <;> simp [ih]

theorem RingProof.verifyLoop_verified {B : Backend F E} {proof : RingProof F} {K : PublicKey E}
    {t₀ : Transcript} (l : List (RingInput F E)) : ∀ {i off : ℕ} {t t' : Transcript},
    proof.ringResponses.length = off + (l.map (·.values.length)).sum →
    verifyLoop B proof K t₀ i off (l.map fun r => (r.values, r.ct.inner)) t = some t' →
    ∃ ms, RingsVerified B K t₀ proof.commonChallenge i l (proof.ringResponses.drop off) ms ∧
      appendComms B ms t = some t' := by
  induction l with
  | nil =>
    intro i off t t' hl h
    simp only [List.map_nil, verifyLoop, Option.some.injEq] at h
    subst h
    refine ⟨[], ?_, rfl⟩
    simp only [List.map_nil, List.sum_nil] at hl
    exact List.drop_eq_nil_of_le (by omega)
  | cons r l ih =>
    intro i off t t' hl h
    simp only [List.map_cons, List.sum_cons] at hl
    simp only [List.map_cons, verifyLoop, Option.bind_eq_bind, Option.bind_eq_some_iff] at h
    obtain ⟨enc, henc, -, -, m, hm, t1, h1, t2, h2, h⟩ := h
    obtain ⟨ms, hv, ha⟩ := ih (by omega) h
    refine ⟨m :: ms, ⟨by simp; omega, ⟨enc, henc, ?_⟩, ?_⟩, ?_⟩
    · rw [zip_take_left]; exact hm
    · rw [List.drop_drop]; exact hv
    · simp only [appendComms, h1, h2, Option.bind_eq_bind, Option.bind_some, ha]

variable [DecidableEq E]

/-- Existence: running the prover on the reconstructed tape. -/
theorem runRingSteps_tape [DecidableEq F] {B : Backend F E} {K : PublicKey E} {t : Transcript} {c : F}
    (l : List (RingInput F E)) : ∀ {rs rest : List F} {ms : List (E × E)}
    {b : RingProofBuilder B.withTape},
    (∀ r ∈ l, r.Honest B K.element) →
    RingsVerified B K t c b.rings.length l rs ms → b.receiver = K → b.transcript = t →
    b.ringResponses = List.replicate (l.map (·.values.length)).sum 0 →
    b.rng = ringTape₁ B K t c b.rings.length l rs ++ rest →
    ∃ rings, runRingSteps B.withTape (l.map (·.step)) b =
        some (l.map (·.ct.inner), { b with rings := b.rings ++ rings, ringResponses := [], rng := rest }) ∧
      rings.map (·.terminalCommitments) = ms ∧
      rings.map (·.index) = List.range' b.rings.length l.length ∧
      ∀ rest', Ring.finalizeAll B.withTape K.element c rings (ringTape₂ l rs ++ rest') =
        some (rs, rest') := by
  induction l with
  | nil =>
    intro rs rest ms b _ hv hK ht hbuf hrng
    cases ms with
    | nil =>
      simp only [RingsVerified] at hv
      subst hv
      refine ⟨[], ?_, rfl, rfl, fun rest' => rfl⟩
      obtain ⟨receiver, transcript, rings, buf, rng⟩ := b
      simp only [List.map_nil, List.sum_nil, List.replicate_zero] at hbuf
      simp only [ringTape₁, List.nil_append] at hrng
      subst hbuf hrng
      simp [runRingSteps]
    | cons m ms => exact hv.elim
  | cons r l ih =>
    intro rs rest ms b hs hv hK ht hbuf hrng
    cases ms with
    | nil => exact hv.elim
    | cons m ms =>
      obtain ⟨hle, ⟨enc, henc, hver⟩, hv'⟩ := hv
      obtain ⟨v, hval, h1, h2⟩ := hs r (by simp)
      obtain ⟨ring, hnew, hterm, hidx, hfin⟩ := Ring.new_finalize_tape (t := t) hval h1 h2 henc
        (by simp; omega) hver
        (ringTape₁ B K t c (b.rings.length + 1) l (rs.drop r.values.length) ++ rest)
      obtain ⟨rings, hrun, hms, hind, hall⟩ := ih (rs := rs.drop r.values.length) (rest := rest)
        (ms := ms)
        (b := { b with
          rings := b.rings ++ [ring]
          ringResponses := List.replicate (l.map (·.values.length)).sum 0
          rng := ringTape₁ B K t c (b.rings.length + 1) l (rs.drop r.values.length) ++ rest })
        (fun r hr => hs r (by simp [hr])) (by simpa using hv') hK ht rfl (by simp)
      refine ⟨ring :: rings, ?_, by simp [hterm, hms], ?_, ?_⟩
      · obtain ⟨receiver, transcript, rings0, buf, rng⟩ := b
        dsimp only at hK ht hbuf hrng hnew hrun hle ⊢
        subst hK ht hbuf
        have hrng' : rng = (if r.fresh then [r.ct.randomScalar] else []) ++ Ring.nonce B receiver r.ct
            (Ring.ringTranscript transcript enc rings0.length).log r.values r.index
              (rs.take r.values.length) c :: (rs.take r.values.length).drop (r.index + 1) ++
            (ringTape₁ B receiver transcript c (rings0.length + 1) l (rs.drop r.values.length) ++
              rest) := by
          rw [hrng]
          simp only [ringTape₁, henc, Option.getD_some, List.append_assoc]
        have hg : (guard (r.values.length ≤ (List.replicate
            ((r :: l).map (·.values.length)).sum (0 : F)).length) : Option Unit) = some () :=
          guard_eq_some'.mpr (by simp)
        have htake : List.take r.values.length (List.replicate
            ((r :: l).map (·.values.length)).sum (0 : F)) = List.replicate r.values.length 0 := by
          simp
        have hdrop : List.drop r.values.length (List.replicate
            ((r :: l).map (·.values.length)).sum (0 : F)) =
            List.replicate (l.map (·.values.length)).sum 0 := by
          simp
        rw [List.map_cons] at hg htake hdrop
        have hstep : runRingStep B.withTape r.step (⟨receiver, transcript, rings0, List.replicate
            (r.values.length :: l.map (·.values.length)).sum 0, rng⟩ : RingProofBuilder B.withTape) =
            some (r.ct, ⟨receiver, transcript, rings0 ++ [ring],
              List.replicate (l.map (·.values.length)).sum 0,
              ringTape₁ B receiver transcript c (rings0.length + 1) l (rs.drop r.values.length) ++
                rest⟩) := by
          by_cases hfr : r.fresh = true
          · rw [if_pos hfr, List.singleton_append] at hrng'
            simp only [runRingStep, RingInput.step, if_pos hfr, RingProofBuilder.addValue, hval,
              RingProofBuilder.addPrecomputedValue, Option.bind_eq_bind, Option.pure_def,
              Option.bind_some]
            have hext : ExtendedCiphertext.new B.withTape v receiver rng = (r.ct, rng.tail) := by
              obtain ⟨⟨⟨c1, c2⟩, c3⟩, vals, ind, fr⟩ := r
              simp only at h1 h2
              subst h1 h2
              rw [hrng']
              rfl
            have htl : rng.tail = Ring.nonce B receiver r.ct
                (Ring.ringTranscript transcript enc rings0.length).log r.values r.index
                  (rs.take r.values.length) c :: (rs.take r.values.length).drop (r.index + 1) ++
                (ringTape₁ B receiver transcript c (rings0.length + 1) l (rs.drop r.values.length) ++
                  rest) := by rw [hrng']; rfl
            simp only [hext, htl]
            rw [hg, htake, hdrop, Option.bind_some, hnew]
            simp only [Option.bind_some]
          · rw [if_neg hfr, List.nil_append] at hrng'
            simp only [runRingStep, RingInput.step, if_neg hfr,
              RingProofBuilder.addPrecomputedValue, Option.bind_eq_bind, Option.pure_def]
            rw [hg, htake, hdrop, hrng', Option.bind_some, hnew]
            simp only [Option.bind_some, Option.map_some]
        simp only [List.map_cons, runRingSteps, Option.bind_eq_bind, Option.pure_def]
        rw [hstep]
        simp only [Option.bind_some]
        rw [hrun]
        simp
      · simp only [List.map_cons, hidx, hind, List.length_append, List.length_cons, List.length_nil,
          List.range'_succ]
      · intro rest'
        simp only [Ring.finalizeAll, ringTape₂, List.append_assoc, hfin, Option.bind_eq_bind,
          Option.bind_some, hall, Option.pure_def, List.take_append_drop]

/-- Number of scalars read when the ring is added. -/
def preDraws (r : RingInput F E) : ℕ := (r.values.length - r.index) + if r.fresh then 1 else 0

/-- Uniqueness: the tape is determined by the output. -/
theorem runRingSteps_tape_inv [DecidableEq F] {B : Backend F E} (hgen : B.gen ≠ 0) {K : PublicKey E}
    {t : Transcript}
    (l : List (RingInput F E)) : ∀ {b b' : RingProofBuilder B.withTape}
    {tape : List F}, (∀ r ∈ l, r.Honest B K.element) → b.rng = tape →
    runRingSteps B.withTape (l.map (·.step)) b = some (l.map (·.ct.inner), b') → b.receiver = K →
    b.transcript = t →
    b.ringResponses.length = (l.map (·.values.length)).sum →
    (l.map preDraws).sum ≤ tape.length →
    tape.length = (l.map preDraws).sum + List.length (α := F) b'.rng ∧
    (l.map preDraws).sum + (l.map (·.index)).sum =
      (l.map (·.draws)).sum ∧ b'.ringResponses = [] ∧ b'.receiver = K ∧ b'.transcript = t ∧
    ∃ rings, b'.rings = b.rings ++ rings ∧
      ∀ (c : F) (tape' rs rest : List F), (l.map (·.index)).sum ≤ tape'.length →
        Ring.finalizeAll B.withTape K.element c rings tape' = some (rs, rest) →
        tape' = ringTape₂ l rs ++ rest ∧ tape = ringTape₁ B K t c b.rings.length l rs ++ b'.rng := by
  induction l with
  | nil =>
    intro b b' tape _ hr h hK ht hbuf _
    simp only [List.map_nil, runRingSteps, Option.some.injEq, Prod.mk.injEq] at h
    obtain ⟨-, rfl⟩ := h
    refine ⟨by simp [← hr], by simp, List.length_eq_zero_iff.mp (by simpa using hbuf), hK, ht, [],
      by simp, ?_⟩
    intro c tape' rs rest _ hf
    simp only [Ring.finalizeAll, Option.some.injEq, Prod.mk.injEq] at hf
    obtain ⟨rfl, rfl⟩ := hf
    exact ⟨rfl, hr.symm⟩
  | cons r l ih =>
    intro b b' tape hs hr h hK ht hbuf hlen
    simp only [List.map_cons, List.sum_cons] at hbuf hlen
    simp only [List.map_cons, runRingSteps, Option.bind_eq_bind, Option.bind_eq_some_iff,
      Option.pure_def, Option.some.injEq, Prod.mk.injEq, Prod.exists, List.cons.injEq] at h
    obtain ⟨ct, b1, hstep, cts', b3, hrun, ⟨hcteq, rfl⟩, rfl⟩ := h
    obtain ⟨v, hval, h1, h2⟩ := hs r (by simp)
    -- the ciphertext is `r.ct`, and the first scalar its randomness for fresh rings
    obtain ⟨tape1, htape1, ring, rng1, hnew, rfl⟩ : ∃ tape1,
        tape = (if r.fresh then [r.ct.randomScalar] else []) ++ tape1 ∧ ∃ ring rng1,
        Ring.new B.withTape b.rings.length K.element r.ct r.values r.index t
          (b.ringResponses.take r.values.length) tape1 = some (ring, rng1) ∧
        b1 = ⟨b.receiver, b.transcript, b.rings ++ [ring],
          b.ringResponses.drop r.values.length, rng1⟩ := by
      by_cases hfr : r.fresh = true
      · simp only [runRingStep, RingInput.step, if_pos hfr, RingProofBuilder.addValue, hval,
          RingProofBuilder.addPrecomputedValue, Option.bind_eq_bind, Option.pure_def,
          Option.bind_some, Option.bind_eq_some_iff, Option.some.injEq, Prod.mk.injEq, Prod.exists,
          guard_eq_some'] at hstep
        obtain ⟨b2, ⟨-, -, ring, rng1, hnew, rfl⟩, rfl, rfl⟩ := hstep
        cases htp : tape with
        | nil =>
          rw [htp] at hlen
          simp only [preDraws, if_pos hfr, List.length_nil] at hlen
          omega
        | cons x xs =>
          have hrng : b.rng = x :: xs := hr.trans htp
          have hx : x = r.ct.randomScalar := by
            have := congrArg Ciphertext.random hcteq
            rw [h1, hrng] at this
            change x • B.gen = _ at this
            exact smul_left_injective F hgen this
          have hext : ExtendedCiphertext.new B.withTape v K b.rng = (r.ct, xs) := by
            rw [hrng, hx]
            obtain ⟨⟨⟨c1, c2⟩, c3⟩, vals, ind, fr⟩ := r
            simp only at h1 h2
            subst h1 h2
            rfl
          rw [hK, ht, hext] at hnew
          refine ⟨xs, by simp [if_pos hfr, hx], ring, rng1, hnew, rfl⟩
      · simp only [runRingStep, RingInput.step, if_neg hfr,
          RingProofBuilder.addPrecomputedValue, Option.bind_eq_bind, Option.pure_def,
          Option.map_eq_some_iff, Option.bind_eq_some_iff, Option.some.injEq, Prod.mk.injEq,
          Prod.exists, guard_eq_some'] at hstep
        obtain ⟨b2, ⟨-, -, ring, rng1, hnew, rfl⟩, rfl, rfl⟩ := hstep
        rw [hK, ht, hr] at hnew
        exact ⟨tape, by simp [if_neg hfr], ring, rng1, hnew, rfl⟩
    have hplen : (if r.fresh then [r.ct.randomScalar] else []).length =
        if r.fresh then 1 else 0 := by split <;> rfl
    have htl0 := congrArg List.length htape1
    rw [List.length_append, hplen] at htl0
    simp only [preDraws] at hlen
    obtain ⟨htape, hrl, hvi, hav, hct, hdl, hidx, enc, henc, htr⟩ :=
      Ring.new_tape_inv (by simp; omega) hnew (by omega)
    have htl := congrArg List.length htape
    simp only [List.length_append, List.length_cons, List.length_drop, hrl] at htl
    obtain ⟨i1, i2, i3, i4, i5, rings, i6, i7⟩ := ih (tape := rng1)
      (fun r hr => hs r (by simp [hr])) rfl hrun hK ht (by simp; omega) (by
        have : (l.map preDraws).sum = (l.map fun r : RingInput F E =>
          r.values.length - r.index + if r.fresh = true then 1 else 0).sum := rfl
        omega)
    refine ⟨?_, ?_, i3, i4, i5, ring :: rings, by simp [i6], ?_⟩
    · simp only [List.map_cons, List.sum_cons]; rw [preDraws]; omega
    · simp only [List.map_cons, List.sum_cons]
      rw [preDraws, RingInput.draws]; omega
    · intro c tape' rs rest hl' hf
      simp only [List.map_cons, List.sum_cons] at hl'
      simp only [Ring.finalizeAll, Option.bind_eq_bind, Option.bind_eq_some_iff, Option.pure_def,
        Option.some.injEq, Prod.mk.injEq, Prod.exists] at hf
      obtain ⟨rs1, rng2, hf1, rs2, rng3, hf2, rfl, rfl⟩ := hf
      obtain ⟨f1, f2, f3, f4⟩ := Ring.finalize_tape_inv hav hvi hidx hrl hf1 (by omega)
      have hrl2 : tape'.length = r.index + rng2.length := by
        have := congrArg List.length f1
        simp only [List.length_append, List.length_take, f2] at this
        omega
      obtain ⟨j1, j2⟩ := i7 c rng2 rs2 rng3 (by omega) hf2
      have e1 : (rs1 ++ rs2).take r.values.length = rs1 := by
        rw [← f2, List.take_left]
      have e2 : (rs1 ++ rs2).drop r.values.length = rs2 := by
        rw [← f2, List.drop_left]
      constructor
      · rw [ringTape₂, e1, e2, f1, j1, List.append_assoc]
      · rw [ringTape₁, e1, e2, henc, Option.getD_some, Ring.nonce, ← htr, ← hdl, ← hct, ← f4, f3]
        simp only [List.length_append, List.length_cons, List.length_nil, Nat.zero_add] at j2
        rw [htape1, htape, j2]
        simp [hdl]

end ElasticElgamal
