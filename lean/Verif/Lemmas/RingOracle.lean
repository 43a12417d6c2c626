import Verif.Lemmas.Oracle
import Verif.Lemmas.RingSound
import Verif.Spec.Choice
import Verif.Spec.RingKnowledge
import Mathlib.Data.Nat.Choose.Basic
import Mathlib.Algebra.BigOperators.NatAntidiagonal

/-!
# Lemmas: rings and random hash functions

The verifier of ring proofs as an algorithm that evaluates the hash function (`Spec/RingKnowledge.lean`), and the
cycle argument.
-/

set_option autoImplicit false
set_option linter.unusedSectionVars false

namespace ElasticElgamal

open Spec

variable {F E : Type} [Field F] [AddCommGroup E] [Module F E]

theorem ringAlg_atMost (B : Backend F E) (K : E) (ct : Ciphertext E) (base : List Entry) (l : List (E × F)) :
    ∀ (j : ℕ) (c : F), (ringAlg B K ct base j l c).AtMost (l.length - 1) := by
  induction l with
  | nil => intro j c; exact OracleAlg.atMost_done _ _
  | cons p l ih =>
    intro j c
    cases l with
    | nil => exact OracleAlg.atMost_done _ _
    | cons p' l =>
      obtain ⟨v, s⟩ := p
      rw [ringAlg]
      split
      · intro c'
        have := ih (j + 1) c'
        simpa using this
      · exact OracleAlg.atMost_done _ _

/-- Values `comms` and `cs` that satisfy the verifier's equations are the ones computed by `ringAlg`. -/
theorem ringAlg_chain {B : Backend F E} {H : List Entry → F} {K : E} {ct : Ciphertext E} {base : List Entry}
    (l : List (E × F)) : ∀ {j : ℕ} {c : F} {comms : List (E × E)} {cs : List F},
    comms.length = l.length → cs.length = l.length → cs.head? = some c →
    (∀ (i : ℕ) v s m c', l[i]? = some (v, s) → comms[i]? = some m → cs[i]? = some c' →
      m = ringComm B K ct v s c') →
    (∀ (i : ℕ) m c', comms[i]? = some m → cs[i + 1]? = some c' →
      ∃ x y, B.serElem m.1 = some x ∧ B.serElem m.2 = some y ∧ c' = H (ringQuery base (j + i) x y)) →
    (ringAlg B K ct base j l c).run H = comms.getLast? ∧
    ∀ (i : ℕ) m x y, i + 1 < l.length → comms[i]? = some m → B.serElem m.1 = some x →
      B.serElem m.2 = some y → ringQuery base (j + i) x y ∈ (ringAlg B K ct base j l c).queries H := by
  induction l with
  | nil =>
    intro j c comms cs hl _ _ _ _
    rw [List.length_nil, List.length_eq_zero_iff] at hl
    subst hl
    exact ⟨rfl, by simp⟩
  | cons p l ih =>
    obtain ⟨v, s⟩ := p
    intro j c comms cs hlc hls hhead heq hch
    match comms, cs, hlc, hls with
    | m :: comms, c0 :: cs, hlc, hls =>
    simp only [List.head?_cons, Option.some.injEq] at hhead
    subst hhead
    have hm : m = ringComm B K ct v s c0 := heq 0 v s m c0 rfl rfl rfl
    simp only [List.length_cons, Nat.add_right_cancel_iff] at hlc hls
    cases l with
    | nil =>
      rw [List.length_nil, List.length_eq_zero_iff] at hlc
      subst hlc
      exact ⟨by simp [ringAlg, OracleAlg.run, hm], by simp⟩
    | cons p' l =>
      obtain ⟨m1, comms, rfl⟩ := List.exists_cons_of_length_pos (l := comms) (by rw [hlc]; simp)
      obtain ⟨c1, cs, rfl⟩ := List.exists_cons_of_length_pos (l := cs) (by rw [hls]; simp)
      obtain ⟨x, y, hx, hy, hc1⟩ := hch 0 m c1 rfl rfl
      have hx' := hx
      have hy' := hy
      rw [hm] at hx' hy'
      obtain ⟨h1, h2⟩ := ih (j := j + 1) (c := c1) (comms := m1 :: comms) (cs := c1 :: cs)
        (by simpa using hlc) (by simpa using hls) rfl
        (fun i v' s' m' c' ha hb hc => heq (i + 1) v' s' m' c' (by simpa using ha) (by simpa using hb)
          (by simpa using hc))
        (fun i m' c' ha hb => by
          have := hch (i + 1) m' c' (by simpa using ha) (by simpa using hb)
          rwa [show j + (i + 1) = j + 1 + i by omega] at this)
      rw [Nat.add_zero] at hc1
      rw [ringAlg]
      simp only [hx', hy', OracleAlg.run, OracleAlg.queries, ← hc1]
      refine ⟨by rw [h1]; simp, ?_⟩
      intro i m' x' y' hi hm' hx'' hy''
      cases i with
      | zero =>
        simp only [List.getElem?_cons_zero, Option.some.injEq] at hm'
        subst hm'
        rw [hx] at hx''; rw [hy] at hy''
        cases hx''; cases hy''
        simp
      | succ i =>
        have := h2 i m' x' y' (by simpa using hi) (by simpa using hm') hx'' hy''
        rw [show j + (i + 1) = j + 1 + i by omega]
        exact List.mem_cons_of_mem _ this

theorem ringsAlg_atMost (B : Backend F E) (proof : RingProof F) (K : PublicKey E) (ctx : List Entry)
    (l : List (List E × Ciphertext E)) : ∀ (i off : ℕ),
    (ringsAlg B proof K ctx i off l).AtMost (l.map fun p => p.1.length - 1).sum := by
  induction l with
  | nil => intro i off; exact OracleAlg.atMost_done _ _
  | cons p l ih =>
    obtain ⟨vs, ct⟩ := p
    intro i off
    rw [ringsAlg]
    split
    · exact OracleAlg.atMost_done _ _
    · rw [List.map_cons, List.sum_cons]
      refine OracleAlg.AtMost.bind ((ringAlg_atMost ..).mono (by simp; omega)) fun m => ?_
      split
      · exact OracleAlg.atMost_done _ _
      · split
        · exact (OracleAlg.AtMost.bind (ih _ _) (m := 0) fun _ => OracleAlg.atMost_done _ _)
        · exact OracleAlg.atMost_done _ _

/-- A run of the verifier's loop over rings is a run of `ringsAlg`, and for every ring the hash function is
evaluated at the data of its equations. -/
theorem ringsAlg_spec {B : Backend F E} {H : List Entry → F} {proof : RingProof F} {K : PublicKey E}
    {t₀ : Transcript} (l : List (List E × Ciphertext E)) : ∀ {i off : ℕ} {t t' : Transcript},
    (∀ p ∈ l, p.1 ≠ []) → off + (l.map (·.1.length)).sum ≤ proof.ringResponses.length →
    RingProof.verifyLoop (B.withHash H) proof K (RingProof.initializeTranscript t₀ K) i off l t = some t' →
    ∃ terms, (ringsAlg B proof K t₀.log i off l).run H = some terms ∧ terms.length = l.length ∧
      t'.log = t.log ++ terms.flatMap (fun p => [.msg "R_G" p.1, .msg "R_K" p.2]) ∧
      ∀ (k : ℕ) vs ct enc, l[k]? = some (vs, ct) → ct.toBytes B = some enc →
        ∀ q ∈ (ringAlg B K.element ct (ringBase t₀.log K.bytes enc (i + k)) 0
          (vs.zip (proof.ringResponses.drop (off + ((l.take k).map (·.1.length)).sum)))
          proof.commonChallenge).queries H, q ∈ (ringsAlg B proof K t₀.log i off l).queries H := by
  induction l with
  | nil =>
    intro i off t t' _ _ h
    simp only [RingProof.verifyLoop, Option.some.injEq] at h
    subst h
    exact ⟨[], rfl, rfl, by simp, by simp⟩
  | cons p l ih =>
    obtain ⟨vs, ct⟩ := p
    intro i off t t' hne hle h
    simp only [List.map_cons, List.sum_cons] at hle
    simp only [RingProof.verifyLoop, Option.bind_eq_bind, Option.bind_eq_some_iff,
      Backend.appendElement_eq_some] at h
    obtain ⟨enc, henc, -, -, m, hm, t1, ⟨x, hx, rfl⟩, t2, ⟨y, hy, rfl⟩, h⟩ := h
    change ct.toBytes B = some enc at henc
    change B.serElem _ = _ at hx hy
    obtain ⟨terms, hrun, hl, hlog, hk⟩ := ih (fun p hp => hne p (by simp [hp])) (by omega) h
    have hzl : (vs.zip (proof.ringResponses.drop off)).length = vs.length := by simp; omega
    have hvs : vs ≠ [] := hne (vs, ct) (by simp)
    have hzne : vs.zip (proof.ringResponses.drop off) ≠ [] := by
      intro h0
      rw [h0] at hzl
      exact hvs (List.length_eq_zero_iff.mp hzl.symm)
    obtain ⟨comms, cs, h1, h2, h3, h4, h5, h6⟩ := RingProof.verifyRingLoop_chain (B := B.withHash H)
      (t := Ring.ringTranscript (RingProof.initializeTranscript t₀ K) enc i) _ hzne
      (by rw [hzl, Nat.zero_add]) hm
    obtain ⟨hr1, -⟩ := ringAlg_chain (B := B) (H := H) (K := K.element) (ct := ct)
      (base := ringBase t₀.log K.bytes enc i) (vs.zip (proof.ringResponses.drop off)) (j := 0)
      (c := proof.commonChallenge) h1 h2 h3 h5 (fun i' m' c' ha hb => by
        obtain ⟨x, y, hx, hy, hc⟩ := ringChal_eq_some.mp (h6 i' m' c' ha hb)
        rw [RingProof.ringTranscript_log] at hc
        exact ⟨x, y, hx, hy, hc⟩)
    rw [h4] at hr1
    refine ⟨(x, y) :: terms, ?_, by simp [hl], ?_, ?_⟩
    · rw [ringsAlg]
      simp only [henc, OracleAlg.run_bind, hr1, hx, hy, hrun]
      rfl
    · rw [hlog]
      simp [Transcript.appendElementBytes, Transcript.appendMessage]
    · intro k vs' ct' enc' hget henc' q hq
      rw [ringsAlg]
      simp only [henc, OracleAlg.queries_bind, hr1, hx, hy, List.mem_append]
      cases k with
      | zero =>
        simp only [List.getElem?_cons_zero, Option.some.injEq, Prod.mk.injEq] at hget
        obtain ⟨rfl, rfl⟩ := hget
        rw [henc] at henc'
        cases henc'
        left
        simpa using hq
      | succ k =>
        right; left
        refine hk k vs' ct' enc' (by simpa using hget) henc' q ?_
        rw [show i + (k + 1) = i + 1 + k by omega] at hq
        simpa [Nat.add_assoc] using hq

theorem ringVerifierAlg_atMost (B : Backend F E) (K : PublicKey E) (ctx : List Entry) (values : List (List E))
    (cts : List (Ciphertext E)) (proof : RingProof F) :
    (ringVerifierAlg B K ctx values cts proof).AtMost ((values.map fun vs => vs.length - 1).sum + 1) := by
  have h := ringsAlg_atMost B proof K ctx (values.zip cts) 0 0
  have hle : ((values.zip cts).map fun p => p.1.length - 1).sum ≤ (values.map fun vs => vs.length - 1).sum := by
    have : ∀ (values : List (List E)) (cts : List (Ciphertext E)),
        ((values.zip cts).map fun p => p.1.length - 1).sum ≤ (values.map fun vs => vs.length - 1).sum := by
      intro values
      induction values with
      | nil => simp
      | cons vs values ih =>
        intro cts
        cases cts with
        | nil => simp
        | cons ct cts => simpa using ih cts
    exact this _ _
  refine OracleAlg.AtMost.bind (h.mono hle) fun terms => ?_
  split
  · exact OracleAlg.atMost_done _ _
  · exact fun _ => OracleAlg.atMost_done _ _

/-! ## Injectivity of hashed data -/

theorem leBytes_inj {k a b : ℕ} (ha : a < 256 ^ k) (hb : b < 256 ^ k) (h : leBytes k a = leBytes k b) :
    a = b := by
  induction k generalizing a b with
  | zero => simp at ha hb; omega
  | succ k ih =>
    simp only [leBytes, List.cons.injEq] at h
    have h1 := congrArg UInt8.toNat h.1
    simp only [UInt8.toNat_ofNat'] at h1
    have h2 := ih (a := a / 256) (b := b / 256) (by rw [pow_succ] at ha; omega)
      (by rw [pow_succ] at hb; omega) h.2
    omega

theorem ringQuery_inj {ctx : List Entry} {k enc enc' x y x' y' : Bytes} {i i' j j' : ℕ}
    (hi : i < 2 ^ 64) (hi' : i' < 2 ^ 64) (hj : j < 2 ^ 64) (hj' : j' < 2 ^ 64)
    (h : ringQuery (ringBase ctx k enc i) j x y = ringQuery (ringBase ctx k enc' i') j' x' y') :
    enc = enc' ∧ i = i' ∧ j = j' ∧ x = x' ∧ y = y' := by
  simp only [ringQuery, ringBase, List.append_assoc, List.append_cancel_left_eq, List.cons_append,
    List.nil_append, List.cons.injEq, Entry.msg.injEq, true_and, and_true] at h
  obtain ⟨h1, h2, h3, h4, h5⟩ := h
  exact ⟨h1, leBytes_inj (by norm_num at *; omega) (by norm_num at *; omega) h2,
    leBytes_inj (by norm_num at *; omega) (by norm_num at *; omega) h3, h4, h5⟩

theorem commonQuery_inj {ctx : List Entry} {k : Bytes} {terms terms' : List (Bytes × Bytes)}
    (h : commonQuery ctx k terms = commonQuery ctx k terms') : terms = terms' := by
  simp only [commonQuery, List.append_cancel_right_eq, List.append_cancel_left_eq] at h
  induction terms generalizing terms' with
  | nil => cases terms' <;> simp_all
  | cons p terms ih =>
    cases terms' with
    | nil => simp at h
    | cons p' terms' =>
      simp only [List.flatMap_cons, List.cons_append, List.nil_append, List.cons.injEq, Entry.msg.injEq,
        true_and] at h
      rw [ih h.2.2, Prod.ext h.1 h.2.1]

theorem ringQuery_ne_commonQuery {ctx : List Entry} {k enc x y : Bytes} {i j : ℕ}
    {terms : List (Bytes × Bytes)} :
    ringQuery (ringBase ctx k enc i) j x y ≠ commonQuery ctx k terms := by
  intro h
  simp only [ringQuery, ringBase, commonQuery, List.append_assoc, List.append_cancel_left_eq,
    List.cons_append, List.nil_append, List.cons.injEq, true_and] at h
  cases terms <;> simp at h

theorem Ciphertext.toBytes_inj {B : Backend F E} (hB : B.Lawful) {ct ct' : Ciphertext E} {enc : Bytes}
    (h : ct.toBytes B = some enc) (h' : ct'.toBytes B = some enc) : ct = ct' := by
  simp only [Ciphertext.toBytes, Option.bind_eq_bind, Option.bind_eq_some_iff, Option.pure_def,
    Option.some.injEq] at h h'
  obtain ⟨a, ha, b, hb, rfl⟩ := h
  obtain ⟨a', ha', b', hb', he⟩ := h'
  obtain ⟨rfl, rfl⟩ := List.append_inj he
    (by rw [hB.serElem_length _ _ ha, hB.serElem_length _ _ ha'])
  have h1 := hB.deElem_serElem _ _ ha
  rw [hB.deElem_serElem _ _ ha'] at h1
  have h2 := hB.deElem_serElem _ _ hb
  rw [hB.deElem_serElem _ _ hb'] at h2
  obtain ⟨r, b⟩ := ct
  obtain ⟨r', b'⟩ := ct'
  simp_all

/-! ## The cycle argument -/

/-- `c` as the hash value of `q` is the only challenge that can be answered in the equation whose commitments
are hashed in `q'`. -/
def RingTarget (B : Backend F E) (K : PublicKey E) (ctx : List Entry) (values : List (List E))
    (q' q : List Entry) (c : F) : Prop :=
  ∃ (i : ℕ) (vs : List E) (ct : Ciphertext E) (enc : Bytes) (j : ℕ) (v : E) (m : E × E) (x y : Bytes),
    values[i]? = some vs ∧ ct.toBytes B = some enc ∧ vs[j]? = some v ∧
    B.serElem m.1 = some x ∧ B.serElem m.2 = some y ∧
    Forgeable B K.element (ct.random, ct.blinded - v) m c ∧
    ((j + 1 < vs.length ∧ q' = ringQuery (ringBase ctx K.bytes enc i) j x y) ∨
      (j + 1 = vs.length ∧ ∃ terms, q' = commonQuery ctx K.bytes terms ∧ terms[i]? = some (x, y))) ∧
    ((j = 0 ∧ ∃ terms, q = commonQuery ctx K.bytes terms) ∨
      ∃ j' x' y', j = j' + 1 ∧ q = ringQuery (ringBase ctx K.bytes enc i) j' x' y')

theorem RingTarget.unique {B : Backend F E} (hB : B.Lawful) {K : PublicKey E} {ctx : List Entry}
    {values : List (List E)} (hn : values.length ≤ 2 ^ 64) (hsize : ∀ vs ∈ values, 2 ≤ vs.length ∧ vs.length ≤ 2 ^ 64)
    {q' q : List Entry} {c c' : F} (h : RingTarget B K ctx values q' q c)
    (h' : RingTarget B K ctx values q' q c') : c = c' := by
  obtain ⟨i, vs, ct, enc, j, v, m, x, y, hvs, hct, hv, hx, hy, hf, hq', hq⟩ := h
  obtain ⟨i₂, vs₂, ct₂, enc₂, j₂, v₂, m₂, x₂, y₂, hvs₂, hct₂, hv₂, hx₂, hy₂, hf₂, hq'₂, hq₂⟩ := h'
  have hi : i < 2 ^ 64 := lt_of_lt_of_le (List.getElem?_eq_some_iff.mp hvs).1 hn
  have hi₂ : i₂ < 2 ^ 64 := lt_of_lt_of_le (List.getElem?_eq_some_iff.mp hvs₂).1 hn
  have hs := hsize vs (List.mem_of_getElem? hvs)
  have hs₂ := hsize vs₂ (List.mem_of_getElem? hvs₂)
  have hj : j < 2 ^ 64 := lt_of_lt_of_le (List.getElem?_eq_some_iff.mp hv).1 hs.2
  have hj₂ : j₂ < 2 ^ 64 := lt_of_lt_of_le (List.getElem?_eq_some_iff.mp hv₂).1 hs₂.2
  -- it suffices to identify ring, equation, ciphertext and commitments
  have main : enc = enc₂ → i = i₂ → j = j₂ → x = x₂ → y = y₂ → c = c' := by
    rintro rfl rfl rfl rfl rfl
    have := Ciphertext.toBytes_inj hB hct hct₂
    subst this
    rw [hvs] at hvs₂; cases hvs₂
    rw [hv] at hv₂; cases hv₂
    have h1 := hB.deElem_serElem _ _ hx
    rw [hB.deElem_serElem _ _ hx₂] at h1
    have h2 := hB.deElem_serElem _ _ hy
    rw [hB.deElem_serElem _ _ hy₂] at h2
    have : m = m₂ := Prod.ext (by simpa using h1.symm) (by simpa using h2.symm)
    subst this
    exact hf.unique hf₂
  rcases hq' with ⟨-, hq'⟩ | ⟨hjn, terms, hq', ht⟩
  · rcases hq'₂ with ⟨-, hq'₂⟩ | ⟨-, terms₂, hq'₂, -⟩
    · obtain ⟨h1, h2, h3, h4, h5⟩ := ringQuery_inj hi hi₂ hj hj₂ (hq'.symm.trans hq'₂)
      exact main h1 h2 h3 h4 h5
    · exact absurd (hq'.symm.trans hq'₂) ringQuery_ne_commonQuery
  · rcases hq'₂ with ⟨-, hq'₂⟩ | ⟨hjn₂, terms₂, hq'₂, ht₂⟩
    · exact absurd (hq'₂.symm.trans hq') ringQuery_ne_commonQuery
    · rcases hq with ⟨h0, -⟩ | ⟨j1, x1, y1, hj1, hq⟩
      · omega
      rcases hq₂ with ⟨h0, -⟩ | ⟨j2, x2, y2, hj2, hq₂⟩
      · omega
      obtain ⟨h1, h2, h3, -, -⟩ := ringQuery_inj hi hi₂ (by omega) (by omega) (hq.symm.trans hq₂)
      have := commonQuery_inj (hq'.symm.trans hq'₂)
      subst this
      subst h2
      rw [ht] at ht₂
      cases ht₂
      exact main h1 rfl (by omega) rfl rfl

/-- A forged ring is a cycle of queries, each of which is answered by what the next one requires. -/
theorem ringForged_hit [DecidableEq F] {B : Backend F E} {K : PublicKey E} {ctx : List Entry}
    {values : List (List E)} (hn : values.length ≤ 2 ^ 64)
    (hsize : ∀ vs ∈ values, 2 ≤ vs.length ∧ vs.length ≤ 2 ^ 64)
    {cts : List (Ciphertext E)} {proof : RingProof F} {H : List Entry → F}
    (h : SomeRingForged (B.withHash H) ctx K values cts proof) :
    ∃ S : List Entry → Prop, (∃ q, S q) ∧
      (∀ q, S q → ∃ q', S q' ∧ q' ≠ q ∧ RingTarget B K ctx values q' q (H q)) ∧
      ∀ q, S q → q ∈ (ringVerifierAlg B K ctx values cts proof).queries H := by
  obtain ⟨i, vs, ct, enc, terms, last, hvs, hct, henc, hver, hterm, comms, cs, hlr, hlc, hls, heq, hhead,
    hch, m, hlast, hm1, hm2⟩ := h
  change ct.toBytes B = some enc at henc
  change B.serElem _ = _ at hm1 hm2
  have hl := RingProof.verify_ok_length hver
  obtain ⟨t1, hloop, hlog, hc⟩ := (RingProof.verify_eq_some hl).mp hver
  have hc := checkChallenge_ok.mp hc.symm
  change H _ = _ at hc
  dsimp only at hlog hc
  have hsz := hsize vs (List.mem_of_getElem? hvs)
  have hzsum : ((values.zip cts).map (·.1.length)).sum ≤ (values.map List.length).sum := by
    have : ∀ (values : List (List E)) (cts : List (Ciphertext E)),
        ((values.zip cts).map (·.1.length)).sum ≤ (values.map List.length).sum := by
      intro values
      induction values with
      | nil => simp
      | cons vs values ih =>
        intro cts
        cases cts with
        | nil => simp
        | cons ct cts => simpa using ih cts
    exact this _ _
  obtain ⟨terms', hrun, hlt, hlog1, hk⟩ := ringsAlg_spec (B := B) (H := H) (t₀ := ⟨ctx⟩) (values.zip cts)
    (fun p hp => by
      have := (hsize p.1 (List.of_mem_zip hp).1).1
      intro h0; rw [h0] at this; simp at this) (by omega) hloop
  have hterms : terms = terms' := by
    apply commonQuery_inj (ctx := ctx) (k := K.bytes)
    rw [hlog, hlog1, RingProof.initializeTranscript_log, commonQuery]
  subst hterms
  have hzip : (values.zip cts)[i]? = some (vs, ct) := by
    rw [List.getElem?_zip_eq_some]; exact ⟨hvs, hct⟩
  have hk := hk i vs ct enc hzip henc
  have hoff : (((values.zip cts).take i).map (·.1.length)).sum = ((values.take i).map List.length).sum := by
    have h2 : (((values.zip cts).take i).map (·.1.length)) =
        ((values.take i).map List.length) := by
      have hil : i < cts.length := (List.getElem?_eq_some_iff.mp hct).1
      have hiv : i < values.length := (List.getElem?_eq_some_iff.mp hvs).1
      rw [List.zip, List.take_zipWith, ← List.zip, show (fun x : List E × Ciphertext E => x.1.length) =
        List.length ∘ Prod.fst from rfl, ← List.map_map, List.map_fst_zip (by simp; omega)]
    rw [h2]
  rw [hoff, Nat.zero_add, Nat.zero_add] at hk
  have hle := sum_take_le List.length values i vs hvs
  set off := ((values.take i).map List.length).sum with hoffdef
  have hzl : (vs.zip (proof.ringResponses.drop off)).length = vs.length := by simp; omega
  have hget : ∀ (j : ℕ) v s, (vs.zip (proof.ringResponses.drop off))[j]? = some (v, s) →
      vs[j]? = some v ∧ (responsesOf values proof.ringResponses i vs.length)[j]? = some s := by
    intro j v s h
    rw [List.getElem?_zip_eq_some] at h
    refine ⟨h.1, ?_⟩
    rw [responsesOf, ← hoffdef, List.getElem?_take_of_lt (List.getElem?_eq_some_iff.mp h.1).1]
    exact h.2
  obtain ⟨-, hq⟩ := ringAlg_chain (B := B) (H := H) (K := K.element) (ct := ct)
      (base := ringBase ctx K.bytes enc i) (vs.zip (proof.ringResponses.drop off)) (j := 0)
      (c := proof.commonChallenge) (comms := comms) (cs := cs) (by rw [hzl, hlc]) (by rw [hzl, hls])
      (by rw [hhead]; exact congrArg some hc)
      (fun j v s m c ha hb hd => by
        obtain ⟨h1, h2⟩ := hget j v s ha
        exact (heq j v s m c h1 h2 hb hd).2)
      (fun j m c ha hb => by rw [Nat.zero_add]; exact hch j m c ha hb)
  rw [hzl] at hq
  simp only [Nat.zero_add] at hq
  -- forgeability for every equation
  have hforge : ∀ (j : ℕ), j < vs.length → ∃ v mj cj, vs[j]? = some v ∧ comms[j]? = some mj ∧
      cs[j]? = some cj ∧ Forgeable B K.element (ct.random, ct.blinded - v) mj cj := by
    intro j hj
    have e1 : vs[j]? = some vs[j] := by simp [hj]
    have e2 : comms[j]? = some (comms[j]'(by omega)) := by simp
    have e3 : cs[j]? = some (cs[j]'(by omega)) := by simp
    have e4 : (responsesOf values proof.ringResponses i vs.length)[j]? =
      some ((responsesOf values proof.ringResponses i vs.length)[j]'(by omega)) := by simp
    exact ⟨_, _, _, e1, e2, e3, (heq j _ _ _ _ e1 e4 e2 e3).1⟩
  have hser : ∀ (j : ℕ) mj, j + 1 < vs.length → comms[j]? = some mj →
      ∃ x y cj, B.serElem mj.1 = some x ∧ B.serElem mj.2 = some y ∧ cs[j + 1]? = some cj ∧
        cj = H (ringQuery (ringBase ctx K.bytes enc i) j x y) := by
    intro j mj hj hmj
    have e3 : cs[j + 1]? = some (cs[j + 1]'(by omega)) := by simp
    obtain ⟨x, y, h1, h2, h3⟩ := hch j mj _ hmj e3
    exact ⟨x, y, _, h1, h2, e3, h3⟩
  have hlast' : comms[vs.length - 1]? = some m := by
    rw [← hlast, List.getLast?_eq_getElem?, hlc]
  let S : List Entry → Prop := fun q => q = commonQuery ctx K.bytes terms ∨
    ∃ j mj x y, j + 1 < vs.length ∧ comms[j]? = some mj ∧ B.serElem mj.1 = some x ∧
      B.serElem mj.2 = some y ∧ q = ringQuery (ringBase ctx K.bytes enc i) j x y
  refine ⟨S, ⟨_, .inl rfl⟩, ?_, ?_⟩
  · rintro q (rfl | ⟨j, mj, x, y, hj, hmj, hx, hy, rfl⟩)
    · -- the common challenge is used in equation 0
      obtain ⟨v, m0, c0, e1, e2, e3, hf⟩ := hforge 0 (by omega)
      obtain ⟨x, y, c1, hx, hy, -, -⟩ := hser 0 m0 (by omega) e2
      have hc0 : c0 = H (commonQuery ctx K.bytes terms) := by
        rw [← List.head?_eq_getElem?, hhead] at e3
        exact (Option.some.inj e3).symm
      refine ⟨ringQuery (ringBase ctx K.bytes enc i) 0 x y,
        .inr ⟨0, m0, x, y, by omega, e2, hx, hy, rfl⟩, ringQuery_ne_commonQuery,
        i, vs, ct, enc, 0, v, m0, x, y, hvs, henc, e1, hx, hy, hc0 ▸ hf, .inl ⟨by omega, rfl⟩,
        .inl ⟨rfl, terms, rfl⟩⟩
    · obtain ⟨x', y', c1, hx', hy', hc1, hc1'⟩ := hser j mj hj hmj
      rw [hx] at hx'; rw [hy] at hy'
      cases hx'; cases hy'
      obtain ⟨v, m1, c1', e1, e2, e3, hf⟩ := hforge (j + 1) hj
      rw [hc1] at e3; cases e3
      by_cases hjl : j + 1 + 1 < vs.length
      · obtain ⟨x1, y1, c2, hx1, hy1, -, -⟩ := hser (j + 1) m1 hjl e2
        refine ⟨ringQuery (ringBase ctx K.bytes enc i) (j + 1) x1 y1,
          .inr ⟨j + 1, m1, x1, y1, hjl, e2, hx1, hy1, rfl⟩, ?_,
          i, vs, ct, enc, j + 1, v, m1, x1, y1, hvs, henc, e1, hx1, hy1, hc1' ▸ hf, .inl ⟨hjl, rfl⟩,
          .inr ⟨j, x, y, rfl, rfl⟩⟩
        intro he
        have hi : i < 2 ^ 64 := lt_of_lt_of_le (List.getElem?_eq_some_iff.mp hvs).1 hn
        have := (ringQuery_inj hi hi (by omega) (by omega) he).2.2.1
        omega
      · have hjm : m1 = m := by
          rw [show vs.length - 1 = j + 1 by omega, e2] at hlast'
          exact Option.some.inj hlast'
        subst hjm
        refine ⟨commonQuery ctx K.bytes terms, .inl rfl, Ne.symm ringQuery_ne_commonQuery,
          i, vs, ct, enc, j + 1, v, m1, last.1, last.2, hvs, henc, e1, hm1, hm2, hc1' ▸ hf,
          .inr ⟨by omega, terms, rfl, hterm⟩, .inr ⟨j, x, y, rfl, rfl⟩⟩
  · rintro q (rfl | ⟨j, mj, x, y, hj, hmj, hx, hy, rfl⟩)
    · rw [ringVerifierAlg, OracleAlg.queries_bind, hrun]
      simp [OracleAlg.queries]
    · rw [ringVerifierAlg, OracleAlg.queries_bind, List.mem_append]
      left
      exact hk _ (hq j mj x y hj hmj hx hy)

/-- The probability that an algorithm with `n` evaluations of the hash function forges a ring. -/
theorem probLe_ringForged [DecidableEq F] [Fintype F] {α : Type} {B : Backend F E} (hB : B.Lawful)
    (K : PublicKey E) (ctx : List Entry) (values : List (List E)) (hn : values.length ≤ 2 ^ 64)
    (hsize : ∀ vs ∈ values, 2 ≤ vs.length ∧ vs.length ≤ 2 ^ 64)
    (adv : OracleAlg (List Entry) F α) {n : ℕ} (hadv : adv.AtMost n)
    (out : α → Option (List (Ciphertext E) × RingProof F)) :
    ProbLe (fun H => ∃ cts proof, out (adv.run H) = some (cts, proof) ∧
        SomeRingForged (B.withHash H) ctx K values cts proof)
      (((n + (values.map fun vs => vs.length - 1).sum + 1).choose 2 : ℕ) / Fintype.card F) := by
  let f : α → OracleAlg (List Entry) F Unit := fun a =>
    match out a with
    | none => .done ()
    | some (cts, proof) => ringVerifierAlg B K ctx values cts proof
  have hf : ∀ a, (f a).AtMost ((values.map fun vs => vs.length - 1).sum + 1) := by
    intro a
    simp only [f]
    split
    · exact OracleAlg.atMost_done _ _
    · exact ringVerifierAlg_atMost ..
  have h := probLe_of_hit
    (P := fun H => ∃ cts proof, out (adv.run H) = some (cts, proof) ∧
        SomeRingForged (B.withHash H) ctx K values cts proof)
    (fun hist q => {c | ∃ q' ∈ hist, RingTarget B K ctx values q' q c}) (fun i => i) (fun hist q => ?_)
    (adv.bind f) (hadv.bind hf) (fun H hH => ?_)
  · rw [Finset.sum_range_id, ← Nat.choose_two_right] at h
    exact h
  · -- at most one bad answer per earlier query
    classical
    have : {c : F | ∃ q' ∈ hist, RingTarget B K ctx values q' q c} ⊆
        (hist.toFinset.biUnion fun q' => Finset.univ.filter fun c => RingTarget B K ctx values q' q c :
          Finset F) := by
      rintro c ⟨q', h1, h2⟩
      simp only [Finset.coe_biUnion, Set.mem_iUnion, Finset.mem_coe, List.mem_toFinset,
        Finset.mem_filter, Finset.mem_univ, true_and]
      exact ⟨q', h1, h2⟩
    refine (Set.ncard_le_ncard this (Finset.finite_toSet _)).trans ?_
    rw [Set.ncard_coe_finset]
    refine (Finset.card_biUnion_le_card_mul _ _ 1 fun q' _ => ?_).trans ?_
    · refine Finset.card_le_one.mpr fun c hc c' hc' => ?_
      simp only [Finset.mem_filter, Finset.mem_univ, true_and] at hc hc'
      exact hc.unique hB hn hsize hc'
    · rw [mul_one]; exact List.toFinset_card_le hist
  · obtain ⟨cts, proof, ho, hforged⟩ := hH
    obtain ⟨S, hS, hnext, hmem⟩ := ringForged_hit hn hsize hforged
    refine OracleAlg.hit_of_cycle S hnext _ (fun q hq => .inl ?_) (by obtain ⟨q, hq⟩ := hS; exact ⟨q, hq, by simp⟩)
    rw [OracleAlg.queries_bind, List.mem_append]
    right
    simp only [f, ho]
    exact hmem q hq

end ElasticElgamal
