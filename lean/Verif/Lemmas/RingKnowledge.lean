import Verif.Lemmas.PairForking
import Verif.Lemmas.RingOracle
import Mathlib.Algebra.BigOperators.Fin

/-!
# Lemmas: extraction from provers of ring proofs
-/

set_option autoImplicit false
set_option linter.unusedSectionVars false

namespace ElasticElgamal

open Spec

/-- Among elements of a list there is one all others occur before. -/
theorem exists_last {Q : Type} [DecidableEq Q] (L : List Q) : ∀ S : Q → Prop, (∃ q, S q) → (∀ q, S q → q ∈ L) →
    ∃ q, S q ∧ ∀ q', S q' → q' ≠ q → q' ∈ L.takeWhile (· ≠ q) := by
  induction L with
  | nil =>
    rintro S ⟨q, hq⟩ hS
    exact absurd (hS q hq) (by simp)
  | cons a L ih =>
    rintro S ⟨q₀, hq₀⟩ hS
    by_cases h : ∃ q, S q ∧ q ≠ a
    · obtain ⟨q, ⟨hq, hqa⟩, hl⟩ := ih (fun q => S q ∧ q ≠ a) h fun q hq =>
        (List.mem_cons.mp (hS q hq.1)).resolve_left hq.2
      refine ⟨q, hq, fun q' hq' hne => ?_⟩
      rw [List.takeWhile_cons_of_pos (by simpa using Ne.symm hqa)]
      by_cases ha : q' = a
      · rw [ha]; exact List.mem_cons_self
      · exact List.mem_cons_of_mem _ (hl q' ⟨hq', ha⟩ hne)
    · push Not at h
      refine ⟨q₀, hq₀, fun q' hq' hne => absurd ?_ hne⟩
      rw [h q' hq', h q₀ hq₀]

theorem zip_take_length {α β : Type} (l : List α) : ∀ l' : List β, l.zip (l'.take l.length) = l.zip l' := by
  induction l with
  | nil => simp
  | cons a l ih =>
    intro l'
    cases l' with
    | nil => simp
    | cons b l' => simp [ih]

variable {F E : Type} [Field F] [AddCommGroup E] [Module F E]

/-- Challenges that satisfy the verifier's equations are the ones of `ringEquations`. -/
theorem ringEquations_chain {B : Backend F E} {H : List Entry → F} {K : E} {ct : Ciphertext E} {base : List Entry}
    (l : List (E × F)) : ∀ {j : ℕ} {c : F} {comms : List (E × E)} {cs : List F},
    comms.length = l.length → cs.length = l.length → cs.head? = some c →
    (∀ (i : ℕ) v s m c', l[i]? = some (v, s) → comms[i]? = some m → cs[i]? = some c' →
      m = ringComm B K ct v s c') →
    (∀ (i : ℕ) m c', comms[i]? = some m → cs[i + 1]? = some c' →
      ∃ x y, B.serElem m.1 = some x ∧ B.serElem m.2 = some y ∧ c' = H (ringQuery base (j + i) x y)) →
    ∀ (i : ℕ) v s c', l[i]? = some (v, s) → cs[i]? = some c' →
      (ringEquations (B.withHash H) K ct base j l c)[i]? = some (v, s, c') := by
  induction l with
  | nil => intro j c comms cs _ _ _ _ _ i v s c' h; simp at h
  | cons p l ih =>
    obtain ⟨v, s⟩ := p
    intro j c comms cs hlc hls hhead heq hch i v' s' c' hi hc
    match comms, cs, hlc, hls with
    | m :: comms, c0 :: cs, hlc, hls =>
    simp only [List.head?_cons, Option.some.injEq] at hhead
    subst hhead
    have hm : m = ringComm B K ct v s c0 := heq 0 v s m c0 rfl rfl rfl
    simp only [List.length_cons, Nat.add_right_cancel_iff] at hlc hls
    cases i with
    | zero =>
      simp only [List.getElem?_cons_zero, Option.some.injEq, Prod.mk.injEq] at hi hc
      obtain ⟨rfl, rfl⟩ := hi
      subst hc
      simp [ringEquations]
    | succ i =>
      simp only [List.getElem?_cons_succ] at hi hc
      have hil : i < l.length := (List.getElem?_eq_some_iff.mp hi).1
      obtain ⟨m1, comms, rfl⟩ := List.exists_cons_of_length_pos (l := comms) (by omega)
      obtain ⟨c1, cs, rfl⟩ := List.exists_cons_of_length_pos (l := cs) (by omega)
      obtain ⟨x, y, hx, hy, hc1⟩ := hch 0 m c1 rfl rfl
      rw [hm] at hx hy
      rw [Nat.add_zero] at hc1
      have := ih (j := j + 1) (c := c1) (comms := m1 :: comms) (cs := c1 :: cs) hlc hls rfl
        (fun i v' s' m' c' ha hb hc => heq (i + 1) v' s' m' c' (by simpa using ha) (by simpa using hb)
          (by simpa using hc))
        (fun i m' c' ha hb => by
          have := hch (i + 1) m' c' (by simpa using ha) (by simpa using hb)
          rwa [show j + (i + 1) = j + 1 + i by omega] at this) i v' s' c' hi hc
      rw [ringEquations, List.getElem?_cons_succ]
      change (match B.serElem (ringComm B K ct v s c0).1, B.serElem (ringComm B K ct v s c0).2 with
        | some x, some y => ringEquations (B.withHash H) K ct base (j + 1) l (H (ringQuery base j x y))
        | _, _ => [])[i]? = _
      rw [hx, hy]
      simp only
      rw [← hc1]
      exact this

theorem ringEquations_mem {B : Backend F E} {K : E} {ct : Ciphertext E} {base : List Entry} (l : List (E × F)) :
    ∀ {j : ℕ} {c : F} {p : E × F × F}, p ∈ ringEquations B K ct base j l c → p.1 ∈ l.map Prod.fst := by
  induction l with
  | nil => intro j c p h; simp [ringEquations] at h
  | cons q l ih =>
    obtain ⟨v, s⟩ := q
    intro j c p h
    rw [ringEquations, List.mem_cons] at h
    rcases h with rfl | h
    · simp
    · split at h
      · rw [List.map_cons]; exact List.mem_cons_of_mem _ (ih h)
      · simp at h

theorem proofEquations_mem {B : Backend F E} {K : PublicKey E} {ctx : List Entry} {values : List (List E)} {i : ℕ}
    {ct : Ciphertext E} {proof : RingProof F} {vs : List E} (hvs : values[i]? = some vs) {p : E × F × F}
    (h : p ∈ proofEquations B K ctx values i ct proof) : p.1 ∈ vs := by
  rw [proofEquations, hvs] at h
  split at h
  · rename_i h1 _
    cases h1
    have := ringEquations_mem _ h
    obtain ⟨q, hq, hqp⟩ := List.mem_map.mp this
    rw [← hqp]
    exact (List.of_mem_zip hq).1
  · simp at h

/-- The computed opening is correct. -/
theorem ringOpening_correct [DecidableEq F] [DecidableEq E] {B : Backend F E} {K : E} {ct : Ciphertext E}
    {eqs eqs' : List (E × F × F)} {v : E} {r : F} (h : ringOpening B K ct eqs eqs' = some (v, r)) :
    ct = ⟨r • B.gen, v + r • K⟩ ∧ ∃ p ∈ eqs, p.1 = v := by
  rw [ringOpening, Option.map_eq_some_iff] at h
  obtain ⟨⟨⟨v₁, s, c⟩, v', s', c'⟩, hf, he⟩ := h
  simp only [Prod.mk.injEq] at he
  obtain ⟨rfl, rfl⟩ := he
  have hp := List.find?_some hf
  have hmem := List.mem_of_find?_eq_some hf
  simp only [ne_eq, decide_eq_true_eq] at hp
  obtain ⟨hne, hcomm⟩ := hp
  simp only [ringComm, Prod.mk.injEq] at hcomm
  have hne' : c - c' ≠ 0 := sub_ne_zero.mpr hne
  have e1 : (c - c') • ct.random = (s - s') • B.gen := by
    linear_combination (norm := module) -hcomm.1
  have e2 : (c - c') • (ct.blinded - v₁) = (s - s') • K := by
    linear_combination (norm := module) -hcomm.2
  refine ⟨?_, _, (List.of_mem_zip hmem).1, rfl⟩
  obtain ⟨R, b⟩ := ct
  have f1 : R = ((s - s') / (c - c')) • B.gen := by
    rw [div_eq_inv_mul, mul_smul, ← e1, smul_smul, inv_mul_cancel₀ hne', one_smul]
  have f2 : b - v₁ = ((s - s') / (c - c')) • K := by
    rw [div_eq_inv_mul, mul_smul, ← e2, smul_smul, inv_mul_cancel₀ hne', one_smul]
  rw [← f2, ← f1]
  simp

/-- The hash value of `q` is the challenge of an equation whose commitments are hashed in `q'`. -/
def RingLink (B : Backend F E) (K : PublicKey E) (ctx : List Entry) (values : List (List E)) (i : ℕ)
    (o : List (Ciphertext E) × RingProof F) (H : List Entry → F) (q' q : List Entry) : Prop :=
  ∃ (vs : List E) (ct : Ciphertext E) (enc : Bytes) (j : ℕ) (v : E) (s : F) (x y : Bytes),
    values[i]? = some vs ∧ o.1[i]? = some ct ∧ ct.toBytes B = some enc ∧ vs[j]? = some v ∧
    (proofEquations (B.withHash H) K ctx values i ct o.2)[j]? = some (v, s, H q) ∧
    B.serElem (ringComm B K.element ct v s (H q)).1 = some x ∧
    B.serElem (ringComm B K.element ct v s (H q)).2 = some y ∧
    ((j + 1 < vs.length ∧ q' = ringQuery (ringBase ctx K.bytes enc i) j x y) ∨
      (j + 1 = vs.length ∧ ∃ terms, q' = commonQuery ctx K.bytes terms ∧ terms[i]? = some (x, y))) ∧
    ((j = 0 ∧ ∃ terms, q = commonQuery ctx K.bytes terms) ∨
      ∃ j' x' y', j = j' + 1 ∧ q = ringQuery (ringBase ctx K.bytes enc i) j' x' y')

/-- Two runs with the same link and different hash values open the ring. -/
theorem RingLink.opens [DecidableEq F] [DecidableEq E] {B : Backend F E} (hB : B.Lawful) {K : PublicKey E}
    {ctx : List Entry} {values : List (List E)} (hn : values.length ≤ 2 ^ 64)
    (hsize : ∀ vs ∈ values, 2 ≤ vs.length ∧ vs.length ≤ 2 ^ 64) {i : ℕ}
    {o o' : List (Ciphertext E) × RingProof F} {H H' : List Entry → F} {q' q : List Entry}
    (h : RingLink B K ctx values i o H q' q) (h' : RingLink B K ctx values i o' H' q' q) (hne : H' q ≠ H q) :
    OpensRing B K ctx values i o o' H H' := by
  obtain ⟨vs, ct, enc, j, v, s, x, y, hvs, ho, hct, hv, heq, hx, hy, hq', hq⟩ := h
  obtain ⟨vs₂, ct₂, enc₂, j₂, v₂, s₂, x₂, y₂, hvs₂, ho₂, hct₂, hv₂, heq₂, hx₂, hy₂, hq'₂, hq₂⟩ := h'
  have hi : i < 2 ^ 64 := lt_of_lt_of_le (List.getElem?_eq_some_iff.mp hvs).1 hn
  rw [hvs] at hvs₂; cases hvs₂
  have hs := hsize vs (List.mem_of_getElem? hvs)
  have hj : j < 2 ^ 64 := lt_of_lt_of_le (List.getElem?_eq_some_iff.mp hv).1 hs.2
  have hj₂ : j₂ < 2 ^ 64 := lt_of_lt_of_le (List.getElem?_eq_some_iff.mp hv₂).1 hs.2
  have main : enc = enc₂ → j = j₂ → x = x₂ → y = y₂ → OpensRing B K ctx values i o o' H H' := by
    rintro rfl rfl rfl rfl
    have := Ciphertext.toBytes_inj hB hct hct₂
    subst this
    rw [hv] at hv₂; cases hv₂
    have hcomm : ringComm B K.element ct v s (H q) = ringComm B K.element ct v s₂ (H' q) :=
      Prod.ext (hB.serElem_inj hx hx₂) (hB.serElem_inj hy hy₂)
    have hmem : ((v, s, H q), (v, s₂, H' q)) ∈ (proofEquations (B.withHash H) K ctx values i ct o.2).zip
        (proofEquations (B.withHash H') K ctx values i ct o'.2) :=
      List.mem_of_getElem? (List.getElem?_zip_eq_some.mpr ⟨heq, heq₂⟩)
    obtain ⟨w, hw⟩ : ∃ w, ringOpening B K.element ct (proofEquations (B.withHash H) K ctx values i ct o.2)
        (proofEquations (B.withHash H') K ctx values i ct o'.2) = some w := by
      rw [← Option.isSome_iff_exists, ringOpening, Option.isSome_map, List.find?_isSome]
      exact ⟨_, hmem, by simpa using ⟨Ne.symm hne, hcomm⟩⟩
    obtain ⟨v', r⟩ := w
    obtain ⟨hopen, p, hp, rfl⟩ := ringOpening_correct hw
    exact ⟨ct, ct, vs, _, r, ho, ho₂, hvs, proofEquations_mem hvs hp, hw, hopen⟩
  rcases hq' with ⟨-, hq'⟩ | ⟨hjn, terms, hq', ht⟩
  · rcases hq'₂ with ⟨-, hq'₂⟩ | ⟨-, terms₂, hq'₂, -⟩
    · obtain ⟨h1, -, h3, h4, h5⟩ := ringQuery_inj hi hi hj hj₂ (hq'.symm.trans hq'₂)
      exact main h1 h3 h4 h5
    · exact absurd (hq'.symm.trans hq'₂) ringQuery_ne_commonQuery
  · rcases hq'₂ with ⟨-, hq'₂⟩ | ⟨hjn₂, terms₂, hq'₂, ht₂⟩
    · exact absurd (hq'₂.symm.trans hq') ringQuery_ne_commonQuery
    · rcases hq with ⟨h0, -⟩ | ⟨j1, x1, y1, hj1, hq⟩
      · omega
      rcases hq₂ with ⟨h0, -⟩ | ⟨j2, x2, y2, hj2, hq₂⟩
      · omega
      obtain ⟨h1, -, h3, -, -⟩ := ringQuery_inj hi hi (by omega) (by omega) (hq.symm.trans hq₂)
      have := commonQuery_inj (hq'.symm.trans hq'₂)
      subst this
      rw [ht] at ht₂
      cases ht₂
      exact main h1 (by omega) rfl rfl

/-- An accepted ring is a cycle of queries: the hash value of each is the challenge of the equation whose commitments
are hashed in the next one. -/
theorem ringAccepted_cycle [DecidableEq F] {B : Backend F E} {K : PublicKey E} {ctx : List Entry}
    {values : List (List E)} (hn : values.length ≤ 2 ^ 64)
    (hsize : ∀ vs ∈ values, 2 ≤ vs.length ∧ vs.length ≤ 2 ^ 64)
    {cts : List (Ciphertext E)} {proof : RingProof F} {H : List Entry → F} {t' : Transcript}
    (hver : proof.verify (B.withHash H) K values cts ⟨ctx⟩ = some (.ok (), t')) {i : ℕ} {vs : List E}
    {ct : Ciphertext E} (hvs : values[i]? = some vs) (hct : cts[i]? = some ct) :
    ∃ S : List Entry → Prop, (∃ q, S q) ∧
      (∀ q, S q → ∃ q', S q' ∧ q' ≠ q ∧ RingLink B K ctx values i (cts, proof) H q' q) ∧
      ∀ q, S q → q ∈ (ringVerifierAlg B K ctx values cts proof).queries H := by
  have hl := RingProof.verify_ok_length hver
  obtain ⟨t1, hloop, hlog, hc⟩ := (RingProof.verify_eq_some hl).mp hver
  have hc := checkChallenge_ok.mp hc.symm
  change H _ = _ at hc
  have hsz := hsize vs (List.mem_of_getElem? hvs)
  have hzsum : ((values.zip cts).map (·.1.length)).sum ≤ (values.map List.length).sum := by
    have : ∀ (values : List (List E)) (cts : List (Ciphertext E)),
        ((values.zip cts).map (·.1.length)).sum ≤ (values.map List.length).sum := by
      intro values
      induction values with
      | nil => simp
      | cons vs values ih =>
        intro cts
        cases cts with
        | nil => simp
        | cons ct cts => simpa using ih cts
    exact this _ _
  obtain ⟨terms, hrun, hlt, hlog1, hk⟩ := ringsAlg_spec (B := B) (H := H) (t₀ := ⟨ctx⟩) (values.zip cts)
    (fun p hp => by
      have := (hsize p.1 (List.of_mem_zip hp).1).1
      intro h0; rw [h0] at this; simp at this) (by omega) hloop
  obtain ⟨terms', hlt', hlog1', hk'⟩ := RingProof.verifyLoop_spec _ hloop
  have hlog2 : t'.log = commonQuery ctx K.bytes terms := by
    rw [hlog, hlog1, RingProof.initializeTranscript_log, commonQuery]
  have hterms : terms = terms' := by
    apply commonQuery_inj (ctx := ctx) (k := K.bytes)
    rw [← hlog2, hlog, hlog1', RingProof.initializeTranscript_log, commonQuery]
  subst hterms
  rw [hlog2] at hc
  have hzip : (values.zip cts)[i]? = some (vs, ct) := by
    rw [List.getElem?_zip_eq_some]; exact ⟨hvs, hct⟩
  obtain ⟨enc, m, last, henc, hterm, hm1, hm2, hloop1⟩ := hk' i vs ct hzip
  change ct.toBytes B = some enc at henc
  change B.serElem _ = _ at hm1 hm2
  have hk := hk i vs ct enc hzip henc
  have hoff : (((values.zip cts).take i).map (·.1.length)).sum = ((values.take i).map List.length).sum := by
    have h2 : (((values.zip cts).take i).map (·.1.length)) =
        ((values.take i).map List.length) := by
      have hil : i < cts.length := (List.getElem?_eq_some_iff.mp hct).1
      have hiv : i < values.length := (List.getElem?_eq_some_iff.mp hvs).1
      rw [List.zip, List.take_zipWith, ← List.zip, show (fun x : List E × Ciphertext E => x.1.length) =
        List.length ∘ Prod.fst from rfl, ← List.map_map, List.map_fst_zip (by simp; omega)]
    rw [h2]
  rw [hoff, Nat.zero_add, Nat.zero_add] at hk hloop1
  have hle := sum_take_le List.length values i vs hvs
  set off := ((values.take i).map List.length).sum with hoffdef
  have hzl : (vs.zip (proof.ringResponses.drop off)).length = vs.length := by simp; omega
  have hzeq : vs.zip (responsesOf values proof.ringResponses i vs.length) =
      vs.zip (proof.ringResponses.drop off) := by
    rw [responsesOf, ← hoffdef, zip_take_length]
  have hzne : vs.zip (proof.ringResponses.drop off) ≠ [] := by
    intro h0
    rw [h0] at hzl
    simp at hzl
    omega
  obtain ⟨comms, cs, hlc, hls, hhead, hlast, heq, hch⟩ := RingProof.verifyRingLoop_chain (B := B.withHash H) _ hzne
    (by rw [hzl, Nat.zero_add]) hloop1
  have hch' : ∀ (j : ℕ) m c', comms[j]? = some m → cs[j + 1]? = some c' →
      ∃ x y, B.serElem m.1 = some x ∧ B.serElem m.2 = some y ∧
        c' = H (ringQuery (ringBase ctx K.bytes enc i) (0 + j) x y) := fun j m c ha hb => by
    obtain ⟨x, y, hx, hy, hc⟩ := ringChal_eq_some.mp (hch j m c ha hb)
    rw [RingProof.ringTranscript_log] at hc
    exact ⟨x, y, hx, hy, hc⟩
  obtain ⟨-, hq⟩ := ringAlg_chain (B := B) (H := H) (K := K.element) (ct := ct)
      (base := ringBase ctx K.bytes enc i) (vs.zip (proof.ringResponses.drop off)) (j := 0)
      (c := proof.commonChallenge) (comms := comms) (cs := cs) hlc hls hhead heq hch'
  have heqs := ringEquations_chain (B := B) (H := H) (K := K.element) (ct := ct)
      (base := ringBase ctx K.bytes enc i) (vs.zip (proof.ringResponses.drop off)) (j := 0)
      (c := proof.commonChallenge) (comms := comms) (cs := cs) hlc hls hhead heq hch'
  rw [hzl] at hq hlc hls
  simp only [Nat.zero_add] at hq hch'
  -- data of every equation
  have hall : ∀ (j : ℕ), j < vs.length → ∃ v s cj, vs[j]? = some v ∧
      comms[j]? = some (ringComm B K.element ct v s cj) ∧ cs[j]? = some cj ∧
      (proofEquations (B.withHash H) K ctx values i ct proof)[j]? = some (v, s, cj) := by
    intro j hj
    have e3 : cs[j]? = some (cs[j]'(by omega)) := by simp
    have e2 : comms[j]? = some (comms[j]'(by omega)) := by simp
    obtain ⟨⟨v, s⟩, e1⟩ : ∃ p, (vs.zip (proof.ringResponses.drop off))[j]? = some p :=
      ⟨_, List.getElem?_eq_getElem (by omega)⟩
    refine ⟨v, s, _, (List.getElem?_zip_eq_some.mp e1).1, ?_, e3, ?_⟩
    · rw [e2, heq j v s _ _ e1 e2 e3]; rfl
    · have henc' : ct.toBytes (B.withHash H) = some enc := henc
      rw [proofEquations, hvs, henc']
      simp only
      rw [hzeq]
      exact heqs j v s _ e1 e3
  have hser : ∀ (j : ℕ) mj, j + 1 < vs.length → comms[j]? = some mj →
      ∃ x y cj, B.serElem mj.1 = some x ∧ B.serElem mj.2 = some y ∧ cs[j + 1]? = some cj ∧
        cj = H (ringQuery (ringBase ctx K.bytes enc i) j x y) := by
    intro j mj hj hmj
    have e3 : cs[j + 1]? = some (cs[j + 1]'(by omega)) := by simp
    obtain ⟨x, y, h1, h2, h3⟩ := hch' j mj _ hmj e3
    exact ⟨x, y, _, h1, h2, e3, h3⟩
  have hlast' : comms[vs.length - 1]? = some m := by
    rw [← hlast, List.getLast?_eq_getElem?, hlc]
  let S : List Entry → Prop := fun q => q = commonQuery ctx K.bytes terms ∨
    ∃ j mj x y, j + 1 < vs.length ∧ comms[j]? = some mj ∧ B.serElem mj.1 = some x ∧
      B.serElem mj.2 = some y ∧ q = ringQuery (ringBase ctx K.bytes enc i) j x y
  refine ⟨S, ⟨_, .inl rfl⟩, ?_, ?_⟩
  · rintro q (rfl | ⟨j, mj, x, y, hj, hmj, hx, hy, rfl⟩)
    · obtain ⟨v, s, c0, e1, e2, e3, e4⟩ := hall 0 (by omega)
      obtain ⟨x, y, c1, hx, hy, -, -⟩ := hser 0 _ (by omega) e2
      have hc0 : c0 = H (commonQuery ctx K.bytes terms) := by
        rw [← List.head?_eq_getElem?, hhead] at e3
        rw [hc]
        exact (Option.some.inj e3).symm
      refine ⟨ringQuery (ringBase ctx K.bytes enc i) 0 x y,
        .inr ⟨0, _, x, y, by omega, e2, hx, hy, rfl⟩, ringQuery_ne_commonQuery,
        vs, ct, enc, 0, v, s, x, y, hvs, hct, henc, e1, hc0 ▸ e4, hc0 ▸ hx, hc0 ▸ hy, .inl ⟨by omega, rfl⟩,
        .inl ⟨rfl, terms, rfl⟩⟩
    · obtain ⟨x', y', c1, hx', hy', hc1, hc1'⟩ := hser j mj hj hmj
      rw [hx] at hx'; rw [hy] at hy'
      cases hx'; cases hy'
      obtain ⟨v, s, c1', e1, e2, e3, e4⟩ := hall (j + 1) hj
      rw [hc1] at e3; cases e3
      by_cases hjl : j + 1 + 1 < vs.length
      · obtain ⟨x1, y1, c2, hx1, hy1, -, -⟩ := hser (j + 1) _ hjl e2
        refine ⟨ringQuery (ringBase ctx K.bytes enc i) (j + 1) x1 y1,
          .inr ⟨j + 1, _, x1, y1, hjl, e2, hx1, hy1, rfl⟩, ?_,
          vs, ct, enc, j + 1, v, s, x1, y1, hvs, hct, henc, e1, hc1' ▸ e4, hc1' ▸ hx1, hc1' ▸ hy1, .inl ⟨hjl, rfl⟩,
          .inr ⟨j, x, y, rfl, rfl⟩⟩
        intro he
        have hi : i < 2 ^ 64 := lt_of_lt_of_le (List.getElem?_eq_some_iff.mp hvs).1 hn
        have := (ringQuery_inj hi hi (by omega) (by omega) he).2.2.1
        omega
      · have hjm : ringComm B K.element ct v s c1 = m := by
          rw [show vs.length - 1 = j + 1 by omega, e2] at hlast'
          exact Option.some.inj hlast'
        rw [← hjm] at hm1 hm2
        refine ⟨commonQuery ctx K.bytes terms, .inl rfl, Ne.symm ringQuery_ne_commonQuery,
          vs, ct, enc, j + 1, v, s, last.1, last.2, hvs, hct, henc, e1, hc1' ▸ e4, hc1' ▸ hm1, hc1' ▸ hm2,
          .inr ⟨by omega, terms, rfl, hterm⟩, .inr ⟨j, x, y, rfl, rfl⟩⟩
  · rintro q (rfl | ⟨j, mj, x, y, hj, hmj, hx, hy, rfl⟩)
    · rw [ringVerifierAlg, OracleAlg.queries_bind, hrun]
      simp [OracleAlg.queries]
    · rw [ringVerifierAlg, OracleAlg.queries_bind, List.mem_append]
      left
      exact hk _ (hq j mj x y hj hmj hx hy)

/-- Extraction for all rings of a proof. -/
theorem ring_extractable [DecidableEq F] [DecidableEq E] [Fintype F] {Ω α : Type} [Fintype Ω] [Nonempty Ω]
    {B : Backend F E} (hB : B.Lawful) (K : PublicKey E) (ctx : List Entry) (values : List (List E))
    (hn : values.length ≤ 2 ^ 64) (hsize : ∀ vs ∈ values, 2 ≤ vs.length ∧ vs.length ≤ 2 ^ 64)
    (alg : Ω → OracleAlg (List Entry) F α) {n : ℕ} (halg : ∀ ω, (alg ω).AtMost n)
    (out : α → List (Ciphertext E) × RingProof F) (good : Ω → (List Entry → F) → Prop)
    (hgood : ∀ ω H, good ω H → (out ((alg ω).run H)).1.length = values.length ∧
      ∃ t', (out ((alg ω).run H)).2.verify (B.withHash H) K values (out ((alg ω).run H)).1 ⟨ctx⟩ =
        some (.ok (), t')) :
    ExtractableParts (m := values.length)
      (fun ω => withVerifier B K ctx values out (alg ω)) (evaluations n (values.map List.length)) good
      fun ω i H H' => OpensRing B K ctx values i (out ((alg ω).run H)) (out ((alg ω).run H')) H H' := by
  rw [evaluations, List.map_map]
  simp only [withVerifier]
  set whole := fun ω => (alg ω).bind fun a => ringVerifierAlg B K ctx values (out a).1 (out a).2 with hwhole
  have hex : ∀ ω (i : Fin values.length) H, ∃ p : List Entry × List Entry, good ω H →
      p.1 ∈ (whole ω).queries H ∧ p.2 ∈ ((whole ω).queries H).takeWhile (· ≠ p.1) ∧
      RingLink B K ctx values i (out ((alg ω).run H)) H p.2 p.1 := by
    intro ω i H
    by_cases hg : good ω H
    · obtain ⟨hl, t', hv⟩ := hgood ω H hg
      have hct : (out ((alg ω).run H)).1[i.1]? = some ((out ((alg ω).run H)).1[i.1]'(by omega)) := by simp
      have hvs : values[i.1]? = some values[i.1] := by simp
      obtain ⟨S, hS, hnext, hmem⟩ := ringAccepted_cycle hn hsize hv hvs hct
      have hmem' : ∀ q, S q → q ∈ (whole ω).queries H := fun q hq => by
        rw [hwhole]
        simp only [OracleAlg.queries_bind, List.mem_append]
        exact .inr (hmem q hq)
      obtain ⟨q, hq, hlast⟩ := exists_last _ S hS hmem'
      obtain ⟨q', hq', hne, hlink⟩ := hnext q hq
      exact ⟨(q, q'), fun _ => ⟨hmem' q hq, hlast q' hq' hne, hlink⟩⟩
    · exact ⟨([], []), fun h => absurd h hg⟩
  choose place hplace using hex
  refine forking_parts whole (fun ω => (halg ω).bind fun a => ringVerifierAlg_atMost ..) good place
    (fun ω i H hg => (hplace ω i H hg).1) (fun ω i H hg => (hplace ω i H hg).2.1) _ ?_
  intro ω i H c hg hg' hp hc
  have h1 := (hplace ω i H hg).2.2
  have h2 := (hplace ω i _ hg').2.2
  rw [hp] at h2
  refine h1.opens hB hn hsize h2 ?_
  rw [Function.update_self]
  exact hc

/-- Opened ciphertexts of all rings sum up to an opened ciphertext. -/
theorem opened_sum {B : Backend F E} {K : E} : ∀ (rings : List RingSpec) (cts : List (Ciphertext E))
    (w : Fin rings.length → E) (s : Fin rings.length → F), cts.length = rings.length →
    (∀ i, w i ∈ ringValues B (rings.get i)) →
    (∀ i : Fin rings.length, cts[i.1]? = some ⟨s i • B.gen, w i + s i • K⟩) →
    ∃ idx x, Represents rings idx x ∧ (∑ i, w i) = (x : F) • B.gen ∧
      (cts.map (·.random)).sum = (∑ i, s i) • B.gen ∧
      (cts.map (·.blinded)).sum = (∑ i, w i) + (∑ i, s i) • K := by
  intro rings
  induction rings with
  | nil =>
    intro cts w s hl _ _
    obtain rfl := List.length_eq_zero_iff.mp hl
    exact ⟨[], 0, ⟨.nil, rfl⟩, by simp, by simp, by simp⟩
  | cons a rings ih =>
    intro cts w s hl hw hs
    obtain ⟨c, cts, rfl⟩ := List.exists_cons_of_length_eq_add_one hl
    obtain ⟨idx, x, ⟨hr1, hr2⟩, h1, h2, h3⟩ := ih cts (fun i => w i.succ) (fun i => s i.succ) (by simpa using hl)
      (fun i => hw i.succ) (fun i => hs i.succ)
    have h0 := hs (0 : Fin (rings.length + 1))
    have hw0 := hw (0 : Fin (rings.length + 1))
    simp only [Fin.val_zero, List.getElem?_cons_zero, Option.some.injEq] at h0
    obtain ⟨j, hj, hjw⟩ := List.mem_map.mp hw0
    subst h0
    have hj' : j < a.size := by simpa using hj
    have hjw' : ((j * a.step : ℕ) : F) • B.gen = w (0 : Fin (rings.length + 1)) := hjw
    refine ⟨j :: idx, j * a.step + x, ⟨.cons hj' hr1, by simp [hr2]⟩, ?_, ?_, ?_⟩
    · rw [Nat.cast_add, add_smul, ← h1, hjw']
      exact Fin.sum_univ_succ w
    · have e : ∑ i, s i = s (0 : Fin (rings.length + 1)) + ∑ i : Fin rings.length, s i.succ := Fin.sum_univ_succ s
      rw [e, List.map_cons, List.sum_cons, h2, add_smul]
    · have e : ∑ i, s i = s (0 : Fin (rings.length + 1)) + ∑ i : Fin rings.length, s i.succ := Fin.sum_univ_succ s
      have e' : ∑ i, w i = w (0 : Fin (rings.length + 1)) + ∑ i : Fin rings.length, w i.succ := Fin.sum_univ_succ w
      rw [e, e', List.map_cons, List.sum_cons, h3, add_smul]
      exact add_add_add_comm _ _ _ _

end ElasticElgamal
