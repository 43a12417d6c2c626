import Verif.Spec.Dkg
import Verif.Lemmas.KeySet
import Verif.Lemmas.Ring

/-!
# Lemmas on distributed key generation
-/

set_option autoImplicit false
set_option linter.unusedSectionVars false

namespace ElasticElgamal

open Spec

variable {F E : Type}

theorem missingIndexes_aux {α : Type} (f : α → Bool) (l : List α) (k : ℕ) :
    (l.zipIdx k).filterMap (fun (x, i) => if f x then some i else none) =
      (List.range' k l.length).filter fun i => (l[i - k]?).any f := by
  induction l generalizing k with
  | nil => simp
  | cons a l ih =>
    have h : (List.range' (k + 1) l.length).filter (fun i => ((a :: l)[i - k]?).any f) =
        (List.range' (k + 1) l.length).filter fun i => (l[i - (k + 1)]?).any f := by
      refine List.filter_congr fun i hi => ?_
      obtain ⟨h1, -⟩ := List.mem_range'_1.mp hi
      rw [show i - k = (i - (k + 1)) + 1 by omega, List.getElem?_cons_succ]
    rw [List.zipIdx_cons, List.length_cons, List.range'_succ, List.filter_cons, h, ← ih (k + 1)]
    cases hfa : f a <;> simp [hfa]

theorem missingIndexes_eq {α : Type} (f : α → Bool) (l : List α) :
    missingIndexes f l = (List.range l.length).filter fun i => (l[i]?).any f := by
  rw [missingIndexes, missingIndexes_aux, List.range_eq_range']
  simp

theorem missingIndexes_eq_nil {α : Type} {f : α → Bool} {l : List α} :
    missingIndexes f l = [] ↔ ∀ x ∈ l, f x = false := by
  rw [missingIndexes_eq, List.filter_eq_nil_iff]
  constructor
  · intro h x hx
    obtain ⟨i, hi, rfl⟩ := List.getElem_of_mem hx
    have := h i (List.mem_range.mpr hi)
    simpa [hi] using this
  · intro h i hi
    have hi := List.mem_range.mp hi
    simp [hi, h l[i] (List.getElem_mem hi)]

/-! ## Commitments -/

namespace CollectingCommitments

theorem insert_spec (p : CollectingCommitments F E) (i : ℕ) (c : Bytes) :
    p.insertCommitment i c =
      if p.commitments[i]? = some none then some { p with commitments := p.commitments.set i (some c) }
      else none := by
  unfold insertCommitment
  cases h : p.commitments[i]? with
  | none => simp
  | some x =>
    have hi : i < p.commitments.length := (List.getElem?_eq_some_iff.mp h).1
    cases x with
    | none => simp [guard, setAt, hi]
    | some x => simp [guard]

theorem run_spec (messages : List (ℕ × Bytes)) : ∀ p : CollectingCommitments F E,
    (runCommitments messages p).params = p.params ∧ (runCommitments messages p).index = p.index ∧
    (runCommitments messages p).dealer = p.dealer ∧ (runCommitments messages p).opening = p.opening ∧
    (runCommitments messages p).commitments.length = p.commitments.length ∧
    ∀ i x, p.commitments[i]? = some x →
      (runCommitments messages p).commitments[i]? = some (x <|> firstFrom messages i) := by
  induction messages with
  | nil => intro p; simp [runCommitments, firstFrom]
  | cons m ms ih =>
    intro p
    have hrun : runCommitments (m :: ms) p = runCommitments ms ((p.insertCommitment m.1 m.2).getD p) := rfl
    rw [hrun, insert_spec]
    split
    · rename_i hm
      obtain ⟨h1, h2, h3, h4, h5, h6⟩ := ih { p with commitments := p.commitments.set m.1 (some m.2) }
      refine ⟨h1, h2, h3, h4, by rw [Option.getD_some, h5, List.length_set], fun i x hx => ?_⟩
      rw [Option.getD_some]
      have hlt : m.1 < p.commitments.length := (List.getElem?_eq_some_iff.mp hm).1
      by_cases hi : m.1 = i
      · subst hi
        rw [hx] at hm
        cases hm
        rw [h6 m.1 (some m.2) (by simp [hlt])]
        simp [firstFrom]
      · rw [h6 i x (by simp only [List.getElem?_set_ne hi]; exact hx)]
        simp [firstFrom, hi]
    · rename_i hm
      obtain ⟨h1, h2, h3, h4, h5, h6⟩ := ih p
      refine ⟨h1, h2, h3, h4, h5, fun i x hx => ?_⟩
      rw [Option.getD_none, h6 i x hx]
      by_cases hi : m.1 = i
      · subst hi
        cases x with
        | none => exact absurd hx hm
        | some x => simp
      · simp [firstFrom, hi]

end CollectingCommitments

/-! ## Polynomials -/

section
variable [Field F] [AddCommGroup E] [Module F E] [DecidableEq F] [DecidableEq E]

theorem createCommitment_eq_some {B : Backend F E} {e : E} {o c : Bytes} :
    createCommitment B e o = some c ↔ Opens B c e o := by
  simp only [createCommitment, Opens, Option.bind_eq_bind, Option.bind_eq_some_iff, Option.pure_def,
    Option.some.injEq]
  exact exists_congr fun b => and_congr_right fun _ => eq_comm

theorem validate_ok_iff {B : Backend F E} {params : Params} {poly : List E} {proof : ProofOfPossession F} :
    PublicKeySet.validate B params poly proof = some (.ok ()) ↔ poly.length = params.threshold ∧
      ∃ (keys : List (PublicKey E)) (t' : Transcript), List.Forall₂ (fun e pk => IsKey B pk e) poly keys ∧
        proof.verify B keys ⟨dealerLog params⟩ = some (.ok (), t') := by
  constructor
  · intro h
    rcases validate_spec h with ⟨-, h⟩ | ⟨hl, keys, r, t', hk, hv, hr⟩
    · cases h
    · cases r with
      | error e => simp [Except.mapError] at hr
      | ok u => exact ⟨hl, keys, t', hk, hv⟩
  · rintro ⟨hl, keys, t', hk, hv⟩
    exact validate_eq (r := .ok ()) hl hk hv

namespace CollectingPolynomials

/-- Insertion succeeds exactly for acceptable messages, and everything else leaves the state unchanged. -/
theorem insert_spec {B : Backend F E} (p : CollectingPolynomials F E)
    (hlen : p.publicPolynomials.length = p.commitments.length) (i : ℕ) (info : PublicInfo F E) :
    (∀ r p', p.insertPublicPolynomial B i info = some (r, p') →
      (r = .ok () ∧ (∃ c, p.commitments[i]? = some c ∧ AcceptableInfo B p.params c info) ∧
        p' = { p with publicPolynomials := p.publicPolynomials.set i (some info.polynomial) }) ∨
      ((∃ e, r = .error e) ∧ p' = p ∧
        ¬ ∃ c, p.commitments[i]? = some c ∧ AcceptableInfo B p.params c info)) ∧
    (p.insertPublicPolynomial B i info = none →
      ¬ ∃ c, p.commitments[i]? = some c ∧ AcceptableInfo B p.params c info) := by
  unfold insertPublicPolynomial
  cases hc0 : info.polynomial[0]? with
  | none =>
    refine ⟨by simp, fun _ => ?_⟩
    rintro ⟨c, -, ⟨c', hc', -⟩, -⟩
    rw [List.head?_eq_getElem?, hc0] at hc'
    cases hc'
  | some c0 =>
    have hhead : info.polynomial.head? = some c0 := by rw [List.head?_eq_getElem?, hc0]
    simp only [Option.bind_eq_bind, Option.bind_some]
    cases hcom : createCommitment B c0 info.opening with
    | none =>
      refine ⟨by simp, fun _ => ?_⟩
      rintro ⟨c, -, ⟨c', hc', ho⟩, -⟩
      rw [hhead] at hc'
      cases hc'
      rw [← createCommitment_eq_some, hcom] at ho
      cases ho
    | some com =>
      cases hexp : p.commitments[i]? with
      | none => simp
      | some expected =>
        simp only [Option.bind_some]
        have hiff : ∀ c, (∃ c', info.polynomial.head? = some c' ∧ Opens B c c' info.opening) ↔ c = com := by
          intro c
          constructor
          · rintro ⟨c', hc', ho⟩
            rw [hhead] at hc'
            cases hc'
            rw [← createCommitment_eq_some, hcom] at ho
            exact (Option.some.inj ho).symm
          · rintro rfl
            exact ⟨c0, hhead, createCommitment_eq_some.mp hcom⟩
        by_cases hne : expected = com
        · subst hne
          simp only [ne_eq, not_true, if_false, Option.bind_eq_some_iff]
          cases hval : PublicKeySet.validate B p.params info.polynomial info.proofOfPossession with
          | none =>
            refine ⟨by simp, fun _ => ?_⟩
            rintro ⟨c, hc, h1, h2⟩
            rw [validate_ok_iff.mpr h2] at hval
            cases hval
          | some r =>
            cases r with
            | error e =>
              refine ⟨?_, by simp⟩
              simp only [Option.some.injEq, Option.pure_def, exists_eq_left', Prod.mk.injEq, and_imp]
              rintro r p' rfl rfl
              refine .inr ⟨⟨_, rfl⟩, rfl, ?_⟩
              rintro ⟨-, h2⟩
              rw [validate_ok_iff.mpr h2] at hval
              cases hval
            | ok u =>
              have hi : i < p.publicPolynomials.length := by
                rw [hlen]; exact (List.getElem?_eq_some_iff.mp hexp).1
              simp only [Option.some.injEq, setAt, hi, if_true, Option.pure_def, exists_eq_left', Prod.mk.injEq,
                and_imp, Option.bind_some, reduceCtorEq, false_imp_iff, and_true]
              rintro r p' rfl rfl
              exact .inl ⟨rfl, ⟨(hiff _).mpr rfl, validate_ok_iff.mp hval⟩, rfl⟩
        · simp only [ne_eq, hne, not_false_eq_true, if_true, Option.pure_def, Option.some.injEq, Prod.mk.injEq,
            and_imp, reduceCtorEq, false_imp_iff, and_true]
          rintro r p' rfl rfl
          refine .inr ⟨⟨_, rfl⟩, rfl, ?_⟩
          rintro ⟨c, hc, h1, -⟩
          cases hc
          exact hne ((hiff _).mp h1)

theorem step_spec {B : Backend F E} (p : CollectingPolynomials F E)
    (hlen : p.publicPolynomials.length = p.commitments.length) (m : ℕ × PublicInfo F E) :
    ((∃ c, p.commitments[m.1]? = some c ∧ AcceptableInfo B p.params c m.2) ∧
      ((p.insertPublicPolynomial B m.1 m.2).map Prod.snd).getD p =
        { p with publicPolynomials := p.publicPolynomials.set m.1 (some m.2.polynomial) }) ∨
    (¬ (∃ c, p.commitments[m.1]? = some c ∧ AcceptableInfo B p.params c m.2) ∧
      ((p.insertPublicPolynomial B m.1 m.2).map Prod.snd).getD p = p) := by
  obtain ⟨h1, h2⟩ := insert_spec (B := B) p hlen m.1 m.2
  cases h : p.insertPublicPolynomial B m.1 m.2 with
  | none => exact .inr ⟨h2 h, rfl⟩
  | some out =>
    obtain ⟨r, p'⟩ := out
    rcases h1 r p' h with ⟨-, h3, rfl⟩ | ⟨-, rfl, h3⟩
    · exact .inl ⟨h3, rfl⟩
    · exact .inr ⟨h3, rfl⟩

theorem run_spec {B : Backend F E} (p : CollectingPolynomials F E)
    (hlen : p.publicPolynomials.length = p.commitments.length) (messages : List (ℕ × PublicInfo F E)) :
    (runPolynomials B messages p).params = p.params ∧ (runPolynomials B messages p).index = p.index ∧
    (runPolynomials B messages p).dealer = p.dealer ∧ (runPolynomials B messages p).opening = p.opening ∧
    (runPolynomials B messages p).commitments = p.commitments ∧
    (runPolynomials B messages p).publicPolynomials.length = p.publicPolynomials.length ∧
    ∀ (i : ℕ) (c : Bytes), p.commitments[i]? = some c →
      ((∀ m ∈ messages, m.1 = i → ¬ AcceptableInfo B p.params c m.2) ∧
        (runPolynomials B messages p).publicPolynomials[i]? = p.publicPolynomials[i]?) ∨
      ∃ pre info post, messages = pre ++ (i, info) :: post ∧ AcceptableInfo B p.params c info ∧
        (∀ m ∈ post, m.1 = i → ¬ AcceptableInfo B p.params c m.2) ∧
        (runPolynomials B messages p).publicPolynomials[i]? = some (some info.polynomial) := by
  induction messages using List.reverseRecOn with
  | nil => exact ⟨rfl, rfl, rfl, rfl, rfl, rfl, fun i c hc => .inl ⟨by simp, rfl⟩⟩
  | append_singleton ms m ih =>
    obtain ⟨h1, h2, h3, h4, h5, h6, h7⟩ := ih
    have hrun : runPolynomials B (ms ++ [m]) p =
        (((runPolynomials B ms p).insertPublicPolynomial B m.1 m.2).map Prod.snd).getD
          (runPolynomials B ms p) := by
      simp [runPolynomials, List.foldl_append]
    generalize hq : runPolynomials B ms p = q at *
    have hqlen : q.publicPolynomials.length = q.commitments.length := by rw [h6, h5, hlen]
    rcases step_spec (B := B) q hqlen m with ⟨⟨c0, hc0, hacc⟩, hstep⟩ | ⟨hno, hstep⟩
    · rw [hstep] at hrun
      rw [hrun]
      refine ⟨h1, h2, h3, h4, h5, by simp [h6], fun i c hc => ?_⟩
      rw [h5] at hc0
      rw [h1] at hacc
      by_cases hi : m.1 = i
      · subst hi
        rw [hc0] at hc
        cases hc
        have hlt : m.1 < q.publicPolynomials.length := by
          rw [h6, hlen]; exact (List.getElem?_eq_some_iff.mp hc0).1
        exact .inr ⟨ms, m.2, [], rfl, hacc, by simp, by simp [hlt]⟩
      · simp only [List.getElem?_set_ne hi]
        rcases h7 i c hc with ⟨ha, hb⟩ | ⟨pre, info, post, ha, hb, hc', hd⟩
        · refine .inl ⟨fun m' hm' hm'i => ?_, hb⟩
          rcases List.mem_append.mp hm' with h | h
          · exact ha m' h hm'i
          · rw [List.mem_singleton.mp h] at hm'i
            exact absurd hm'i hi
        · refine .inr ⟨pre, info, post ++ [m], by simp [ha], hb, fun m' hm' hm'i => ?_, hd⟩
          rcases List.mem_append.mp hm' with h | h
          · exact hc' m' h hm'i
          · rw [List.mem_singleton.mp h] at hm'i
            exact absurd hm'i hi
    · rw [hstep] at hrun
      rw [hrun]
      refine ⟨h1, h2, h3, h4, h5, h6, fun i c hc => ?_⟩
      have hno' : m.1 = i → ¬ AcceptableInfo B p.params c m.2 := by
        rintro rfl ha
        exact hno ⟨c, by rw [h5]; exact hc, by rw [h1]; exact ha⟩
      rcases h7 i c hc with ⟨ha, hb⟩ | ⟨pre, info, post, ha, hb, hc', hd⟩
      · refine .inl ⟨fun m' hm' hm'i => ?_, hb⟩
        rcases List.mem_append.mp hm' with h | h
        · exact ha m' h hm'i
        · rw [List.mem_singleton.mp h] at hm'i ⊢
          exact hno' hm'i
      · refine .inr ⟨pre, info, post ++ [m], by simp [ha], hb, fun m' hm' hm'i => ?_, hd⟩
        rcases List.mem_append.mp hm' with h | h
        · exact hc' m' h hm'i
        · rw [List.mem_singleton.mp h] at hm'i ⊢
          exact hno' hm'i

end CollectingPolynomials

/-! ## Shares -/

namespace ExchangingSecrets

theorem insert_spec {B : Backend F E} (p : ExchangingSecrets F E)
    (hlen : p.publicPolynomials.length = p.sharesReceived.length) (i : ℕ) (s : F) :
    (p.sharesReceived[i]? = none ∧ p.insertSecretShare B i s = none) ∨
    (p.sharesReceived[i]? = some true ∧ p.insertSecretShare B i s = some (.error .DuplicateShare, p)) ∨
    (p.sharesReceived[i]? = some false ∧ ∃ poly, p.publicPolynomials[i]? = some poly ∧
      ((AcceptableShare B p.index poly s ∧ p.insertSecretShare B i s =
          some (.ok (), { p with accumulatedShare := p.accumulatedShare + s,
                                 sharesReceived := p.sharesReceived.set i true })) ∨
       (¬ AcceptableShare B p.index poly s ∧
          (∃ b, B.serElem (polyAt ((p.index : F) + 1) poly) = some b) ∧
          p.insertSecretShare B i s = some (.error .InvalidSecret, p)) ∨
       (¬ AcceptableShare B p.index poly s ∧ B.serElem (polyAt ((p.index : F) + 1) poly) = none ∧
          p.insertSecretShare B i s = none))) := by
  unfold insertSecretShare
  cases hr : p.sharesReceived[i]? with
  | none => simp
  | some x =>
    cases x with
    | true => simp
    | false =>
      have hi : i < p.sharesReceived.length := (List.getElem?_eq_some_iff.mp hr).1
      have hi' : i < p.publicPolynomials.length := by omega
      have hpoly := List.getElem?_eq_getElem hi'
      refine .inr (.inr ⟨rfl, p.publicPolynomials[i], hpoly, ?_⟩)
      simp only [Option.bind_eq_bind, Option.bind_some, hpoly, valueAt_point, PublicKey.fromElement,
        Option.pure_def, Backend.mulGen, Bool.false_eq_true, if_false]
      cases hser : B.serElem (polyAt ((p.index : F) + 1) p.publicPolynomials[i]) with
      | none =>
        refine .inr (.inr ⟨?_, rfl, rfl⟩)
        rintro ⟨h1, b, hb⟩
        rw [h1, hser] at hb
        cases hb
      | some b =>
        simp only [Option.bind_some]
        by_cases hs : polyAt ((p.index : F) + 1) p.publicPolynomials[i] = s • B.gen
        · refine .inl ⟨⟨hs.symm, b, by rw [← hs, hser]⟩, ?_⟩
          simp [hs, setAt, hi, SecretKey.add]
        · refine .inr (.inl ⟨fun h => hs h.1.symm, ⟨b, rfl⟩, ?_⟩)
          simp [hs]

theorem run_spec {B : Backend F E} (p : ExchangingSecrets F E)
    (hlen : p.publicPolynomials.length = p.sharesReceived.length) (messages : List (ℕ × F)) :
    (runShares B messages p).params = p.params ∧ (runShares B messages p).index = p.index ∧
    (runShares B messages p).dealer = p.dealer ∧
    (runShares B messages p).publicPolynomials = p.publicPolynomials ∧
    (runShares B messages p).sharesReceived.length = p.sharesReceived.length ∧
    ∃ accepted : List (ℕ × F), accepted.Sublist messages ∧ (accepted.map Prod.fst).Nodup ∧
      (∀ m ∈ accepted, p.sharesReceived[m.1]? = some false ∧
        ∃ poly, p.publicPolynomials[m.1]? = some poly ∧ AcceptableShare B p.index poly m.2) ∧
      (runShares B messages p).accumulatedShare = p.accumulatedShare + (accepted.map Prod.snd).sum ∧
      (∀ i, (runShares B messages p).sharesReceived[i]? = some true ↔
        p.sharesReceived[i]? = some true ∨ i ∈ accepted.map Prod.fst) ∧
      (∀ m ∈ messages, p.sharesReceived[m.1]? = some false →
        ∀ poly, p.publicPolynomials[m.1]? = some poly → AcceptableShare B p.index poly m.2 →
          m.1 ∈ accepted.map Prod.fst) := by
  induction messages using List.reverseRecOn with
  | nil => exact ⟨rfl, rfl, rfl, rfl, rfl, [], by simp [runShares]⟩
  | append_singleton ms m ih =>
    obtain ⟨h1, h2, h3, h4, h5, acc, hsub, hnd, hacc, hsum, hrec, hall⟩ := ih
    have hrun : runShares B (ms ++ [m]) p =
        (((runShares B ms p).insertSecretShare B m.1 m.2).map Prod.snd).getD (runShares B ms p) := by
      simp [runShares, List.foldl_append]
    generalize hq : runShares B ms p = q at *
    have hqlen : q.publicPolynomials.length = q.sharesReceived.length := by rw [h4, h5, hlen]
    have unchanged : ((q.insertSecretShare B m.1 m.2).map Prod.snd).getD q = q →
        (p.sharesReceived[m.1]? = some false →
          ∀ poly, p.publicPolynomials[m.1]? = some poly → AcceptableShare B p.index poly m.2 →
            m.1 ∈ acc.map Prod.fst) →
        (runShares B (ms ++ [m]) p).params = p.params ∧ (runShares B (ms ++ [m]) p).index = p.index ∧
        (runShares B (ms ++ [m]) p).dealer = p.dealer ∧
        (runShares B (ms ++ [m]) p).publicPolynomials = p.publicPolynomials ∧
        (runShares B (ms ++ [m]) p).sharesReceived.length = p.sharesReceived.length ∧
        ∃ accepted : List (ℕ × F), accepted.Sublist (ms ++ [m]) ∧ (accepted.map Prod.fst).Nodup ∧
          (∀ m ∈ accepted, p.sharesReceived[m.1]? = some false ∧
            ∃ poly, p.publicPolynomials[m.1]? = some poly ∧ AcceptableShare B p.index poly m.2) ∧
          (runShares B (ms ++ [m]) p).accumulatedShare =
            p.accumulatedShare + (accepted.map Prod.snd).sum ∧
          (∀ i, (runShares B (ms ++ [m]) p).sharesReceived[i]? = some true ↔
            p.sharesReceived[i]? = some true ∨ i ∈ accepted.map Prod.fst) ∧
          (∀ m' ∈ ms ++ [m], p.sharesReceived[m'.1]? = some false →
            ∀ poly, p.publicPolynomials[m'.1]? = some poly → AcceptableShare B p.index poly m'.2 →
              m'.1 ∈ accepted.map Prod.fst) := by
      intro hu hm
      rw [hu] at hrun
      rw [hrun]
      refine ⟨h1, h2, h3, h4, h5, acc, hsub.trans (List.sublist_append_left _ _), hnd, hacc, hsum, hrec, ?_⟩
      intro m' hm'
      rcases List.mem_append.mp hm' with h | h
      · exact hall m' h
      · rw [List.mem_singleton.mp h]
        exact hm
    have hrecv : p.sharesReceived[m.1]? = some false → q.sharesReceived[m.1]? = some true →
        m.1 ∈ acc.map Prod.fst := by
      intro hf ht
      rcases (hrec m.1).mp ht with h | h
      · rw [hf] at h; cases h
      · exact h
    rcases insert_spec (B := B) q hqlen m.1 m.2 with
      ⟨hn, hi⟩ | ⟨ht, hi⟩ | ⟨hf, poly, hpoly, ⟨ha, hi⟩ | ⟨ha, -, hi⟩ | ⟨ha, -, hi⟩⟩
    · refine unchanged (by rw [hi]; rfl) fun hpf => ?_
      have h6 := (List.getElem?_eq_some_iff.mp hpf).1
      rw [List.getElem?_eq_none_iff] at hn
      omega
    · exact unchanged (by rw [hi]; rfl) fun hpf poly _ _ => hrecv hpf ht
    · rw [hi] at hrun
      have hmlt : m.1 < q.sharesReceived.length := (List.getElem?_eq_some_iff.mp hf).1
      have hnotin : m.1 ∉ acc.map Prod.fst := by
        intro hin
        have := (hrec m.1).mpr (.inr hin)
        rw [hf] at this
        cases this
      have hpf : p.sharesReceived[m.1]? = some false := by
        have hlt : m.1 < p.sharesReceived.length := by omega
        cases hx : p.sharesReceived[m.1]? with
        | none => rw [List.getElem?_eq_none_iff] at hx; omega
        | some x =>
          cases x with
          | false => rfl
          | true =>
            have := (hrec m.1).mpr (.inl hx)
            rw [hf] at this
            cases this
      rw [hrun]
      refine ⟨h1, h2, h3, h4, by simp [h5], acc ++ [m], hsub.append (List.Sublist.refl _), ?_, ?_, ?_, ?_, ?_⟩
      · rw [List.map_append, List.nodup_append]
        refine ⟨hnd, by simp, ?_⟩
        intro a ha' b hb hab
        simp only [List.map_cons, List.map_nil, List.mem_singleton] at hb
        rw [hab, hb] at ha'
        exact hnotin ha'
      · intro m' hm'
        rcases List.mem_append.mp hm' with h | h
        · exact hacc m' h
        · rw [List.mem_singleton.mp h]
          rw [h4] at hpoly
          rw [h2] at ha
          exact ⟨hpf, poly, hpoly, ha⟩
      · simp only [Option.map_some, Option.getD_some, hsum, List.map_append, List.map_cons, List.map_nil,
          List.sum_append, List.sum_cons, List.sum_nil, add_zero, add_assoc]
      · intro i
        simp only [Option.map_some, Option.getD_some, List.map_append, List.map_cons, List.map_nil,
          List.mem_append, List.mem_singleton]
        by_cases him : m.1 = i
        · subst him
          simp [hmlt]
        · rw [List.getElem?_set_ne him, hrec i]
          have : i ≠ m.1 := fun h => him h.symm
          simp [this]
      · intro m' hm'
        rcases List.mem_append.mp hm' with h | h
        · intro a b c d
          have := hall m' h a b c d
          rw [List.map_append]
          exact List.mem_append_left _ this
        · rw [List.mem_singleton.mp h]
          intro _ _ _ _
          simp
    · refine unchanged (by rw [hi]; rfl) fun hpf poly' hp' ha' => ?_
      rw [h4, hp'] at hpoly
      rw [h2] at ha
      cases hpoly
      exact absurd ha' ha
    · refine unchanged (by rw [hi]; rfl) fun hpf poly' hp' ha' => ?_
      rw [h4, hp'] at hpoly
      rw [h2] at ha
      cases hpoly
      exact absurd ha' ha

end ExchangingSecrets

/-! ## Sums of polynomials -/

theorem polySum_length (t : ℕ) (polys : List (List E)) : (polySum t polys).length = t := by simp [polySum]

theorem polyAt_polySum (x : F) (t : ℕ) (polys : List (List E)) (h : ∀ poly ∈ polys, poly.length = t) :
    polyAt x (polySum t polys) = (polys.map (polyAt x)).sum := by
  rw [polyAt_eq_sum, polySum_length]
  induction polys with
  | nil =>
    simp only [List.map_nil, List.sum_nil]
    refine Finset.sum_eq_zero fun k hk => ?_
    have hk := Finset.mem_range.mp hk
    simp [polySum, List.getD_eq_getElem?_getD, hk]
  | cons a l ih =>
    rw [List.map_cons, List.sum_cons, ← ih fun poly hp => h poly (by simp [hp]), polyAt_eq_sum,
      h a (by simp), ← Finset.sum_add_distrib]
    refine Finset.sum_congr rfl fun k hk => ?_
    have hk := Finset.mem_range.mp hk
    simp [polySum, List.getD_eq_getElem?_getD, hk]

theorem addLoop_getD : ∀ (a b : List E), a.length = b.length → (PublicPolynomial.addLoop a b).length = a.length ∧
    ∀ k, (PublicPolynomial.addLoop a b).getD k 0 = a.getD k 0 + b.getD k 0 := by
  intro a
  induction a with
  | nil => intro b h; cases b <;> simp_all [PublicPolynomial.addLoop]
  | cons x a ih =>
    intro b h
    cases b with
    | nil => simp at h
    | cons y b =>
      obtain ⟨h1, h2⟩ := ih b (by simpa using h)
      refine ⟨by simp [PublicPolynomial.addLoop, h1], fun k => ?_⟩
      cases k with
      | zero => simp [PublicPolynomial.addLoop]
      | succ k => simpa [PublicPolynomial.addLoop] using h2 k

theorem accumulate_eq (B : Backend F E) (t : ℕ) : ∀ (rest : List (List E)) (acc : List E), acc.length = t →
    (∀ poly ∈ rest, poly.length = t) →
    ExchangingSecrets.accumulate B acc rest = some (polySum t (acc :: rest)) := by
  intro rest
  induction rest with
  | nil =>
    intro acc ha _
    simp only [ExchangingSecrets.accumulate, Option.some.injEq]
    refine List.ext_getElem (by simp [polySum, ha]) fun k h1 h2 => ?_
    simp [polySum, h1]
  | cons poly rest ih =>
    intro acc ha h
    have hp := h poly (by simp)
    obtain ⟨h1, h2⟩ := addLoop_getD acc poly (by rw [ha, hp])
    have hadd : PublicPolynomial.addAssign B acc poly = some (PublicPolynomial.addLoop acc poly) := by
      simp [PublicPolynomial.addAssign, Backend.debugAssert, ha, hp]
    rw [ExchangingSecrets.accumulate, hadd]
    simp only [Option.bind_eq_bind, Option.bind_some]
    rw [ih _ (by rw [h1, ha]) fun q hq => h q (by simp [hq])]
    congr 1
    refine List.map_congr_left fun k _ => ?_
    simp only [List.map_cons, List.sum_cons, h2, add_assoc]

/-! ## Phases -/

/-- Everything known about the dealer and the messages of a participant. -/
structure Setup (B : Backend F E) (params : Params) (index : ℕ) (rng : B.Rng) (dealer : Dealer F E)
    (opening own : Bytes) : Prop where
  index_lt : index < params.shares
  params_eq : dealer.params = params
  created : ∃ rng1, Dealer.new B params rng = some (dealer, rng1) ∧ opening = (B.fill32 rng1).1
  opens : ∃ c, dealer.publicInfo.1.head? = some c ∧ Opens B own c opening

theorem dealer_new_params {B : Backend F E} {params : Params} {rng rng' : B.Rng} {dealer : Dealer F E}
    (h : Dealer.new B params rng = some (dealer, rng')) : dealer.params = params := by
  simp only [Dealer.new, Option.bind_eq_bind, Option.bind_eq_some_iff, Option.pure_def, Option.some.injEq,
    Prod.mk.injEq, Prod.exists] at h
  obtain ⟨kps, r1, hk, pop, t', r2, hpop, rfl, rfl⟩ := h
  rfl

theorem collecting_new_spec {B : Backend F E} {params : Params} {index : ℕ} {rng : B.Rng}
    {p : CollectingCommitments F E} {rng' : B.Rng}
    (h : CollectingCommitments.new B params index rng = some (p, rng')) :
    ∃ own, Setup B params index rng p.dealer p.opening own ∧ p.params = params ∧ p.index = index ∧
      p.commitments = (List.replicate params.shares none).set index (some own) := by
  simp only [CollectingCommitments.new, Option.bind_eq_bind, Option.bind_eq_some_iff, Option.pure_def,
    Option.some.injEq, Prod.mk.injEq, Prod.exists, guard_eq_some'] at h
  obtain ⟨-, hidx, dealer, rng1, hd, c, hc, own, hown, cs, hcs, rfl, rfl⟩ := h
  obtain ⟨-, rfl⟩ := setAt_eq_some.mp hcs
  refine ⟨own, ⟨hidx, dealer_new_params hd, ⟨rng1, hd, rfl⟩, c, ?_, createCommitment_eq_some.mp hown⟩, rfl, rfl, rfl⟩
  rw [List.head?_eq_getElem?]
  exact hc

theorem dkgCommitments_spec {B : Backend F E} {params : Params} {index : ℕ} {rng : B.Rng}
    {h : DkgHistory F E} {p : CollectingCommitments F E} (hp : dkgCommitments B params index rng h = some p) :
    ∃ own, Setup B params index rng p.dealer p.opening own ∧ p.params = params ∧ p.index = index ∧
      p.commitments = (List.range params.shares).map fun i =>
        if i = index then some own else firstFrom h.commitments i := by
  simp only [dkgCommitments, Option.bind_eq_bind, Option.bind_eq_some_iff, Option.pure_def, Option.some.injEq,
    Prod.exists] at hp
  obtain ⟨p0, rng', hnew, rfl⟩ := hp
  obtain ⟨own, hs, h1, h2, h3⟩ := collecting_new_spec hnew
  obtain ⟨e1, e2, e3, e4, e5, e6⟩ := CollectingCommitments.run_spec h.commitments p0
  refine ⟨own, by rw [e3, e4]; exact hs, e1.trans h1, e2.trans h2, ?_⟩
  refine List.ext_getElem? fun i => ?_
  by_cases hi : i < params.shares
  · have h4 : p0.commitments[i]? = some (if i = index then some own else none) := by
      rw [h3, List.getElem?_set]
      by_cases hx : index = i
      · subst hx; simp [hi]
      · have : ¬ i = index := fun h => hx h.symm
        simp [hx, this, hi]
    rw [e6 i _ h4, List.getElem?_map, List.getElem?_range hi]
    by_cases hx : i = index <;> simp [hx]
  · rw [List.getElem?_eq_none (by rw [e5, h3]; simpa using hi), List.getElem?_eq_none (by simpa using hi)]

theorem mapM_id_eq_some {α : Type} {l : List (Option α)} {l' : List α} :
    l.mapM id = some l' ↔ l = l'.map some := by
  rw [mapM_option_eq_some]
  induction l generalizing l' with
  | nil => cases l' <;> simp
  | cons a l ih =>
    simp only [id] at ih
    cases l' <;> simp [ih]

theorem finishCommitments_spec {p : CollectingCommitments F E} {q : CollectingPolynomials F E}
    (h : p.finishCommitmentPhase = some q) :
    p.missingCommitments = [] ∧ q.params = p.params ∧ q.index = p.index ∧ q.dealer = p.dealer ∧
    q.opening = p.opening ∧ p.commitments = q.commitments.map some ∧
    q.publicPolynomials = (List.replicate p.params.shares none).set p.index (some p.dealer.publicInfo.1) := by
  simp only [CollectingCommitments.finishCommitmentPhase, Option.bind_eq_bind, Option.bind_eq_some_iff,
    Option.pure_def, Option.some.injEq, guard_eq_some'] at h
  obtain ⟨-, h1, polys, h2, cs, h3, rfl⟩ := h
  exact ⟨h1, rfl, rfl, rfl, rfl, mapM_id_eq_some.mp h3, (setAt_eq_some.mp h2).2.symm⟩

/-- Facts on every state of the second phase. -/
structure PolyFacts (B : Backend F E) (params : Params) (index : ℕ) (rng : B.Rng) (h : DkgHistory F E)
    (p : CollectingPolynomials F E) : Prop where
  setup : ∃ own, Setup B params index rng p.dealer p.opening own ∧ p.commitments[index]? = some own
  params_eq : p.params = params
  index_eq : p.index = index
  commitments_length : p.commitments.length = params.shares
  commitments_eq : ∀ i, i < params.shares → i ≠ index → p.commitments[i]? = firstFrom h.commitments i
  polys_length : p.publicPolynomials.length = params.shares
  polys : ∀ (i : ℕ) (c : Bytes), p.commitments[i]? = some c →
      ((∀ m ∈ h.polynomials, m.1 = i → ¬ AcceptableInfo B params c m.2) ∧
        p.publicPolynomials[i]? = some (if i = index then some p.dealer.publicInfo.1 else none)) ∨
      ∃ pre info post, h.polynomials = pre ++ (i, info) :: post ∧ AcceptableInfo B params c info ∧
        (∀ m ∈ post, m.1 = i → ¬ AcceptableInfo B params c m.2) ∧
        p.publicPolynomials[i]? = some (some info.polynomial)

theorem dkgPolynomials_spec {B : Backend F E} {params : Params} {index : ℕ} {rng : B.Rng}
    {h : DkgHistory F E} {p : CollectingPolynomials F E} (hp : dkgPolynomials B params index rng h = some p) :
    PolyFacts B params index rng h p := by
  simp only [dkgPolynomials, Option.bind_eq_bind, Option.bind_eq_some_iff, Option.pure_def,
    Option.some.injEq] at hp
  obtain ⟨p0, h0, q, hq, rfl⟩ := hp
  obtain ⟨own, hs, hpar, hidx, hcom⟩ := dkgCommitments_spec h0
  obtain ⟨-, q1, q2, q3, q4, q5, q6⟩ := finishCommitments_spec hq
  rw [hpar] at q1 q6
  rw [hidx] at q2 q6
  have hclen : q.commitments.length = params.shares := by
    have := congrArg List.length q5
    rw [hcom] at this
    simpa using this.symm
  have hlen : q.publicPolynomials.length = q.commitments.length := by rw [q6, hclen]; simp
  obtain ⟨e1, e2, e3, e4, e5, e6, e7⟩ := CollectingPolynomials.run_spec (B := B) q hlen h.polynomials
  have hget : ∀ i, i < params.shares →
      q.commitments[i]?.map some = some (if i = index then some own else firstFrom h.commitments i) := by
    intro i hi
    rw [← List.getElem?_map, ← q5, hcom, List.getElem?_map, List.getElem?_range hi]
    rfl
  have hown : q.commitments[index]? = some own := by
    have := hget index hs.index_lt
    simpa using this
  constructor
  · exact ⟨own, by rw [e3, e4, q3, q4]; exact hs, by rw [e5]; exact hown⟩
  · exact e1.trans q1
  · exact e2.trans q2
  · rw [e5, hclen]
  · intro i hi hne
    have := hget i hi
    rw [if_neg hne] at this
    rw [e5]
    cases hc : q.commitments[i]? with
    | none => rw [hc] at this; cases this
    | some c => rw [hc] at this; exact Option.some.inj this
  · rw [e6, hlen, hclen]
  · intro i c hc
    rw [e5] at hc
    have h7 := e7 i c hc
    rw [q1] at h7
    have hi : i < params.shares := by rw [← hclen]; exact (List.getElem?_eq_some_iff.mp hc).1
    rcases h7 with ⟨ha, hb⟩ | h7
    · refine .inl ⟨ha, ?_⟩
      rw [hb, q6, e3, q3, List.getElem?_set]
      by_cases hx : index = i
      · subst hx; simp [hi]
      · have : ¬ i = index := fun h => hx h.symm
        simp [hx, this, hi]
    · exact .inr h7

theorem PolyFacts.of_present {B : Backend F E} {params : Params} {index : ℕ} {rng : B.Rng}
    {h : DkgHistory F E} {p : CollectingPolynomials F E} (hp : PolyFacts B params index rng h p)
    {i : ℕ} {poly : List E} (hi : p.publicPolynomials[i]? = some (some poly)) :
    poly.length = params.threshold ∧ ∃ c e o, p.commitments[i]? = some c ∧ poly.head? = some e ∧ Opens B c e o := by
  have hlt : i < p.commitments.length := by
    rw [hp.commitments_length, ← hp.polys_length]; exact (List.getElem?_eq_some_iff.mp hi).1
  have hc := List.getElem?_eq_getElem hlt
  rcases hp.polys i _ hc with ⟨-, hb⟩ | ⟨pre, info, post, -, hb, -, hd⟩
  · rw [hi] at hb
    by_cases hx : i = index
    · subst hx
      rw [if_pos rfl] at hb
      cases hb
      obtain ⟨own, hs, hown⟩ := hp.setup
      obtain ⟨rng1, hd, -⟩ := hs.created
      simp only [Dealer.new, Option.bind_eq_bind, Option.bind_eq_some_iff, Option.pure_def, Option.some.injEq,
        Prod.mk.injEq, Prod.exists] at hd
      obtain ⟨kps, r1, hk, pop, t', r2, hpop, hdeal, -⟩ := hd
      obtain ⟨e, he, ho⟩ := hs.opens
      refine ⟨?_, own, e, _, hown, he, ho⟩
      rw [← hdeal]
      simpa [Dealer.publicInfo] using (generateKeypairs_spec _ hk).1
    · rw [if_neg hx] at hb
      cases hb
  · rw [hi] at hd
    cases hd
    obtain ⟨⟨e, he, ho⟩, hl, -⟩ := hb
    exact ⟨hl, _, e, _, hc, he, ho⟩

theorem filterMap_id_of_all_some {α : Type} : ∀ (l : List (Option α)), (∀ x ∈ l, x.isNone = false) →
    (l.filterMap id).map some = l := by
  intro l
  induction l with
  | nil => simp
  | cons a l ih =>
    intro h
    cases a with
    | none => simp at h
    | some a => simpa using ih fun x hx => h x (by simp [hx])

theorem finishPolynomials_spec {p : CollectingPolynomials F E} {q : ExchangingSecrets F E}
    (h : p.finishPolynomialsPhase = some q) :
    p.missingPublicPolynomials = [] ∧ q.params = p.params ∧ q.index = p.index ∧ q.dealer = p.dealer ∧
    q.publicPolynomials.map some = p.publicPolynomials ∧
    p.dealer.secretShareForParticipant p.index = some q.accumulatedShare ∧
    q.sharesReceived = (List.replicate p.params.shares false).set p.index true := by
  simp only [CollectingPolynomials.finishPolynomialsPhase, Option.bind_eq_bind, Option.bind_eq_some_iff,
    Option.pure_def, Option.some.injEq, guard_eq_some'] at h
  obtain ⟨-, h1, rec, h2, s, h3, rfl⟩ := h
  exact ⟨h1, rfl, rfl, rfl, filterMap_id_of_all_some _ (missingIndexes_eq_nil.mp h1), h3, (setAt_eq_some.mp h2).2.symm⟩

/-- Facts on every state of the third phase. -/
structure ShareFacts (B : Backend F E) (params : Params) (index : ℕ) (rng : B.Rng) (h : DkgHistory F E)
    (q : CollectingPolynomials F E) (p : ExchangingSecrets F E) : Prop where
  before : dkgPolynomials B params index rng h = some q
  facts : PolyFacts B params index rng h q
  params_eq : p.params = params
  index_eq : p.index = index
  dealer_eq : p.dealer = q.dealer
  polys : p.publicPolynomials.map some = q.publicPolynomials
  polys_length : p.publicPolynomials.length = params.shares
  degree : ∀ poly ∈ p.publicPolynomials, poly.length = params.threshold
  received_length : p.sharesReceived.length = params.shares
  shares : ∃ accepted : List (ℕ × F), accepted.Sublist h.shares ∧ (accepted.map Prod.fst).Nodup ∧
      (∀ m ∈ accepted, m.1 < params.shares ∧ m.1 ≠ index ∧
        ∃ poly, p.publicPolynomials[m.1]? = some poly ∧ AcceptableShare B index poly m.2) ∧
      p.accumulatedShare = polyAt ((index : F) + 1) (p.dealer.polynomial.map (·.secret)) +
        (accepted.map Prod.snd).sum ∧
      (∀ i, p.sharesReceived[i]? = some true ↔ i = index ∨ i ∈ accepted.map Prod.fst) ∧
      (∀ m ∈ h.shares, m.1 < params.shares → m.1 ≠ index →
        ∀ poly, p.publicPolynomials[m.1]? = some poly → AcceptableShare B index poly m.2 →
          m.1 ∈ accepted.map Prod.fst)

theorem dkgShares_spec {B : Backend F E} {params : Params} {index : ℕ} {rng : B.Rng}
    {h : DkgHistory F E} {p : ExchangingSecrets F E} (hp : dkgShares B params index rng h = some p) :
    ∃ q, ShareFacts B params index rng h q p := by
  simp only [dkgShares, Option.bind_eq_bind, Option.bind_eq_some_iff, Option.pure_def, Option.some.injEq] at hp
  obtain ⟨q, hq, p0, hp0, rfl⟩ := hp
  have hf := dkgPolynomials_spec hq
  obtain ⟨own, hs, hown⟩ := hf.setup
  obtain ⟨-, h1, h2, h3, h4, h5, h6⟩ := finishPolynomials_spec hp0
  rw [hf.params_eq] at h1 h6
  rw [hf.index_eq] at h2 h6 h5
  have hplen : p0.publicPolynomials.length = params.shares := by
    rw [← hf.polys_length, ← h4, List.length_map]
  have hrlen : p0.sharesReceived.length = params.shares := by rw [h6]; simp
  obtain ⟨e1, e2, e3, e4, e5, acc, e6, e7, e8, e9, e10, e11⟩ :=
    ExchangingSecrets.run_spec (B := B) p0 (hplen.trans hrlen.symm) h.shares
  rw [h2] at e8 e11
  have hrec : ∀ i, (p0.sharesReceived[i]? = some true ↔ i = index) ∧
      (p0.sharesReceived[i]? = some false ↔ i < params.shares ∧ i ≠ index) := by
    intro i
    have := hs.index_lt
    rw [h6, List.getElem?_set]
    by_cases hx : index = i
    · subst hx; simp [this]
    · have hx' : ¬ i = index := fun h => hx h.symm
      simp [hx, hx', List.getElem?_replicate]
  refine ⟨q, ⟨hq, hf, e1.trans h1, e2.trans h2, e3.trans h3, by rw [e4, h4], by rw [e4, hplen], ?_,
    by rw [e5, hrlen], acc, e6, e7, ?_, ?_, ?_, ?_⟩⟩
  · intro poly hpoly
    rw [e4] at hpoly
    obtain ⟨i, hi, rfl⟩ := List.getElem_of_mem hpoly
    refine (hf.of_present (i := i) ?_).1
    rw [← h4, List.getElem?_map, List.getElem?_eq_getElem hi]
    rfl
  · intro m hm
    obtain ⟨a, b⟩ := e8 m hm
    obtain ⟨a1, a2⟩ := (hrec m.1).2.mp a
    rw [e4]
    exact ⟨a1, a2, b⟩
  · rw [e9, e3, h3]
    congr 1
    rw [Dealer.share_eq, hs.params_eq, if_pos hs.index_lt] at h5
    exact (Option.some.inj h5).symm
  · intro i
    rw [e10 i, (hrec i).1]
  · intro m hm hlt hne poly hpoly hacc
    rw [e4] at hpoly
    exact e11 m hm ((hrec m.1).2.mpr ⟨hlt, hne⟩) poly hpoly hacc

/-- With all shares received, the accumulated share is the value of the sum of the polynomials (the own one
taken from the dealer). -/
theorem ShareFacts.accumulated {B : Backend F E} {params : Params} {index : ℕ} {rng : B.Rng}
    {h : DkgHistory F E} {q : CollectingPolynomials F E} {p : ExchangingSecrets F E}
    (hf : ShareFacts B params index rng h q p) (hm : p.missingShares = []) (own : List E)
    (hown : p.publicPolynomials[index]? = some own) :
    p.accumulatedShare • B.gen + polyAt ((index : F) + 1) own =
      polyAt ((index : F) + 1) (p.dealer.polynomial.map (·.secret)) • B.gen +
        (p.publicPolynomials.map (polyAt ((index : F) + 1))).sum := by
  obtain ⟨acc, -, h2, h3, h4, h5, -⟩ := hf.shares
  have hall : ∀ i, i < params.shares → i = index ∨ i ∈ acc.map Prod.fst := by
    intro i hi
    rw [← h5]
    have hi' : i < p.sharesReceived.length := by rw [hf.received_length]; exact hi
    have := missingIndexes_eq_nil.mp hm p.sharesReceived[i] (List.getElem_mem hi')
    rw [List.getElem?_eq_getElem hi']
    simpa using this
  have hidx : index < params.shares := by
    rw [← hf.polys_length]; exact (List.getElem?_eq_some_iff.mp hown).1
  set V : ℕ → E := fun j => polyAt ((index : F) + 1) (p.publicPolynomials.getD j []) with hV
  have hsum : ((acc.map Prod.snd).sum : F) • B.gen = ((acc.map Prod.fst).map V).sum := by
    rw [List.sum_smul, List.map_map, List.map_map]
    congr 1
    refine List.map_congr_left fun m hm' => ?_
    obtain ⟨-, -, poly, hpoly, ha⟩ := h3 m hm'
    simp only [Function.comp_apply, hV, List.getD_eq_getElem?_getD, hpoly, Option.getD_some]
    exact ha.1
  have hset : (acc.map Prod.fst).toFinset = (Finset.range params.shares).erase index := by
    ext i
    simp only [List.mem_toFinset, Finset.mem_erase, Finset.mem_range]
    constructor
    · intro hi
      obtain ⟨m, hm', rfl⟩ := List.mem_map.mp hi
      exact ⟨(h3 m hm').2.1, (h3 m hm').1⟩
    · rintro ⟨hne, hlt⟩
      exact (hall i hlt).resolve_left hne
  have hfull : (p.publicPolynomials.map (polyAt ((index : F) + 1))).sum = ∑ j ∈ Finset.range params.shares, V j := by
    rw [← range_toFinset, List.sum_toFinset _ List.nodup_range]
    congr 1
    refine List.ext_getElem (by simp [hf.polys_length]) fun k a b => ?_
    have : k < p.publicPolynomials.length := by simpa using a
    simp [hV, this]
  have hVi : V index = polyAt ((index : F) + 1) own := by
    simp [hV, List.getD_eq_getElem?_getD, hown]
  rw [h4, add_smul, hsum, ← List.sum_toFinset _ h2, hset, hfull,
    ← Finset.sum_erase_add _ V (Finset.mem_range.mpr hidx), hVi]
  abel

end

end ElasticElgamal
