import Verif.Lemmas.Watched
import Verif.Lemmas.Draws
import Verif.Spec.DkgBias
import Verif.Props.Dkg

/-!
# Lemmas: who determines the key made by distributed key generation
-/

set_option autoImplicit false
set_option linter.unusedSectionVars false

namespace ElasticElgamal

open Spec

variable {F E : Type} [Field F] [AddCommGroup E] [Module F E] [DecidableEq F] [DecidableEq E]

/-! ## The honest participant -/

theorem generateKeypairs_withSha (B : Backend F E) (H : Bytes → Digest) : ∀ (n : ℕ) (rng : List F × List Digest),
    Dealer.generateKeypairs (B.withSha H).withTapes n rng = Dealer.generateKeypairs B.withTapes n rng
  | 0, _ => rfl
  | n + 1, rng => by
    simp only [Dealer.generateKeypairs]
    refine bind_congr fun x => ?_
    rw [generateKeypairs_withSha B H n]

theorem drawRandomScalars_withSha (B : Backend F E) (H : Bytes → Digest) :
    ∀ (n : ℕ) (t : Transcript) (rng : List F × List Digest),
    ProofOfPossession.drawRandomScalars (B.withSha H).withTapes n t rng =
      ProofOfPossession.drawRandomScalars B.withTapes n t rng
  | 0, _, _ => rfl
  | n + 1, t, rng => by
    simp only [ProofOfPossession.drawRandomScalars]
    refine bind_congr fun x => ?_
    rw [drawRandomScalars_withSha B H n]
    rfl

theorem dealer_withSha (B : Backend F E) (H : Bytes → Digest) (params : Params) (rng : List F × List Digest) :
    Dealer.new (B.withSha H).withTapes params rng = Dealer.new B.withTapes params rng := by
  simp only [Dealer.new, ProofOfPossession.new, ProofOfPossession.fromKeys, generateKeypairs_withSha,
    drawRandomScalars_withSha]
  rfl

theorem drawScalars_withTapes (B : Backend F E) : ∀ (n : ℕ) (rng : List F × List Digest),
    (drawScalars B.withTapes n rng).2.2 = rng.2
  | 0, _ => rfl
  | n + 1, rng => drawScalars_withTapes B n (rng.1.tail, rng.2)

/-- The first scalar is the constant term, and the opening is read after the scalars. -/
theorem dealer_withTapes (B : Backend F E) {params : Params} (ht : 0 < params.threshold) {scalars : List F}
    {openings : List Digest} {dealer : Dealer F E} {rng' : List F × List Digest}
    (h : Dealer.new B.withTapes params (scalars, openings) = some (dealer, rng')) :
    dealer.publicInfo.1.head? = some (scalars.headD 0 • B.gen) ∧ rng'.2 = openings := by
  constructor
  · simp only [Dealer.new, Option.bind_eq_bind, Option.bind_eq_some_iff, Option.pure_def, Option.some.injEq,
      Prod.mk.injEq, Prod.exists] at h
    obtain ⟨kps, r1, r1', hk, pop, t', r2, r2', -, rfl, -⟩ := h
    obtain ⟨n, hn⟩ : ∃ n, params.threshold = n + 1 := ⟨params.threshold - 1, by omega⟩
    rw [hn] at hk
    simp only [Dealer.generateKeypairs, Keypair.generate, Option.bind_eq_bind, Option.bind_eq_some_iff,
      Option.pure_def, Option.some.injEq, Prod.mk.injEq, Prod.exists] at hk
    obtain ⟨kp, r3, r3', ⟨pk, hpk, rfl, -⟩, rest, r4, r4', -, rfl, -⟩ := hk
    simp only [Dealer.publicInfo, List.map_cons, List.head?_cons, Option.some.injEq]
    exact (fromElement_isKey.mp hpk).1
  · obtain ⟨g, hg, -⟩ := dealer_draws (B := B.withTapes) params
    have hg := hg (scalars, openings)
    simp only [h] at hg
    cases hx : g (drawScalars B.withTapes (2 * params.threshold) (scalars, openings)).1 with
    | none => simp [hx] at hg
    | some d =>
      simp only [hx, Option.map_some, Option.some.injEq, Prod.mk.injEq] at hg
      rw [hg.2, drawScalars_withTapes]

/-- What is known of the honest participant. -/
theorem Setup.withTapes {B : Backend F E} {H : Bytes → Digest} {params : Params} (ht : 0 < params.threshold)
    {index : ℕ} {scalars : List F} {opening : Digest} {dealer : Dealer F E} {o own : Bytes}
    (h : Setup (B.withSha H).withTapes params index (scalars, [opening]) dealer o own) :
    dealer.publicInfo.1.head? = some (scalars.headD 0 • B.gen) ∧ o = List.ofFn opening ∧
    (∃ rng', Dealer.new B.withTapes params (scalars, [opening]) = some (dealer, rng')) ∧
    ∃ b, B.serElem (scalars.headD 0 • B.gen) = some b ∧ own = List.ofFn (H (b ++ List.ofFn opening)) := by
  obtain ⟨rng1, hd, ho⟩ := h.created
  rw [dealer_withSha] at hd
  obtain ⟨h1, h2⟩ := dealer_withTapes B ht hd
  have ho : o = List.ofFn opening := by
    rw [ho]
    show List.ofFn (rng1.2.headD fun _ => 0) = _
    rw [h2]
    rfl
  obtain ⟨e, he, b, hb, hown⟩ := h.opens
  rw [h1, Option.some.injEq] at he
  subst he
  exact ⟨h1, ho, ⟨rng1, hd⟩, b, hb, by rw [hown, ho]⟩

/-! ## The game -/

open Classical in
/-- The 32 bytes, if there are so many. -/
noncomputable def toDigest (b : Bytes) : Option Digest :=
  if h : ∃ d : Digest, List.ofFn d = b then some h.choose else none

theorem toDigest_ofFn (d : Digest) : toDigest (List.ofFn d) = some d := by
  have h : ∃ d' : Digest, List.ofFn d' = List.ofFn d := ⟨d, rfl⟩
  rw [toDigest, dif_pos h]
  exact congrArg some (List.ofFn_injective h.choose_spec)

/-- The data hashed by the honest participant. -/
def honestQuery (B : Backend F E) (x : F) (opening : Digest) : Option Bytes :=
  (B.serElem (x • B.gen)).map (· ++ List.ofFn opening)

/-- The data published by the honest participant. -/
def honestInfo (B : Backend F E) (params : Params) (scalars : List F) (opening : Digest) :
    Option (PublicInfo F E) :=
  (Dealer.new B.withTapes params (scalars, [opening])).map fun d =>
    ⟨d.1.publicInfo.1, d.1.publicInfo.2, List.ofFn opening⟩

/-- Commitments of other participants. -/
noncomputable def announced (params : Params) (commitments : List (ℕ × Bytes)) : List Digest :=
  (List.range params.shares).filterMap fun i => (firstFrom commitments i).bind toDigest

/-- Data hashed when polynomials are checked. -/
def openQueries (B : Backend F E) (polynomials : List (ℕ × PublicInfo F E)) : List Bytes :=
  polynomials.filterMap fun m => m.2.polynomial.head?.bind fun e => (B.serElem e).map (· ++ m.2.opening)

/-- All evaluations of the hash function in key generation. -/
noncomputable def biasGame (B : Backend F E) (params : Params) (attack : DkgAttack F E) (m : ℕ) (scalars : List F)
    (opening : Digest) : Watched Bytes Digest :=
  match honestQuery B (scalars.headD 0) opening, honestInfo B params scalars opening with
  | some q, some info => .ask q fun c => (attack.commit (List.ofFn c)).watch fun r =>
      .announce (announced params r.1) <| (attack.reveal r.2 info).watch fun polynomials =>
        (OracleAlg.askAll (openQueries B (polynomials.take m))).watch fun _ => .done
  | _, _ => .done

theorem biasGame_atMost (B : Backend F E) (params : Params) {attack : DkgAttack F E} {q₁ q₂ m : ℕ}
    (ha : attack.Bounded q₁ q₂ m) (scalars : List F) (opening : Digest) :
    (biasGame B params attack m scalars opening).AtMost (q₁ + q₂ + m + 1) params.shares := by
  unfold biasGame
  split
  · intro c
    rw [show q₁ + q₂ + m = q₁ + (q₂ + m) by omega]
    refine (ha.commit _).watch fun r => ?_
    have hl : (announced params r.1).length ≤ params.shares := by
      refine (List.length_filterMap_le _ _).trans ?_
      simp
    have hr := (ha.reveal r.2 ‹_›).watch (m := m) (k := params.shares - (announced params r.1).length)
      (f := fun polynomials =>
        (OracleAlg.askAll (A := Digest) (openQueries B (polynomials.take m))).watch fun _ => .done) fun polynomials => by
      have h := (OracleAlg.atMost_askAll (A := Digest) (openQueries B (polynomials.take m))).watch (m := 0)
        (k := params.shares - (announced params r.1).length) (f := fun _ => .done) fun _ => trivial
      refine h.mono ?_ le_rfl
      refine (List.length_filterMap_le _ _).trans ?_
      simp
    cases hn : q₂ + m with
    | zero => exact ⟨hl, hn ▸ hr⟩
    | succ n => exact ⟨hl, hn ▸ hr⟩
  · trivial

/-- If nothing was caught, then polynomials that match the commitments were hashed before the honest participant
has published its polynomial. -/
theorem biasGame_uncaught {B : Backend F E} {params : Params} {attack : DkgAttack F E} {q₁ q₂ m : ℕ}
    (ha : attack.Bounded q₁ q₂ m) {scalars : List F} {opening : Digest} {H : Bytes → Digest} {q : Bytes}
    {info : PublicInfo F E} (hq : honestQuery B (scalars.headD 0) opening = some q)
    (hi : honestInfo B params scalars opening = some info)
    (hc : ¬ (biasGame B params attack m scalars opening).Caught H [] []) :
    let alg := attack.commit (List.ofFn (H q))
    let r := alg.run H
    (∀ a ∈ q :: alg.queries H, ∀ a' ∈ q :: alg.queries H, H a = H a' → a = a') ∧
    ∀ q' ∈ openQueries B ((attack.reveal r.2 info).run H), H q' = H q ∨ H q' ∈ announced params r.1 →
      q' ∈ q :: alg.queries H := by
  intro alg r
  simp only [biasGame, hq, hi, Watched.Caught, List.not_mem_nil, if_false, false_or] at hc
  have hu : OracleAlg.Uncaught H [q] [H q] := ⟨by simp, by simp⟩
  obtain ⟨h1, T1, u1, n1, s1, k1, t1, e1⟩ := OracleAlg.uncaught_watch _ hu hc
  have u1' : OracleAlg.Uncaught H h1 (announced params r.1 ++ T1) :=
    ⟨fun q hq => List.mem_append_right _ (u1.recorded q hq), u1.inj⟩
  obtain ⟨h2, T2, u2, n2, s2, k2, t2, e2⟩ := OracleAlg.uncaught_watch _ u1' n1
  obtain ⟨h3, T3, u3, n3, s3, k3, t3, e3⟩ := OracleAlg.uncaught_watch _ u2 n2
  have hsub : ∀ a ∈ q :: alg.queries H, a ∈ h1 := fun a h => by
    rcases List.mem_cons.mp h with rfl | h
    · exact s1 _ (by simp)
    · exact k1 _ h
  have hsub' : ∀ a ∈ h1, a ∈ q :: alg.queries H := fun a h => by
    rcases e1 a h with h | h
    · rw [List.mem_singleton.mp h]; exact List.mem_cons_self
    · exact List.mem_cons_of_mem _ h.1
  refine ⟨fun a ha' a' ha'' he => u1.inj _ (hsub _ ha') _ (hsub _ ha'') he, fun q' hq' ht => ?_⟩
  have hT : H q' ∈ announced params r.1 ++ T1 := by
    rcases ht with h | h
    · rw [h]; exact List.mem_append_right _ (t1 _ (by simp))
    · exact List.mem_append_left _ h
  have h3' : q' ∈ h3 := k3 _ (by
    rw [OracleAlg.queries_askAll, List.take_of_length_le (ha.messages _ _ _)]
    exact hq')
  rcases e3 q' h3' with h | ⟨-, h⟩
  · rcases e2 q' h with h | ⟨-, h⟩
    · exact hsub' _ h
    · exact absurd hT h
  · exact absurd (t2 _ hT) h

/-! ## The key -/

/-- Participants whose commitment is that of the honest one. -/
def copies (params : Params) (index : ℕ) (own : Bytes) (commitments : List (ℕ × Bytes)) : Finset ℕ :=
  (Finset.range params.shares).filter fun i => i = index ∨ firstFrom commitments i = some own

/-- The constant term to which the attacker has committed, found among the data it has hashed. -/
def extracted (B : Backend F E) (hashed : List Bytes) (H : Bytes → Digest) (commitment : Bytes) : E :=
  ((hashed.find? fun q => decide (List.ofFn (H q) = commitment)).bind fun q => B.deElem (q.take B.elementSize)).getD 0

/-- The part of the key chosen by the attacker. -/
def attackerPart (B : Backend F E) (params : Params) (index : ℕ) (own : Bytes) (commitments : List (ℕ × Bytes))
    (hashed : List Bytes) (H : Bytes → Digest) : E :=
  ∑ i ∈ (Finset.range params.shares).filter fun i => ¬ (i = index ∨ firstFrom commitments i = some own),
    extracted B hashed H ((firstFrom commitments i).getD [])

/-- The key, for a given constant term of the honest participant. -/
def predictedKey (B : Backend F E) (params : Params) (index : ℕ) (attack : DkgAttack F E) (H : Bytes → Digest)
    (c : Digest) (x : F) : E :=
  let alg := attack.commit (List.ofFn c)
  (copies params index (List.ofFn c) (alg.run H).1).card • x • B.gen +
    attackerPart B params index (List.ofFn c) (alg.run H).1 (alg.queries H) H

theorem predictedKey_update {B : Backend F E} {params : Params} {index : ℕ} {attack : DkgAttack F E}
    {H : Bytes → Digest} {q : Bytes} (a c : Digest) (hq : q ∉ (attack.commit (List.ofFn c)).queries H) (x : F) :
    predictedKey B params index attack (Function.update H q a) c x = predictedKey B params index attack H c x := by
  obtain ⟨h1, h2⟩ := OracleAlg.run_queries_update a _ hq
  have h3 : ∀ b, extracted B ((attack.commit (List.ofFn c)).queries H) (Function.update H q a) b =
      extracted B ((attack.commit (List.ofFn c)).queries H) H b := by
    intro b
    unfold extracted
    congr 2
    refine List.find?_congr fun q' hq' => ?_
    rw [Function.update_of_ne (by rintro rfl; exact hq hq')]
  simp only [predictedKey, h1, h2, attackerPart, h3]

theorem list_sum_getD {l : List (List E)} {n : ℕ} (hl : l.length = n) (f : List E → E) :
    (l.map f).sum = ∑ i ∈ Finset.range n, f (l.getD i []) := by
  have : l.map f = (List.range n).map fun i => f (l.getD i []) := by
    refine List.ext_getElem? fun i => ?_
    by_cases hi : i < n
    · simp [hi, hl]
    · rw [List.getElem?_eq_none (by simpa [hl] using hi), List.getElem?_eq_none (by simpa using hi)]
  rw [this]
  rfl

/-- Unless something was caught or the data of the honest participant were guessed, the key is the predicted one. -/
theorem yields_predicted {B : Backend F E} (hB : B.Lawful) (p : ℕ) [CharP F p] {params : Params}
    (hv : ValidParams params) (hn : params.shares < p) {index : ℕ} {attack : DkgAttack F E} {q₁ q₂ m : ℕ}
    (ha : attack.Bounded q₁ q₂ m) {S : Finset E} {scalars : List F} {opening : Digest} {H : Bytes → Digest}
    (hy : attack.Yields B params index S H scalars opening)
    (hc : ¬ (biasGame B params attack m scalars opening).Caught H [] []) :
    index < params.shares ∧ ∃ q, honestQuery B (scalars.headD 0) opening = some q ∧
      (q ∉ (attack.commit (List.ofFn (H q))).queries H →
        predictedKey B params index attack H (H q) (scalars.headD 0) ∈ S) := by
  have ht : 0 < params.threshold := hv.1
  obtain ⟨start, own, hnew, hown, collecting, hfin, shares, exchanging, result, hsh, hcomp, hS⟩ := hy
  rw [Option.map_eq_some_iff] at hnew
  obtain ⟨⟨start', rng'⟩, hnew, rfl⟩ := hnew
  obtain ⟨own', hset, hs1, hs2, hs3⟩ := collecting_new_spec hnew
  have hoo : own' = own := by
    simp only [CollectingCommitments.commitment, hs2, hs3, Option.bind_eq_bind] at hown
    simpa [hset.index_lt] using hown
  subst hoo
  obtain ⟨d1, d2, ⟨rng1, d3⟩, b, hb, hown'⟩ := hset.withTapes ht
  have hq : honestQuery B (scalars.headD 0) opening = some (b ++ List.ofFn opening) := by
    rw [honestQuery, hb]; rfl
  refine ⟨hset.index_lt, _, hq, fun hguess => ?_⟩
  generalize hqe : b ++ List.ofFn opening = q at *
  subst hown'
  set alg := attack.commit (List.ofFn (H q)) with halg
  set r := alg.run H with hr
  have hinfo : honestInfo B params scalars opening = some collecting.publicInfo := by
    obtain ⟨e1, e2, e3, e4, -⟩ := CollectingCommitments.run_spec r.1 start'
    rw [C47_public_info _ _ hfin, e3, e4, d2, honestInfo, d3]
    rfl
  obtain ⟨hinj, hpre⟩ := biasGame_uncaught ha hq hinfo hc
  set polys := (attack.reveal r.2 collecting.publicInfo).run H with hpolys
  obtain ⟨Q, hf⟩ := dkgShares_spec hsh
  obtain ⟨own2, hset2, hcom2⟩ := hf.facts.setup
  obtain ⟨f1, f2, -, b2, hb2, hown2⟩ := hset2.withTapes ht
  have hbb : b2 = b := by rw [hb] at hb2; exact (Option.some.inj hb2).symm
  subst hbb
  rw [hqe] at hown2
  subst hown2
  -- the key is the sum of constant terms
  have hm : exchanging.missingShares = [] := by
    have h := hcomp
    simp only [ExchangingSecrets.complete, Option.bind_eq_bind, Option.bind_eq_some_iff, guard_eq_some'] at h
    exact h.choose_spec.1
  have hkey : result.keySet.sharedKey.element = (exchanging.publicPolynomials.map fun poly => poly.headD 0).sum := by
    rw [complete_eq _ p params hv hn index _ _ _ hsh hm] at hcomp
    simp only [Option.bind_eq_some_iff, Option.map_eq_some_iff] at hcomp
    obtain ⟨keys, -, sk, hsk, hres⟩ := hcomp
    split at hres
    · cases hres
      rw [(fromElement_isKey.mp hsk).1, polyAt_polySum _ _ _ hf.degree]
      congr 1
      exact List.map_congr_left fun poly _ => polyAt_zero poly
    · cases hres
  -- each constant term
  have hterm : ∀ i ∈ Finset.range params.shares, (exchanging.publicPolynomials.getD i []).headD 0 =
      if i = index ∨ firstFrom r.1 i = some (List.ofFn (H q)) then scalars.headD 0 • B.gen
      else extracted B (alg.queries H) H ((firstFrom r.1 i).getD []) := by
    intro i hi
    have hi := Finset.mem_range.mp hi
    obtain ⟨poly, hpoly⟩ : ∃ poly, exchanging.publicPolynomials[i]? = some poly :=
      ⟨_, List.getElem?_eq_getElem (by rw [hf.polys_length]; exact hi)⟩
    have hQ : Q.publicPolynomials[i]? = some (some poly) := by
      rw [← hf.polys, List.getElem?_map, hpoly]
      rfl
    rw [List.getD_eq_getElem?_getD, hpoly, Option.getD_some]
    obtain ⟨ci, hci⟩ : ∃ ci, Q.commitments[i]? = some ci :=
      ⟨_, List.getElem?_eq_getElem (by rw [hf.facts.commitments_length]; exact hi)⟩
    have hcase : (i = index ∨ firstFrom r.1 i = some (List.ofFn (H q))) ↔ ci = List.ofFn (H q) := by
      by_cases hx : i = index
      · subst hx
        rw [hcom2] at hci
        exact ⟨fun _ => (Option.some.inj hci).symm, fun _ => .inl rfl⟩
      · have := hf.facts.commitments_eq i hi hx
        rw [hci] at this
        show i = index ∨ firstFrom r.1 i = _ ↔ _
        rw [show firstFrom r.1 i = some ci from this.symm]
        simp [hx]
    rcases hf.facts.polys i ci hci with ⟨-, hp⟩ | ⟨pre, info, post, hsplit, hacc, -, hp⟩
    · -- the own polynomial
      rw [hQ] at hp
      by_cases hx : i = index
      · rw [if_pos hx] at hp
        have hp : poly = Q.dealer.publicInfo.1 := Option.some.inj (Option.some.inj hp)
        rw [if_pos (.inl hx), hp]
        cases hd : Q.dealer.publicInfo.1 with
        | nil => simp [hd] at f1
        | cons e l => simpa [hd] using f1
      · rw [if_neg hx] at hp
        cases hp
    · rw [hQ] at hp
      have hp : poly = info.polynomial := Option.some.inj (Option.some.inj hp)
      obtain ⟨⟨e, he, bi, hbi, hopen⟩, -, -⟩ := hacc
      have hhead : poly.headD 0 = e := by
        rw [hp]
        cases hd : info.polynomial with
        | nil => simp [hd] at he
        | cons e l => simpa [hd] using he
      rw [hhead]
      have hopen : ci = List.ofFn (H (bi ++ info.opening)) := hopen
      have hbi : B.serElem e = some bi := hbi
      have hmem : bi ++ info.opening ∈ openQueries B polys := by
        refine List.mem_filterMap.mpr ⟨(i, info), ?_, by simp [he, hbi]⟩
        have : (i, info) ∈ pre ++ (i, info) :: post := by simp
        rw [← hsplit] at this
        exact this
      have hlen : ∀ {e b}, B.serElem e = some b → b.length = B.elementSize := fun h => hB.serElem_length _ _ h
      have hdec : ∀ {l}, B.deElem ((bi ++ l).take B.elementSize) = some e := by
        intro l
        rw [List.take_append_of_le_length (hlen hbi).ge, List.take_of_length_le (hlen hbi).le]
        exact hB.deElem_serElem _ _ hbi
      by_cases hx : i = index ∨ firstFrom r.1 i = some (List.ofFn (H q))
      · rw [if_pos hx]
        have hH : H (bi ++ info.opening) = H q := List.ofFn_injective (hopen.symm.trans (hcase.mp hx))
        have hin := hpre _ hmem (.inl hH)
        have heq := hinj _ hin _ List.mem_cons_self hH
        have h1 : B.deElem (q.take B.elementSize) = some e := by rw [← heq]; exact hdec
        rw [← hqe, List.take_append_of_le_length (hlen hb).ge, List.take_of_length_le (hlen hb).le,
          hB.deElem_serElem _ _ hb] at h1
        exact (Option.some.inj h1).symm
      · rw [if_neg hx]
        have hne : H (bi ++ info.opening) ≠ H q := fun h => hx (hcase.mpr (by rw [hopen, h]))
        have hix : i ≠ index := fun h => hx (.inl h)
        have hfirst : firstFrom r.1 i = some ci := (hf.facts.commitments_eq i hi hix).symm.trans hci
        have hann : H (bi ++ info.opening) ∈ announced params r.1 := by
          refine List.mem_filterMap.mpr ⟨i, List.mem_range.mpr hi, ?_⟩
          rw [hfirst, Option.bind_some, hopen, toDigest_ofFn]
        have hin : bi ++ info.opening ∈ alg.queries H := by
          rcases List.mem_cons.mp (hpre _ hmem (.inr hann)) with h | h
          · exact absurd (by rw [h]) hne
          · exact h
        rw [hfirst, Option.getD_some, extracted]
        obtain ⟨q', hq'⟩ : ∃ q', (alg.queries H).find? (fun q => decide (List.ofFn (H q) = ci)) = some q' := by
          rw [← Option.isSome_iff_exists, List.find?_isSome]
          exact ⟨_, hin, by simp [hopen]⟩
        have h1 := List.mem_of_find?_eq_some hq'
        have h2 : H q' = H (bi ++ info.opening) := by
          have := List.find?_some hq'
          simp only [decide_eq_true_eq] at this
          exact List.ofFn_injective (this.trans hopen)
        have h3 := hinj _ (List.mem_cons_of_mem _ h1) _ (List.mem_cons_of_mem _ hin) h2
        rw [hq', Option.bind_some, h3, hdec, Option.getD_some]
  rw [hkey, list_sum_getD hf.polys_length, Finset.sum_congr rfl hterm, Finset.sum_ite, Finset.sum_const] at hS
  exact hS

/-! ## Probabilities -/

section
variable [Fintype F]

/-- The part of the honest participant makes the key random. -/
theorem mean_predictedKey {B : Backend F E} (hB : B.Lawful) (p : ℕ) [CharP F p] {params : Params}
    (hn : params.shares < p) {index : ℕ} (hi : index < params.shares) (attack : DkgAttack F E) (S : Finset E)
    (H : Bytes → Digest) (c : Digest) :
    (mean fun x : F => ind (predictedKey B params index attack H c x ∈ S)) ≤ S.card / Fintype.card F := by
  classical
  unfold predictedKey
  set k := (copies params index (List.ofFn c) ((attack.commit (List.ofFn c)).run H).1).card with hk
  have hk0 : (k : F) ≠ 0 := by
    rw [Ne, CharP.cast_eq_zero_iff F p]
    intro hdvd
    have h1 : 0 < k := Finset.card_pos.mpr ⟨index, by simp [copies, hi]⟩
    have h2 : k ≤ params.shares := by
      rw [hk]
      exact (Finset.card_filter_le _ _).trans (by simp)
    have := Nat.le_of_dvd h1 hdvd
    omega
  rw [mean]
  refine div_le_div_of_nonneg_right ?_ (by positivity)
  set V := attackerPart B params index (List.ofFn c) ((attack.commit (List.ofFn c)).run H).1
    ((attack.commit (List.ofFn c)).queries H) H
  have hinj : Function.Injective fun x : F => k • x • B.gen + V := by
    intro x y h
    have h := add_right_cancel h
    rw [← Nat.cast_smul_eq_nsmul F, ← Nat.cast_smul_eq_nsmul F, smul_smul, smul_smul, ← sub_eq_zero, ← sub_smul,
      ← mul_sub] at h
    rcases smul_eq_zero.mp h with h | h
    · exact sub_eq_zero.mp ((mul_eq_zero.mp h).resolve_left hk0)
    · exact absurd h hB.gen_ne_zero
  have hsum : ∑ x : F, ind (k • x • B.gen + V ∈ S) =
      ((Finset.univ.filter fun x : F => k • x • B.gen + V ∈ S).card : ℚ) := by
    rw [Finset.card_filter]
    push_cast
    exact Finset.sum_congr rfl fun x _ => by unfold ind; split_ifs <;> rfl
  rw [hsum]
  exact_mod_cast Finset.card_le_card_of_injOn _ (fun x hx => (Finset.mem_filter.mp hx).2) (hinj.injOn)

/-- The constant term and the opening of the honest participant are hard to guess. -/
theorem mean_honestQuery {B : Backend F E} (hB : B.Lawful) (l : List Bytes) :
    (mean fun x : F => mean fun opening : Digest => ind (∃ q ∈ l, honestQuery B x opening = some q)) ≤
      l.length / (Fintype.card F * Fintype.card Digest) := by
  classical
  rw [← mean_prod fun z : F × Digest => ind (∃ q ∈ l, honestQuery B z.1 z.2 = some q), mean, Fintype.card_prod,
    Nat.cast_mul]
  refine div_le_div_of_nonneg_right ?_ (by positivity)
  have hsum : ∑ z : F × Digest, ind (∃ q ∈ l, honestQuery B z.1 z.2 = some q) =
      ((Finset.univ.filter fun z : F × Digest => ∃ q ∈ l, honestQuery B z.1 z.2 = some q).card : ℚ) := by
    rw [Finset.card_filter]
    push_cast
    exact Finset.sum_congr rfl fun x _ => by unfold ind; split_ifs <;> rfl
  rw [hsum]
  have hcard : (Finset.univ.filter fun z : F × Digest => ∃ q ∈ l, honestQuery B z.1 z.2 = some q).card ≤
      l.toFinset.card := by
    refine Finset.card_le_card_of_injOn (fun z => (honestQuery B z.1 z.2).getD []) ?_ ?_
    · intro z hz
      obtain ⟨q, hq, h⟩ := (Finset.mem_filter.mp hz).2
      simp only [h, Option.getD_some]
      exact List.mem_toFinset.mpr hq
    · intro z hz z' hz' he
      obtain ⟨q, -, h⟩ := (Finset.mem_filter.mp hz).2
      obtain ⟨q', -, h'⟩ := (Finset.mem_filter.mp hz').2
      simp only [h, h', Option.getD_some] at he
      subst he
      simp only [honestQuery, Option.map_eq_some_iff] at h h'
      obtain ⟨b, hb, rfl⟩ := h
      obtain ⟨b', hb', he⟩ := h'
      obtain ⟨h1, h2⟩ := List.append_inj he
        ((hB.serElem_length _ _ hb').trans (hB.serElem_length _ _ hb).symm)
      subst h1
      have h3 : z'.1 • B.gen = z.1 • B.gen := by
        have h4 := hB.deElem_serElem _ _ hb
        rw [hB.deElem_serElem _ _ hb'] at h4
        exact Option.some.inj h4
      have h5 : z'.1 = z.1 := by
        rw [← sub_eq_zero, ← sub_smul] at h3
        exact sub_eq_zero.mp ((smul_eq_zero.mp h3).resolve_right hB.gen_ne_zero)
      exact Prod.ext h5.symm (List.ofFn_injective h2).symm
  exact_mod_cast hcard.trans l.toFinset_card_le

/-- The hash value of the data of the honest participant is chosen apart from all others. -/
theorem meanHash_honest {D : Finset Bytes} (H₀ : Bytes → Digest) {q : Option Bytes} (hq : ∀ b ∈ q, b ∈ D)
    {P : (Bytes → Digest) → Prop} {P' : (Bytes → Digest) → Digest → Prop}
    (h : ∀ H, P H → ∃ b, q = some b ∧ ∀ a, P' (Function.update H b a) (H b)) :
    (meanHash D H₀ fun H => ind (P H)) ≤ meanHash D H₀ fun H => mean fun c => ind (P' H c) := by
  classical
  cases q with
  | none =>
    refine meanHash_le fun H _ => ?_
    rw [ind_false fun hP => by obtain ⟨b, hb, -⟩ := h H hP; cases hb]
    exact div_nonneg (Finset.sum_nonneg fun c _ => ind_nonneg _) (by positivity)
  | some b =>
    rw [← meanHash_update H₀ (hq b rfl) fun H => ind (P H)]
    refine meanHash_le fun H _ => ?_
    refine div_le_div_of_nonneg_right (Finset.sum_le_sum fun c _ => ind_mono fun hP => ?_) (by positivity)
    obtain ⟨b', hb', h'⟩ := h _ hP
    cases hb'
    have := h' (H b)
    simpa using this

end

end ElasticElgamal
