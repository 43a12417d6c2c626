import Verif.Lemmas.Dkg
import Verif.Props.KeySet

/-!
# Distributed key generation (C46–C49)

Statements on reachable states quantify over all parameters, random generators and message histories
(`dkgCommitments`, `dkgPolynomials`, `dkgShares` in `Verif.Spec.Dkg`).
-/

set_option autoImplicit false
set_option linter.unusedSectionVars false

namespace ElasticElgamal

open Spec Toy

variable {F E : Type} [Field F] [AddCommGroup E] [Module F E] [DecidableEq F] [DecidableEq E]

/-! ## C46 -/

/-- C46, first phase: the commitments are the own one and the first one received from each other participant;
`missing_commitments()` lists exactly the others which sent none. -/
theorem C46_commitments (B : Backend F E) (params : Params) (index : ℕ) (rng : B.Rng) (h : DkgHistory F E)
    (p : CollectingCommitments F E) (hp : dkgCommitments B params index rng h = some p) :
    index < params.shares ∧ p.params = params ∧ p.index = index ∧
    (∃ rng', Dealer.new B params rng = some (p.dealer, rng') ∧ p.opening = (B.fill32 rng').1) ∧
    (∃ own c, p.commitment = some own ∧ p.dealer.publicInfo.1.head? = some c ∧ Opens B own c p.opening ∧
      p.commitments = (List.range params.shares).map fun i =>
        if i = index then some own else firstFrom h.commitments i) ∧
    p.missingCommitments =
      indexesWhere params.shares (fun i => i ≠ index ∧ ∀ m ∈ h.commitments, m.1 ≠ i) := by
  obtain ⟨own, hs, h1, h2, h3⟩ := dkgCommitments_spec hp
  obtain ⟨c, hc, ho⟩ := hs.opens
  refine ⟨hs.index_lt, h1, h2, hs.created, ⟨own, c, ?_, hc, ho, h3⟩, ?_⟩
  · simp [CollectingCommitments.commitment, h2, h3, hs.index_lt]
  · rw [CollectingCommitments.missingCommitments, missingIndexes_eq, h3, indexesWhere, List.length_map,
      List.length_range]
    refine List.filter_congr fun i hi => ?_
    have hi := List.mem_range.mp hi
    by_cases hx : i = index
    · simp [hx, hs.index_lt]
    · rw [Bool.eq_iff_iff]
      simp [hx, hi, firstFrom]

/-- Participant 1 of 3 gets two commitments of participant 2, the second of which is ignored, and none of
participant 0. -/
example := C46_commitments B101 ⟨3, 2⟩ 1 (0 : ℕ) ⟨[(2, [5]), (2, [6]), (7, [])], [], []⟩ _ rfl

/-- The toy group with a constant hash function. -/
def C101 : Backend (ZMod 101) (ZMod 101) := B101.withHash fun _ => 7

/-- Messages to participant 0 of a 2-of-2 key generation from participant 1, whose polynomial is `8 + 9x`: one wrong
share and the right one. -/
def exampleHistory : DkgHistory (ZMod 101) (ZMod 101) where
  commitments := [(1, B101.sha256 ([8] ++ [1]))]
  polynomials := [(1, ⟨[8, 9], ⟨7, [1, 2]⟩, [1]⟩)]
  shares := [(1, 3), (1, 17)]

/-- The polynomial `7 + 11x` of participant 0. -/
def exampleDkgDealer : Dealer (ZMod 101) (ZMod 101) :=
  ⟨⟨2, 2⟩, [⟨7, ⟨[7], 7⟩⟩, ⟨11, ⟨[11], 11⟩⟩], ⟨7, [66, 1]⟩⟩

def exampleCollecting : CollectingPolynomials (ZMod 101) (ZMod 101) :=
  ⟨⟨2, 2⟩, 0, exampleDkgDealer, leBytes 32 4, [B101.sha256 ([7] ++ leBytes 32 4), B101.sha256 ([8] ++ [1])],
    [some [7, 11], some [8, 9]]⟩

def exampleExchanging : ExchangingSecrets (ZMod 101) (ZMod 101) :=
  ⟨⟨2, 2⟩, 0, exampleDkgDealer, [[7, 11], [8, 9]], 35, [true, true]⟩

theorem exampleCollecting_eq : dkgPolynomials C101 ⟨2, 2⟩ 0 (0 : ℕ) exampleHistory = some exampleCollecting := rfl

theorem exampleExchanging_eq : dkgShares C101 ⟨2, 2⟩ 0 (0 : ℕ) exampleHistory = some exampleExchanging := rfl

open Classical in
/-- C46, second phase: for each participant the polynomial is that of the last acceptable message (the own
one initially); `missing_public_polynomials()` lists exactly the others which sent no acceptable one. -/
theorem C46_polynomials (B : Backend F E) (params : Params) (index : ℕ) (rng : B.Rng) (h : DkgHistory F E)
    (p : CollectingPolynomials F E) (hp : dkgPolynomials B params index rng h = some p) :
    p.params = params ∧ p.index = index ∧ p.commitments.length = params.shares ∧
    (∀ i, i < params.shares → i ≠ index → p.commitments[i]? = firstFrom h.commitments i) ∧
    p.publicPolynomials.length = params.shares ∧
    (∀ (i : ℕ) (c : Bytes), p.commitments[i]? = some c →
      ((∀ m ∈ h.polynomials, m.1 = i → ¬ AcceptableInfo B params c m.2) ∧
        p.publicPolynomials[i]? = some (if i = index then some p.dealer.publicInfo.1 else none)) ∨
      ∃ pre info post, h.polynomials = pre ++ (i, info) :: post ∧ AcceptableInfo B params c info ∧
        (∀ m ∈ post, m.1 = i → ¬ AcceptableInfo B params c m.2) ∧
        p.publicPolynomials[i]? = some (some info.polynomial)) ∧
    (∀ (i : ℕ) (poly : List E), p.publicPolynomials[i]? = some (some poly) →
      poly.length = params.threshold ∧ ∃ c e o, p.commitments[i]? = some c ∧ poly.head? = some e ∧ Opens B c e o) ∧
    p.missingPublicPolynomials = indexesWhere params.shares (fun i => i ≠ index ∧
      ∀ m ∈ h.polynomials, m.1 = i → ∀ c, p.commitments[i]? = some c → ¬ AcceptableInfo B params c m.2) := by
  have hf := dkgPolynomials_spec hp
  refine ⟨hf.params_eq, hf.index_eq, hf.commitments_length, hf.commitments_eq, hf.polys_length, hf.polys,
    fun i poly hi => hf.of_present hi, ?_⟩
  rw [CollectingPolynomials.missingPublicPolynomials, missingIndexes_eq, hf.polys_length, indexesWhere]
  refine List.filter_congr fun i hi => ?_
  have hi := List.mem_range.mp hi
  have hc := List.getElem?_eq_getElem (l := p.commitments) (i := i) (by rw [hf.commitments_length]; exact hi)
  rcases hf.polys i _ hc with ⟨ha, hb⟩ | ⟨pre, info, post, ha, hb, hc', hd⟩
  · rw [hb]
    by_cases hx : i = index
    · simp [hx]
    · simp only [hx, if_false, Option.any_some, Option.isNone_none, ne_eq, not_false_eq_true, true_and]
      symm
      rw [decide_eq_true_iff]
      intro m hm hmi c hc''
      rw [hc] at hc''
      cases hc''
      exact ha m hm hmi
  · rw [hd]
    simp only [Option.any_some, Option.isNone_some]
    symm
    rw [decide_eq_false_iff_not]
    rintro ⟨-, hn⟩
    exact hn (i, info) (by simp [ha]) rfl _ hc hb

example := C46_polynomials C101 ⟨2, 2⟩ 0 (0 : ℕ) exampleHistory exampleCollecting exampleCollecting_eq

open Classical in
/-- C46, third phase: the accumulated share is the own one plus one accepted share for each participant that
sent an acceptable one, and `missing_shares()` lists exactly the other ones. -/
theorem C46_shares (B : Backend F E) (params : Params) (index : ℕ) (rng : B.Rng) (h : DkgHistory F E)
    (p : ExchangingSecrets F E) (hp : dkgShares B params index rng h = some p) :
    p.params = params ∧ p.index = index ∧
    (∃ q, dkgPolynomials B params index rng h = some q ∧ q.missingPublicPolynomials = [] ∧
      p.publicPolynomials.map some = q.publicPolynomials ∧ p.dealer = q.dealer) ∧
    p.publicPolynomials.length = params.shares ∧
    (∀ poly ∈ p.publicPolynomials, poly.length = params.threshold) ∧
    (∃ accepted : List (ℕ × F), accepted.Sublist h.shares ∧ (accepted.map Prod.fst).Nodup ∧
      (∀ m ∈ accepted, m.1 < params.shares ∧ m.1 ≠ index ∧
        ∃ poly, p.publicPolynomials[m.1]? = some poly ∧ AcceptableShare B index poly m.2) ∧
      (∀ m ∈ h.shares, m.1 < params.shares → m.1 ≠ index →
        ∀ poly, p.publicPolynomials[m.1]? = some poly → AcceptableShare B index poly m.2 →
          m.1 ∈ accepted.map Prod.fst) ∧
      p.accumulatedShare = polyAt ((index : F) + 1) (p.dealer.polynomial.map (·.secret)) +
        (accepted.map Prod.snd).sum) ∧
    p.missingShares = indexesWhere params.shares (fun i => i ≠ index ∧ ∀ m ∈ h.shares, m.1 = i →
      ∀ poly, p.publicPolynomials[i]? = some poly → ¬ AcceptableShare B index poly m.2) := by
  obtain ⟨q, hf⟩ := dkgShares_spec hp
  have hmiss : q.missingPublicPolynomials = [] := by
    rw [CollectingPolynomials.missingPublicPolynomials, missingIndexes_eq_nil, ← hf.polys]
    intro x hx
    obtain ⟨y, -, rfl⟩ := List.mem_map.mp hx
    rfl
  obtain ⟨acc, h1, h2, h3, h4, h5, h6⟩ := hf.shares
  refine ⟨hf.params_eq, hf.index_eq, ⟨q, hf.before, hmiss, hf.polys, hf.dealer_eq⟩, hf.polys_length, hf.degree,
    ⟨acc, h1, h2, h3, h6, h4⟩, ?_⟩
  rw [ExchangingSecrets.missingShares, missingIndexes_eq, hf.received_length, indexesWhere]
  refine List.filter_congr fun i hi => ?_
  have hi := List.mem_range.mp hi
  have hr := List.getElem?_eq_getElem (l := p.sharesReceived) (i := i) (by rw [hf.received_length]; exact hi)
  have hiff := h5 i
  rw [hr] at hiff
  rw [hr, Option.any_some, Bool.eq_iff_iff, decide_eq_true_iff, Bool.not_eq_true']
  constructor
  · intro hfalse
    rw [hfalse] at hiff
    have hno := not_or.mp (hiff.not.mp (by simp))
    refine ⟨hno.1, fun m hm hmi poly hpoly ha => hno.2 ?_⟩
    subst hmi
    exact h6 m hm hi hno.1 poly hpoly ha
  · rintro ⟨hne, hno⟩
    rw [← Bool.not_eq_true]
    intro ht
    rcases hiff.mp (by rw [ht]) with h | h
    · exact hne h
    · obtain ⟨m, hm, rfl⟩ := List.mem_map.mp h
      obtain ⟨-, -, poly, hpoly, ha⟩ := h3 m hm
      exact hno m (h1.subset hm) rfl poly hpoly ha

example := C46_shares C101 ⟨2, 2⟩ 0 (0 : ℕ) exampleHistory exampleExchanging exampleExchanging_eq

/-- C46: a rejected public info leaves the participant unchanged. -/
theorem C46_info_error_unchanged (B : Backend F E) (p p' : CollectingPolynomials F E) (i : ℕ)
    (info : PublicInfo F E) (e : DkgError)
    (h : p.insertPublicPolynomial B i info = some (.error e, p')) : p' = p := by
  simp only [CollectingPolynomials.insertPublicPolynomial, Option.bind_eq_bind, Option.bind_eq_some_iff] at h
  obtain ⟨c, -, com, -, expd, -, h⟩ := h
  split at h
  · simp only [Option.pure_def, Option.some.injEq, Prod.mk.injEq] at h
    exact h.2.symm
  · simp only [Option.bind_eq_some_iff] at h
    obtain ⟨r, -, h⟩ := h
    split at h
    · simp only [Option.pure_def, Option.some.injEq, Prod.mk.injEq] at h
      exact h.2.symm
    · simp [Option.bind_eq_some_iff] at h

/-- A wrong opening. -/
example := C46_info_error_unchanged C101 exampleCollecting exampleCollecting 1 ⟨[8, 9], ⟨7, [1, 2]⟩, [2]⟩
  .InvalidCommitment rfl

/-- C46: a rejected share leaves the participant unchanged. -/
theorem C46_share_error_unchanged (B : Backend F E) (p p' : ExchangingSecrets F E) (i : ℕ) (s : F)
    (e : DkgError) (h : p.insertSecretShare B i s = some (.error e, p')) : p' = p := by
  simp only [ExchangingSecrets.insertSecretShare, Option.bind_eq_bind, Option.bind_eq_some_iff] at h
  obtain ⟨r, -, h⟩ := h
  split at h
  · simp only [Option.pure_def, Option.some.injEq, Prod.mk.injEq] at h
    exact h.2.symm
  · simp only [Option.bind_eq_some_iff] at h
    obtain ⟨poly, -, pk, -, h⟩ := h
    split at h
    · simp only [Option.pure_def, Option.some.injEq, Prod.mk.injEq] at h
      exact h.2.symm
    · simp [Option.bind_eq_some_iff] at h

example := C46_share_error_unchanged C101 exampleExchanging exampleExchanging 1 17 .DuplicateShare rfl

/-! ## C47 -/

/-- C47: unless messages with the own index were given, the own polynomial stays in place. -/
theorem C47_own_polynomial (B : Backend F E) (params : Params) (index : ℕ) (rng : B.Rng) (h : DkgHistory F E)
    (p : ExchangingSecrets F E) (hp : dkgShares B params index rng h = some p)
    (hno : ∀ m ∈ h.polynomials, m.1 ≠ index) :
    p.publicPolynomials[index]? = some p.dealer.publicInfo.1 := by
  obtain ⟨q, hf⟩ := dkgShares_spec hp
  obtain ⟨own, hs, hown⟩ := hf.facts.setup
  rcases hf.facts.polys index own hown with ⟨-, hb⟩ | ⟨pre, info, post, ha, -⟩
  · rw [if_pos rfl, ← hf.polys, List.getElem?_map, Option.map_eq_some_iff] at hb
    obtain ⟨poly, h1, h2⟩ := hb
    cases h2
    rw [h1, hf.dealer_eq]
  · exact absurd rfl (hno (index, info) (by simp [ha]))

example := C47_own_polynomial C101 ⟨2, 2⟩ 0 (0 : ℕ) exampleHistory exampleExchanging exampleExchanging_eq (by decide)

/-- The dealer's public polynomial is that of its secrets. -/
theorem own_poly {B : Backend F E} {params : Params} {index : ℕ} {rng : B.Rng} {dealer : Dealer F E}
    {opening own : Bytes} (hs : Setup B params index rng dealer opening own) (x : F) :
    polyAt x dealer.publicInfo.1 = polyAt x (dealer.polynomial.map (·.secret)) • B.gen := by
  obtain ⟨rng1, hd, -⟩ := hs.created
  obtain ⟨-, -, h3, -⟩ := C42_dealer B params rng rng1 dealer hd
  rw [← polyAt_smul, Dealer.publicInfo, List.map_map]
  congr 1
  exact List.map_congr_left fun kp hkp => (h3 kp hkp).1

/-- The result of `complete` in any state with no missing shares. -/
theorem complete_eq_of (B : Backend F E) (c : ℕ) [CharP F c] (params : Params) (hv : ValidParams params)
    (hn : params.shares < c) (index : ℕ) (hidx : index < params.shares) (p : ExchangingSecrets F E)
    (hparams : p.params = params) (hindex : p.index = index) (hlen : p.publicPolynomials.length = params.shares)
    (hdeg : ∀ poly ∈ p.publicPolynomials, poly.length = params.threshold) (hm : p.missingShares = []) :
    p.complete B = ((List.range params.shares).mapM fun i : ℕ => PublicKey.fromElement B
        (polyAt ((i : F) + 1) (polySum params.threshold p.publicPolynomials))).bind fun keys =>
      (PublicKey.fromElement B (polyAt (0 : F) (polySum params.threshold p.publicPolynomials))).map fun sk =>
        if p.accumulatedShare • B.gen =
            polyAt ((index : F) + 1) (polySum params.threshold p.publicPolynomials) then
          .ok ⟨⟨params, sk, keys⟩, index, p.accumulatedShare⟩
        else .error (.InconsistentPublicShares .InvalidSecret) := by
  obtain ⟨first, rest, hpoly⟩ := List.exists_cons_of_ne_nil (List.ne_nil_of_length_pos
    (show 0 < p.publicPolynomials.length by rw [hlen]; exact lt_of_le_of_lt (Nat.zero_le _) hidx))
  have hacc : ExchangingSecrets.accumulate B first rest =
      some (polySum params.threshold p.publicPolynomials) := by
    rw [hpoly]
    exact accumulate_eq B _ _ _ (hdeg _ (by simp [hpoly])) fun poly h' => hdeg _ (by simp [hpoly, h'])
  unfold ExchangingSecrets.complete
  simp only [hm, guard, if_true, Option.bind_eq_bind, Option.pure_def, Option.bind_some, hpoly]
  rw [← hpoly, hacc]
  simp only [Option.bind_some, valueAt_point, hparams, hindex]
  cases hkeys : (List.range params.shares).mapM fun i : ℕ => PublicKey.fromElement B
        (polyAt ((i : F) + 1) (polySum params.threshold p.publicPolynomials)) with
  | none => rfl
  | some keys =>
    obtain ⟨hl, hk⟩ := mapM_keys hkeys
    have hon : OnPolynomial F params.threshold (keys.map (·.element))
        (polySum params.threshold p.publicPolynomials) := by
      refine ⟨polySum_length _ _, fun i e hi => ?_⟩
      rw [List.getElem?_map, Option.map_eq_some_iff] at hi
      obtain ⟨pk, hpk, rfl⟩ := hi
      exact (hk i pk hpk).1
    obtain ⟨r, h1, h2, h3⟩ := fromParticipants_spec (B := B) c params hv hn keys hl.symm
    have huniq := OnPolynomial.unique (p := c) hv hn (by simp [hl]) hon
    rw [← huniq] at h2 h3
    have hr := h2.mpr hon
    subst hr
    rw [Option.bind_some, Option.bind_some, h3]
    cases PublicKey.fromElement B (polyAt (0 : F) (polySum params.threshold p.publicPolynomials)) with
    | none => rfl
    | some sk =>
      have hidx : index < keys.length := by rw [hl]; exact hidx
      have hki := (hk index _ (List.getElem?_eq_getElem hidx)).1
      simp only [Option.map_some, Option.bind_some, Except.map, ActiveParticipant.new, Option.bind_eq_bind,
        List.getElem?_eq_getElem hidx, hki, Backend.mulGen, Option.pure_def]
      by_cases he : p.accumulatedShare • B.gen =
          polyAt ((index : F) + 1) (polySum params.threshold p.publicPolynomials)
      · simp [he]
      · simp [he]

/-- The result of `complete` in any reachable state with no missing shares. -/
theorem complete_eq (B : Backend F E) (c : ℕ) [CharP F c] (params : Params) (hv : ValidParams params)
    (hn : params.shares < c) (index : ℕ) (rng : B.Rng) (h : DkgHistory F E) (p : ExchangingSecrets F E)
    (hp : dkgShares B params index rng h = some p) (hm : p.missingShares = []) :
    p.complete B = ((List.range params.shares).mapM fun i : ℕ => PublicKey.fromElement B
        (polyAt ((i : F) + 1) (polySum params.threshold p.publicPolynomials))).bind fun keys =>
      (PublicKey.fromElement B (polyAt (0 : F) (polySum params.threshold p.publicPolynomials))).map fun sk =>
        if p.accumulatedShare • B.gen =
            polyAt ((index : F) + 1) (polySum params.threshold p.publicPolynomials) then
          .ok ⟨⟨params, sk, keys⟩, index, p.accumulatedShare⟩
        else .error (.InconsistentPublicShares .InvalidSecret) := by
  obtain ⟨q, hf⟩ := dkgShares_spec hp
  obtain ⟨own, hs, -⟩ := hf.facts.setup
  exact complete_eq_of B c params hv hn index hs.index_lt p hf.params_eq hf.index_eq hf.polys_length hf.degree hm

/-- C47: in every reachable state with no missing shares and the own polynomial in place `complete()` does
not fail. The key set belongs to the sum of all polynomials, the shared key is the sum of their constant
terms, and the secret share matches the key set. -/
theorem C47_complete (B : Backend F E) (c : ℕ) [CharP F c] (params : Params) (hv : ValidParams params)
    (hn : params.shares < c) (index : ℕ) (rng : B.Rng) (h : DkgHistory F E) (p : ExchangingSecrets F E)
    (hp : dkgShares B params index rng h = some p) (hm : p.missingShares = [])
    (hown : p.publicPolynomials[index]? = some p.dealer.publicInfo.1)
    (r : Except DkgError (ActiveParticipant F E)) (hr : p.complete B = some r) :
    ∃ part, r = .ok part ∧ part.keySet.params = params ∧ part.index = index ∧
      KeySetFor B part.keySet (polySum params.threshold p.publicPolynomials) ∧
      part.keySet.sharedKey.element = (p.publicPolynomials.map fun poly => poly.headD 0).sum ∧
      part.secretShare • B.gen = polyAt ((index : F) + 1) (polySum params.threshold p.publicPolynomials) ∧
      ActiveParticipant.new B part.keySet index part.secretShare = some (.ok part) := by
  rw [complete_eq B c params hv hn index rng h p hp hm] at hr
  simp only [Option.bind_eq_some_iff, Option.map_eq_some_iff] at hr
  obtain ⟨keys, hkeys, sk, hsk, hr⟩ := hr
  obtain ⟨q, hf⟩ := dkgShares_spec hp
  obtain ⟨own, hs, -⟩ := hf.facts.setup
  have hacc := hf.accumulated hm _ hown
  rw [hf.dealer_eq, own_poly hs] at hacc
  have hval : p.accumulatedShare • B.gen =
      polyAt ((index : F) + 1) (polySum params.threshold p.publicPolynomials) := by
    rw [polyAt_polySum _ _ _ hf.degree]
    rw [add_comm] at hacc
    exact add_left_cancel hacc
  rw [if_pos hval] at hr
  subst hr
  obtain ⟨hl, hk⟩ := mapM_keys hkeys
  have hidx : index < keys.length := by rw [hl]; exact hs.index_lt
  have hkf : KeySetFor B (⟨params, sk, keys⟩ : PublicKeySet E) (polySum params.threshold p.publicPolynomials) :=
    ⟨polySum_length _ _, fromElement_isKey.mp hsk, hl, hk⟩
  refine ⟨_, rfl, rfl, rfl, hkf, ?_, hval, ?_⟩
  · rw [hkf.shared.1, polyAt_polySum _ _ _ hf.degree]
    congr 1
    exact List.map_congr_left fun poly _ => polyAt_zero poly
  · simp only [ActiveParticipant.new, List.getElem?_eq_getElem hidx, Option.bind_eq_bind, Option.bind_some,
      (hk index _ (List.getElem?_eq_getElem hidx)).1, Backend.mulGen, hval, if_true, Option.pure_def]

/-- The shared key is 7 + 8 = 15. -/
example (r : Except DkgError (ActiveParticipant (ZMod 101) (ZMod 101))) (hr : exampleExchanging.complete C101 = some r) :
    ∃ part, r = .ok part ∧ part.keySet.sharedKey.element = 15 := by
  obtain ⟨part, h1, -, -, -, h2, -⟩ := C47_complete C101 101 ⟨2, 2⟩ (by simp [ValidParams]) (by norm_num) 0 (0 : ℕ)
    exampleHistory exampleExchanging exampleExchanging_eq rfl rfl r hr
  exact ⟨part, h1, h2.trans (by decide)⟩

/-- C47: with total encodings `complete()` does not panic in these states. -/
theorem C47_complete_total (B : Backend F E) (hT : B.TotalSer) (c : ℕ) [CharP F c] (params : Params)
    (hv : ValidParams params) (hn : params.shares < c) (index : ℕ) (rng : B.Rng) (h : DkgHistory F E)
    (p : ExchangingSecrets F E) (hp : dkgShares B params index rng h = some p) (hm : p.missingShares = []) :
    ∃ r, p.complete B = some r := by
  have key : ∀ e, ∃ pk, PublicKey.fromElement B e = some pk := fun e => by
    obtain ⟨b, hb⟩ := hT e
    exact ⟨⟨b, e⟩, fromElement_isKey.mpr ⟨rfl, hb⟩⟩
  obtain ⟨keys, hkeys⟩ := mapM_option_exists (l := List.range params.shares) (f := fun i : ℕ =>
    PublicKey.fromElement B (polyAt ((i : F) + 1) (polySum params.threshold p.publicPolynomials)))
    fun i _ => key _
  obtain ⟨sk, hsk⟩ := key (polyAt (0 : F) (polySum params.threshold p.publicPolynomials))
  rw [complete_eq B c params hv hn index rng h p hp hm, hkeys, hsk]
  exact ⟨_, rfl⟩

theorem exampleExchanging_complete : ∃ part, exampleExchanging.complete C101 = some (.ok part) := by
  obtain ⟨r, hr⟩ := C47_complete_total C101 B101_total 101 ⟨2, 2⟩ (by simp [ValidParams]) (by norm_num) 0 (0 : ℕ)
    exampleHistory exampleExchanging exampleExchanging_eq rfl
  obtain ⟨part, rfl, -⟩ := C47_complete C101 101 ⟨2, 2⟩ (by simp [ValidParams]) (by norm_num) 0 (0 : ℕ)
    exampleHistory exampleExchanging exampleExchanging_eq rfl rfl r hr
  exact ⟨part, hr⟩

example : ∃ r, exampleExchanging.complete C101 = some r :=
  C47_complete_total C101 B101_total 101 ⟨2, 2⟩ (by simp [ValidParams]) (by norm_num) 0 (0 : ℕ)
    exampleHistory exampleExchanging exampleExchanging_eq rfl

/-- C47 fails in one kind of reachable states: if the own polynomial was replaced through
`insert_public_polynomial` by one with another value at the own point, `complete()` returns
`InconsistentPublicShares(InvalidSecret)` although no shares are missing. -/
theorem C47_own_replaced (B : Backend F E) (c : ℕ) [CharP F c] (params : Params) (hv : ValidParams params)
    (hn : params.shares < c) (index : ℕ) (rng : B.Rng) (h : DkgHistory F E) (p : ExchangingSecrets F E)
    (hp : dkgShares B params index rng h = some p) (hm : p.missingShares = []) (other : List E)
    (hown : p.publicPolynomials[index]? = some other)
    (hne : polyAt ((index : F) + 1) other ≠ polyAt ((index : F) + 1) p.dealer.publicInfo.1)
    (r : Except DkgError (ActiveParticipant F E)) (hr : p.complete B = some r) :
    r = .error (.InconsistentPublicShares .InvalidSecret) := by
  rw [complete_eq B c params hv hn index rng h p hp hm] at hr
  simp only [Option.bind_eq_some_iff, Option.map_eq_some_iff] at hr
  obtain ⟨keys, hkeys, sk, hsk, hr⟩ := hr
  obtain ⟨q, hf⟩ := dkgShares_spec hp
  obtain ⟨own, hs, -⟩ := hf.facts.setup
  have hacc := hf.accumulated hm _ hown
  rw [hf.dealer_eq, own_poly hs] at *
  rw [if_neg] at hr
  · exact hr.symm
  · intro hval
    rw [polyAt_polySum _ _ _ hf.degree] at hval
    rw [hval, add_comm] at hacc
    exact hne (add_right_cancel hacc)

/-- Participant 0 is sent a polynomial in their own name, with their constant term and opening. -/
example (r : Except DkgError (ActiveParticipant (ZMod 101) (ZMod 101)))
    (hr : ({ exampleExchanging with publicPolynomials := [[7, 12], [8, 9]] } :
      ExchangingSecrets (ZMod 101) (ZMod 101)).complete C101 = some r) :
    r = .error (.InconsistentPublicShares .InvalidSecret) :=
  C47_own_replaced C101 101 ⟨2, 2⟩ (by simp [ValidParams]) (by norm_num) 0 (0 : ℕ)
    { exampleHistory with polynomials := exampleHistory.polynomials ++ [(0, ⟨[7, 12], ⟨7, [1, 2]⟩, leBytes 32 4⟩)] }
    _ rfl rfl [7, 12] rfl (by decide) r hr

/-- C47: participants that accepted the same polynomials get equal key sets. -/
theorem C47_agree (B : Backend F E) (c : ℕ) [CharP F c] (params : Params) (hv : ValidParams params)
    (hn : params.shares < c) (index index' : ℕ) (rng rng' : B.Rng) (h h' : DkgHistory F E)
    (p p' : ExchangingSecrets F E) (hp : dkgShares B params index rng h = some p)
    (hp' : dkgShares B params index' rng' h' = some p') (heq : p.publicPolynomials = p'.publicPolynomials)
    (part part' : ActiveParticipant F E) (hr : p.complete B = some (.ok part))
    (hr' : p'.complete B = some (.ok part')) : part.keySet = part'.keySet := by
  have hm : ∀ {p : ExchangingSecrets F E} {part}, p.complete B = some (.ok part) → p.missingShares = [] := by
    intro p part h
    simp only [ExchangingSecrets.complete, Option.bind_eq_bind, Option.bind_eq_some_iff, guard_eq_some'] at h
    exact h.choose_spec.1
  rw [complete_eq B c params hv hn index rng h p hp (hm hr)] at hr
  rw [complete_eq B c params hv hn index' rng' h' p' hp' (hm hr'), ← heq] at hr'
  simp only [Option.bind_eq_some_iff, Option.map_eq_some_iff] at hr hr'
  obtain ⟨keys, hkeys, sk, hsk, hr⟩ := hr
  obtain ⟨keys', hkeys', sk', hsk', hr'⟩ := hr'
  rw [hkeys] at hkeys'
  rw [hsk] at hsk'
  cases hkeys'
  cases hsk'
  split at hr
  · split at hr'
    · cases hr
      cases hr'
      rfl
    · cases hr'
  · cases hr

/-- Another order of messages. -/
example (part part' : ActiveParticipant (ZMod 101) (ZMod 101))
    (h : exampleExchanging.complete C101 = some (.ok part)) (h' : exampleExchanging.complete C101 = some (.ok part')) :
    part.keySet = part'.keySet :=
  C47_agree C101 101 ⟨2, 2⟩ (by simp [ValidParams]) (by norm_num) 0 0 (0 : ℕ) (0 : ℕ) exampleHistory
    { exampleHistory with shares := [(1, 17), (1, 3)] } exampleExchanging exampleExchanging rfl rfl rfl part part' h h'

/-- C47: any `threshold` participants that completed the protocol with the same polynomials decrypt every
ciphertext for the shared key. -/
theorem C47_decrypt (B : Backend F E) (c : ℕ) [CharP F c] (params : Params) (hv : ValidParams params)
    (hn : params.shares < c) (polys : List (List E)) (ks : PublicKeySet E) (m : E) (ct : Ciphertext E) (r : F)
    (hR : ct.random = r • B.gen) (hct : ct.blinded = m + r • ks.sharedKey.element)
    (contributions : List (ℕ × VerifiableDecryption E))
    (hc : ∀ d ∈ contributions, ∃ rng h p part proof rng1 rng2,
      dkgShares B params d.1 rng h = some p ∧ p.publicPolynomials = polys ∧
      p.publicPolynomials[d.1]? = some p.dealer.publicInfo.1 ∧
      p.complete B = some (.ok part) ∧ part.keySet = ks ∧
      part.decryptShare B ct rng1 = some ((d.2, proof), rng2))
    (hd : (contributions.map Prod.fst).Nodup) (hlen : params.threshold ≤ contributions.length) :
    ∃ d, params.combineShares F contributions = some (some d) ∧ d.decryptToElement ct = m := by
  have hm : ∀ {p : ExchangingSecrets F E} {part}, p.complete B = some (.ok part) → p.missingShares = [] := by
    intro p part h
    simp only [ExchangingSecrets.complete, Option.bind_eq_bind, Option.bind_eq_some_iff, guard_eq_some'] at h
    exact h.choose_spec.1
  have hmap : ∀ (x : F) (l : List E), polyAt x (l.map (r • ·)) = r • polyAt x l := by
    intro x l
    induction l with
    | nil => simp [polyAt]
    | cons a l ih => simp only [List.map_cons, polyAt, ih]; module
  have hall : ∀ d ∈ contributions, d.1 < params.shares ∧
      d.2.dhElement = polyAt ((d.1 : F) + 1) ((polySum params.threshold polys).map (r • ·)) ∧
      KeySetFor B ks (polySum params.threshold polys) := by
    intro d hd'
    obtain ⟨rng, h, p, part, proof, rng1, rng2, h1, rfl, h3, h4, rfl, h6⟩ := hc d hd'
    obtain ⟨q, hf⟩ := dkgShares_spec h1
    obtain ⟨own, hs, -⟩ := hf.facts.setup
    obtain ⟨part', e, -, -, hkf, -, hsec, hact⟩ := C47_complete B c params hv hn d.1 rng h p h1 (hm h4) h3 _ h4
    cases e
    refine ⟨hs.index_lt, ?_, hkf⟩
    rw [(C44_share_complete B _ _ _ part hact _ _ _ _ proof h6).1, hmap, ← hsec, hR]
    module
  refine ⟨_, C39_combine c params hn ((polySum params.threshold polys).map (r • ·))
    (by simp [polySum_length]) contributions hlen (fun d h => (hall d (List.mem_of_mem_take h)).1)
    (hd.sublist ((List.take_sublist _ _).map _)) (fun d h => (hall d (List.mem_of_mem_take h)).2.1), ?_⟩
  obtain ⟨d, hd'⟩ := List.exists_mem_of_length_pos (lt_of_lt_of_le hv.1 hlen)
  simp only [VerifiableDecryption.decryptToElement, hct, (hall d hd').2.2.shared.1, hmap]
  abel

/-- A 1-of-2 run: participant 0 decrypts `(3, 15 * 3 + 9)` alone. -/
example : ∃ d v, (⟨2, 1⟩ : Params).combineShares (ZMod 101) [(0, v)] = some (some d) ∧
    d.decryptToElement (⟨3, 15 * 3 + 9⟩ : Ciphertext (ZMod 101)) = 9 := by
  have hv : ValidParams ⟨2, 1⟩ := by simp [ValidParams]
  have hp : dkgShares C101 ⟨2, 1⟩ 0 (0 : ℕ) ⟨[(1, B101.sha256 ([8] ++ [1]))], [(1, ⟨[8], ⟨7, [1]⟩, [1]⟩)], [(1, 8)]⟩ =
    some ⟨⟨2, 1⟩, 0, ⟨⟨2, 1⟩, [⟨7, ⟨[7], 7⟩⟩], ⟨7, [60]⟩⟩, [[7], [8]], 15, [true, true]⟩ := rfl
  obtain ⟨r, hr⟩ := C47_complete_total C101 B101_total 101 ⟨2, 1⟩ hv (by norm_num) 0 (0 : ℕ) _ _ hp rfl
  obtain ⟨part, rfl, h1, h2, -, h3, -, h4⟩ := C47_complete C101 101 ⟨2, 1⟩ hv (by norm_num) 0 (0 : ℕ) _ _ hp rfl rfl r hr
  obtain ⟨⟨⟨v, proof⟩, r2⟩, hs⟩ := C44_share_total C101 B101_total part.keySet 0 _ part h4 ⟨3, 15 * 3 + 9⟩ (3 : ℕ)
  obtain ⟨d, h⟩ := C47_decrypt C101 101 ⟨2, 1⟩ hv (by norm_num) [[7], [8]] part.keySet 9 ⟨3, 15 * 3 + 9⟩ 3 (by decide)
    (by rw [h3]; decide) [(0, v)] (by
      simp only [List.mem_singleton, forall_eq]
      exact ⟨_, _, _, part, proof, _, _, hp, rfl, rfl, hr, rfl, hs⟩) (by simp) (by simp)
  exact ⟨d, v, h⟩

/-- The public info that a participant broadcasts in the second phase. -/
theorem C47_public_info (p : CollectingCommitments F E) (q : CollectingPolynomials F E)
    (h : p.finishCommitmentPhase = some q) :
    q.publicInfo = ⟨p.dealer.publicInfo.1, p.dealer.publicInfo.2, p.opening⟩ := by
  obtain ⟨-, -, -, h3, h4, -⟩ := finishCommitments_spec h
  simp [CollectingPolynomials.publicInfo, h3, h4]

example (p : CollectingCommitments (ZMod 101) (ZMod 101)) (q : CollectingPolynomials (ZMod 101) (ZMod 101))
    (hp : dkgCommitments C101 ⟨2, 2⟩ 0 (0 : ℕ) exampleHistory = some p) (hq : p.finishCommitmentPhase = some q) :
    q.publicInfo = ⟨[7, 11], ⟨7, [66, 1]⟩, leBytes 32 4⟩ :=
  (C47_public_info p q hq).trans (by cases hp; rfl)

/-- C47: the info of an honest participant is acceptable for its commitment. -/
theorem C47_info_accepted (B : Backend F E) (params : Params) (index : ℕ) (rng rng' : B.Rng)
    (p : CollectingCommitments F E) (h : CollectingCommitments.new B params index rng = some (p, rng')) :
    ∃ c, p.commitment = some c ∧
      AcceptableInfo B params c ⟨p.dealer.publicInfo.1, p.dealer.publicInfo.2, p.opening⟩ := by
  obtain ⟨own, hs, h1, h2, h3⟩ := collecting_new_spec h
  obtain ⟨rng1, hd, -⟩ := hs.created
  obtain ⟨-, e2, e3, t', e4⟩ := C42_dealer B params rng rng1 p.dealer hd
  refine ⟨own, ?_, hs.opens, by simpa [Dealer.publicInfo] using e2, p.dealer.polynomial.map Keypair.publicKey, t', ?_, e4⟩
  · simp [CollectingCommitments.commitment, h2, h3, hs.index_lt]
  · rw [Dealer.publicInfo, List.forall₂_map_left_iff, List.forall₂_map_right_iff, List.forall₂_same]
    intro kp hkp
    rw [(e3 kp hkp).1]
    exact e3 kp hkp

example : AcceptableInfo C101 ⟨2, 2⟩ (B101.sha256 ([7] ++ leBytes 32 4)) ⟨[7, 11], ⟨7, [66, 1]⟩, leBytes 32 4⟩ := by
  obtain ⟨c, h1, h2⟩ := C47_info_accepted C101 ⟨2, 2⟩ 0 (0 : ℕ) _ _ rfl
  cases h1
  exact h2

/-- C47: the share of an honest participant is acceptable for its polynomial. -/
theorem C47_share_accepted (B : Backend F E) (hT : B.TotalSer) (params : Params) (index : ℕ) (rng rng' : B.Rng)
    (p : CollectingCommitments F E) (h : CollectingCommitments.new B params index rng = some (p, rng'))
    (i : ℕ) (hi : i < params.shares) :
    ∃ s, p.dealer.secretShareForParticipant i = some s ∧ AcceptableShare B i p.dealer.publicInfo.1 s := by
  obtain ⟨own, hs, -⟩ := collecting_new_spec h
  refine ⟨_, by rw [Dealer.share_eq, hs.params_eq, if_pos hi], ?_, hT _⟩
  rw [own_poly hs]
  rfl

example : AcceptableShare C101 1 [7, 11] (29 : ZMod 101) := by
  obtain ⟨s, h1, h2⟩ := C47_share_accepted C101 B101_total ⟨2, 2⟩ 0 (0 : ℕ) _ _ rfl 1 (by norm_num)
  cases h1
  exact h2

theorem finishCommitments_some {p : CollectingCommitments F E} (h : p.missingCommitments = [])
    (hi : p.index < p.params.shares) : ∃ q, p.finishCommitmentPhase = some q := by
  obtain ⟨cs, hcs⟩ := mapM_option_exists (l := p.commitments) (f := id) fun a ha => by
    have := missingIndexes_eq_nil.mp h a ha
    cases a with
    | none => cases this
    | some a => exact ⟨a, rfl⟩
  exact ⟨_, by simp [CollectingCommitments.finishCommitmentPhase, h, setAt, hi, hcs]; rfl⟩

theorem finishPolynomials_some {p : CollectingPolynomials F E} (h : p.missingPublicPolynomials = [])
    (hi : p.index < p.params.shares) (hd : p.dealer.params = p.params) :
    ∃ q, p.finishPolynomialsPhase = some q := by
  exact ⟨_, by simp [CollectingPolynomials.finishPolynomialsPhase, h, setAt, hi, Dealer.share_eq, hd]; rfl⟩

theorem firstFrom_eq {α : Type} {l : List (ℕ × α)} {j : ℕ} {x : α} (hmem : (j, x) ∈ l)
    (hall : ∀ m ∈ l, m.1 = j → m.2 = x) : firstFrom l j = some x := by
  unfold firstFrom
  cases hf : l.find? fun m => m.1 = j with
  | none =>
    rw [List.find?_eq_none] at hf
    exact absurd (decide_eq_true rfl) (hf _ hmem)
  | some m =>
    have h1 := List.find?_some hf
    have h2 := List.mem_of_find?_eq_some hf
    rw [Option.map_some, hall m h2 (by simpa using h1)]

/-- The first phase with honest messages. -/
theorem honest_phase1 (B : Backend F E) {params : Params} {rngs : ℕ → B.Rng}
    {P : ℕ → CollectingCommitments F E}
    (hP : ∀ i, i < params.shares → ∃ rng', CollectingCommitments.new B params i (rngs i) = some (P i, rng'))
    {hist : ℕ → DkgHistory F E}
    (h1 : ∀ i m, m ∈ (hist i).commitments ↔ m.1 < params.shares ∧ m.1 ≠ i ∧ (P m.1).commitment = some m.2)
    (i : ℕ) (hi : i < params.shares) :
    ∃ p1 q0, dkgCommitments B params i (rngs i) (hist i) = some p1 ∧ p1.finishCommitmentPhase = some q0 ∧
      q0.dealer = (P i).dealer ∧ q0.opening = (P i).opening := by
  obtain ⟨rng', hnew⟩ := hP i hi
  -- first phase
  have hd1 : dkgCommitments B params i (rngs i) (hist i) = some (runCommitments (hist i).commitments (P i)) := by
    simp [dkgCommitments, hnew]
  generalize runCommitments (hist i).commitments (P i) = p1 at hd1
  obtain ⟨-, a1, a2, ⟨rx, ax1, ax2⟩, -, a3⟩ := C46_commitments B params i _ _ p1 hd1
  have hm1 : p1.missingCommitments = [] := by
    rw [a3, indexesWhere, List.filter_eq_nil_iff]
    intro j hj hx
    obtain ⟨hx1, hx2⟩ := of_decide_eq_true hx
    have hj := List.mem_range.mp hj
    obtain ⟨r, hr⟩ := hP j hj
    obtain ⟨co, hco, -⟩ := C47_info_accepted B params j _ _ _ hr
    exact hx2 (j, co) ((h1 i _).mpr ⟨hj, hx1, hco⟩) rfl
  obtain ⟨q0, hq0⟩ := finishCommitments_some hm1 (by rw [a1, a2]; exact hi)
  refine ⟨p1, q0, hd1, hq0, ?_⟩
  obtain ⟨own, hs, -⟩ := collecting_new_spec hnew
  obtain ⟨r1, hr1, hr2⟩ := hs.created
  obtain ⟨-, -, -, b1, b2, -⟩ := finishCommitments_spec hq0
  rw [hr1] at ax1
  obtain ⟨e1, e2⟩ := Prod.mk.inj (Option.some.inj ax1)
  exact ⟨b1.trans e1.symm, by rw [b2, ax2, hr2, e2]⟩

/-- The second phase with honest messages. -/
theorem honest_phase2 (B : Backend F E) {params : Params} {rngs : ℕ → B.Rng}
    {P : ℕ → CollectingCommitments F E}
    (hP : ∀ i, i < params.shares → ∃ rng', CollectingCommitments.new B params i (rngs i) = some (P i, rng'))
    {hist : ℕ → DkgHistory F E}
    (h1 : ∀ i m, m ∈ (hist i).commitments ↔ m.1 < params.shares ∧ m.1 ≠ i ∧ (P m.1).commitment = some m.2)
    (h2 : ∀ i m, m ∈ (hist i).polynomials ↔ m.1 < params.shares ∧ m.1 ≠ i ∧
      m.2 = ⟨(P m.1).dealer.publicInfo.1, (P m.1).dealer.publicInfo.2, (P m.1).opening⟩)
    (i : ℕ) (hi : i < params.shares) :
    ∃ q p0, dkgPolynomials B params i (rngs i) (hist i) = some q ∧ q.finishPolynomialsPhase = some p0 ∧
      (∀ j, j < params.shares → q.publicPolynomials[j]? = some (some (P j).dealer.publicInfo.1)) ∧
      q.dealer = (P i).dealer ∧ p0.dealer = (P i).dealer := by
  obtain ⟨p1, q0, hd1, hq0, hdq, -⟩ := honest_phase1 B hP h1 i hi
  obtain ⟨rng', hnew⟩ := hP i hi
  -- second phase
  have hd2 : dkgPolynomials B params i (rngs i) (hist i) = some (runPolynomials B (hist i).polynomials q0) := by
    simp [dkgPolynomials, hd1, hq0]
  generalize runPolynomials B (hist i).polynomials q0 = q at hd2
  have hf := dkgPolynomials_spec hd2
  obtain ⟨own, hs, hown⟩ := hf.setup
  have hdealer : q.dealer = (P i).dealer := by
    obtain ⟨r1, hr1, -⟩ := hs.created
    obtain ⟨own', hs', -⟩ := collecting_new_spec hnew
    obtain ⟨r2, hr2, -⟩ := hs'.created
    rw [hr1] at hr2
    exact (Prod.mk.inj (Option.some.inj hr2)).1
  have hpolys : ∀ j, j < params.shares →
      q.publicPolynomials[j]? = some (some (P j).dealer.publicInfo.1) := by
    intro j hj
    by_cases hji : j = i
    · subst hji
      rcases hf.polys j own hown with ⟨-, hb⟩ | ⟨pre, info, post, ha, -⟩
      · rw [hb, if_pos rfl, hdealer]
      · exact absurd rfl ((h2 j (j, info)).mp (by rw [ha]; simp)).2.1
    · obtain ⟨r, hr⟩ := hP j hj
      obtain ⟨co, hco, hacc⟩ := C47_info_accepted B params j _ _ _ hr
      have hcj : q.commitments[j]? = some co := by
        rw [hf.commitments_eq j hj hji]
        refine firstFrom_eq ((h1 i (j, co)).mpr ⟨hj, hji, hco⟩) fun m hm hmj => ?_
        obtain ⟨-, -, h⟩ := (h1 i m).mp hm
        rw [hmj, hco] at h
        exact (Option.some.inj h).symm
      rcases hf.polys j co hcj with ⟨ha, -⟩ | ⟨pre, info, post, ha, -, -, hd⟩
      · exact absurd hacc (ha (j, _) ((h2 i _).mpr ⟨hj, hji, rfl⟩) rfl)
      · have := ((h2 i (j, info)).mp (by rw [ha]; simp)).2.2
        simp only at this
        rw [hd, this]
  have hm2 : q.missingPublicPolynomials = [] := by
    rw [CollectingPolynomials.missingPublicPolynomials, missingIndexes_eq_nil]
    intro x hx
    obtain ⟨j, hj, rfl⟩ := List.getElem_of_mem hx
    have := hpolys j (by rw [← hf.polys_length]; exact hj)
    rw [List.getElem?_eq_getElem hj] at this
    rw [Option.some.inj this]
    rfl
  obtain ⟨p0, hp0⟩ := finishPolynomials_some hm2 (by rw [hf.params_eq, hf.index_eq]; exact hi)
    (by rw [hf.params_eq, hs.params_eq])
  refine ⟨q, p0, hd2, hp0, hpolys, hdealer, ?_⟩
  obtain ⟨-, -, -, b, -⟩ := finishPolynomials_spec hp0
  rw [b, hdealer]

/-- The whole protocol with honest messages. -/
theorem dkg_honest (B : Backend F E) (hB : B.Lawful) (hT : B.TotalSer) (c : ℕ) [CharP F c] (params : Params)
    (hv : ValidParams params) (hn : params.shares < c) (rngs : ℕ → B.Rng)
    (P : ℕ → CollectingCommitments F E)
    (hP : ∀ i, i < params.shares → ∃ rng', CollectingCommitments.new B params i (rngs i) = some (P i, rng'))
    (hist : ℕ → DkgHistory F E)
    (h1 : ∀ i m, m ∈ (hist i).commitments ↔ m.1 < params.shares ∧ m.1 ≠ i ∧ (P m.1).commitment = some m.2)
    (h2 : ∀ i m, m ∈ (hist i).polynomials ↔ m.1 < params.shares ∧ m.1 ≠ i ∧
      m.2 = ⟨(P m.1).dealer.publicInfo.1, (P m.1).dealer.publicInfo.2, (P m.1).opening⟩)
    (h3 : ∀ i m, m ∈ (hist i).shares ↔ m.1 < params.shares ∧ m.1 ≠ i ∧
      (P m.1).dealer.secretShareForParticipant i = some m.2) :
    ∃ ks : PublicKeySet E, ks.params = params ∧
      KeySetFor B ks (polySum params.threshold
        ((List.range params.shares).map fun j => (P j).dealer.publicInfo.1)) ∧
      ∀ i, i < params.shares → ∃ p part, dkgShares B params i (rngs i) (hist i) = some p ∧
        p.missingShares = [] ∧ p.complete B = some (.ok part) ∧ part.keySet = ks ∧ part.index = i ∧
        part.secretShare = ((List.range params.shares).map fun j =>
          polyAt ((i : F) + 1) ((P j).dealer.polynomial.map (·.secret))).sum := by
  have key : ∀ i, i < params.shares → ∃ p part, dkgShares B params i (rngs i) (hist i) = some p ∧
      p.missingShares = [] ∧ p.complete B = some (.ok part) ∧
      p.publicPolynomials = (List.range params.shares).map (fun j => (P j).dealer.publicInfo.1) ∧
      part.index = i ∧ part.keySet.params = params ∧
      KeySetFor B part.keySet (polySum params.threshold p.publicPolynomials) ∧
      part.secretShare = ((List.range params.shares).map fun j =>
          polyAt ((i : F) + 1) ((P j).dealer.polynomial.map (·.secret))).sum := by
    intro i hi
    obtain ⟨q, p0, hd2, hp0, hpolys, hdealer, -⟩ := honest_phase2 B hP h1 h2 i hi
    -- third phase
    have hd3 : dkgShares B params i (rngs i) (hist i) = some (runShares B (hist i).shares p0) := by
      simp [dkgShares, hd2, hp0]
    generalize runShares B (hist i).shares p0 = p at hd3
    have hpp : p.publicPolynomials = (List.range params.shares).map (fun j => (P j).dealer.publicInfo.1) := by
      obtain ⟨-, -, ⟨q', hq', -, b1, -⟩, b2, -⟩ := C46_shares B params i _ _ p hd3
      rw [hd2] at hq'
      cases hq'
      refine List.ext_getElem? fun j => ?_
      by_cases hj : j < params.shares
      · have := hpolys j hj
        rw [← b1, List.getElem?_map, Option.map_eq_some_iff] at this
        obtain ⟨x, hx, hx'⟩ := this
        cases hx'
        rw [hx, List.getElem?_map, List.getElem?_range hj]
        rfl
      · rw [List.getElem?_eq_none (by rw [b2]; omega), List.getElem?_eq_none (by simpa using hj)]
    have hm3 : p.missingShares = [] := by
      obtain ⟨-, -, -, -, -, -, b⟩ := C46_shares B params i _ _ p hd3
      rw [b, indexesWhere, List.filter_eq_nil_iff]
      intro j hj hx
      simp only [decide_eq_true_eq] at hx
      obtain ⟨hx1, hx2⟩ := hx
      have hj := List.mem_range.mp hj
      obtain ⟨r, hr⟩ := hP j hj
      obtain ⟨s, hs', hacc⟩ := C47_share_accepted B hT params j _ _ _ hr i hi
      refine hx2 (j, s) ((h3 i _).mpr ⟨hj, hx1, hs'⟩) rfl _ ?_ hacc
      rw [hpp, List.getElem?_map, List.getElem?_range hj]
      rfl
    have hown' := C47_own_polynomial B params i _ _ p hd3 fun m hm => ((h2 i m).mp hm).2.1
    obtain ⟨r, hr⟩ := C47_complete_total B hT c params hv hn i _ _ p hd3 hm3
    obtain ⟨part, rfl, b1, b2, b3, -, b4, -⟩ := C47_complete B c params hv hn i _ _ p hd3 hm3 hown' r hr
    refine ⟨p, part, hd3, hm3, hr, hpp, b2, b1, b3, hB.smul_gen_inj ?_⟩
    obtain ⟨-, -, -, -, hdeg, -⟩ := C46_shares B params i _ _ p hd3
    rw [b4, polyAt_polySum _ _ _ hdeg, hpp, List.sum_smul, List.map_map, List.map_map]
    congr 1
    refine List.map_congr_left fun j hj => ?_
    obtain ⟨r, hr⟩ := hP j (List.mem_range.mp hj)
    obtain ⟨o, hs', -⟩ := collecting_new_spec hr
    exact own_poly hs' _
  obtain ⟨p, part, a1, a2, a3, a4, a5, a6, a7, a8⟩ := key 0 (lt_of_lt_of_le hv.1 hv.2)
  refine ⟨part.keySet, a6, by rw [← a4]; exact a7, fun i hi => ?_⟩
  obtain ⟨p', part', b1, b2, b3, b4, b5, b6, b7, b8⟩ := key i hi
  exact ⟨p', part', b1, b2, b3, C47_agree B c params hv hn i 0 _ _ _ _ p' p b1 a1 (b4.trans a4.symm) part' part b3 a3,
    b5, b8⟩

/-- Histories in which everyone gets the messages of all others, in the order of indexes. -/
theorem honest_histories (n : ℕ) (P : ℕ → CollectingCommitments F E) :
    ∃ hist : ℕ → DkgHistory F E,
    (∀ i m, m ∈ (hist i).commitments ↔ m.1 < n ∧ m.1 ≠ i ∧ (P m.1).commitment = some m.2) ∧
    (∀ i m, m ∈ (hist i).polynomials ↔ m.1 < n ∧ m.1 ≠ i ∧
      m.2 = ⟨(P m.1).dealer.publicInfo.1, (P m.1).dealer.publicInfo.2, (P m.1).opening⟩) ∧
    (∀ i m, m ∈ (hist i).shares ↔ m.1 < n ∧ m.1 ≠ i ∧
      (P m.1).dealer.secretShareForParticipant i = some m.2) := by
  refine ⟨fun i => ⟨((List.range n).filter (· ≠ i)).filterMap fun j => (P j).commitment.map (j, ·),
    ((List.range n).filter (· ≠ i)).map fun j =>
      (j, ⟨(P j).dealer.publicInfo.1, (P j).dealer.publicInfo.2, (P j).opening⟩),
    ((List.range n).filter (· ≠ i)).filterMap fun j => ((P j).dealer.secretShareForParticipant i).map (j, ·)⟩,
    ?_, ?_, ?_⟩
  · rintro i ⟨j, x⟩
    simp only [List.mem_filterMap, List.mem_filter, List.mem_range, decide_eq_true_eq, Option.map_eq_some_iff,
      Prod.mk.injEq]
    constructor
    · rintro ⟨k, ⟨h1, h2⟩, y, hy, rfl, rfl⟩
      exact ⟨h1, h2, hy⟩
    · rintro ⟨h1, h2, h3⟩
      exact ⟨j, ⟨h1, h2⟩, x, h3, rfl, rfl⟩
  · rintro i ⟨j, x⟩
    simp only [List.mem_map, List.mem_filter, List.mem_range, decide_eq_true_eq, Prod.mk.injEq]
    constructor
    · rintro ⟨k, ⟨h1, h2⟩, rfl, rfl⟩
      exact ⟨h1, h2, rfl⟩
    · rintro ⟨h1, h2, rfl⟩
      exact ⟨j, ⟨h1, h2⟩, rfl, rfl⟩
  · rintro i ⟨j, x⟩
    simp only [List.mem_filterMap, List.mem_filter, List.mem_range, decide_eq_true_eq, Option.map_eq_some_iff,
      Prod.mk.injEq]
    constructor
    · rintro ⟨k, ⟨h1, h2⟩, y, hy, rfl, rfl⟩
      exact ⟨h1, h2, hy⟩
    · rintro ⟨h1, h2, h3⟩
      exact ⟨j, ⟨h1, h2⟩, x, h3, rfl, rfl⟩

/-- The messages that honest participants send. -/
theorem honest_messages (B : Backend F E) {params : Params} {rngs : ℕ → B.Rng}
    {P : ℕ → CollectingCommitments F E}
    (hP : ∀ i, i < params.shares → ∃ rng', CollectingCommitments.new B params i (rngs i) = some (P i, rng'))
    {hist : ℕ → DkgHistory F E}
    (h1 : ∀ i m, m ∈ (hist i).commitments ↔ m.1 < params.shares ∧ m.1 ≠ i ∧ (P m.1).commitment = some m.2) :
    ((∀ i m, m ∈ (hist i).polynomials ↔ m.1 < params.shares ∧ m.1 ≠ i ∧
      ∃ p q, dkgCommitments B params m.1 (rngs m.1) (hist m.1) = some p ∧ p.finishCommitmentPhase = some q ∧
        m.2 = q.publicInfo) ∧
    (∀ i m, m ∈ (hist i).shares ↔ m.1 < params.shares ∧ m.1 ≠ i ∧
      ∃ q p, dkgPolynomials B params m.1 (rngs m.1) (hist m.1) = some q ∧ q.finishPolynomialsPhase = some p ∧
        p.secretShareForParticipant i = some m.2)) ↔
    ((∀ i m, m ∈ (hist i).polynomials ↔ m.1 < params.shares ∧ m.1 ≠ i ∧
      m.2 = ⟨(P m.1).dealer.publicInfo.1, (P m.1).dealer.publicInfo.2, (P m.1).opening⟩) ∧
    (∀ i m, m ∈ (hist i).shares ↔ m.1 < params.shares ∧ m.1 ≠ i ∧
      (P m.1).dealer.secretShareForParticipant i = some m.2)) := by
  have e2 : ∀ j, j < params.shares → ∀ x : PublicInfo F E,
      (∃ p q, dkgCommitments B params j (rngs j) (hist j) = some p ∧ p.finishCommitmentPhase = some q ∧
        x = q.publicInfo) ↔ x = ⟨(P j).dealer.publicInfo.1, (P j).dealer.publicInfo.2, (P j).opening⟩ := by
    intro j hj x
    obtain ⟨p, q, a1, a2, a3, a4⟩ := honest_phase1 B hP h1 j hj
    have e : q.publicInfo = ⟨(P j).dealer.publicInfo.1, (P j).dealer.publicInfo.2, (P j).opening⟩ := by
      simp [CollectingPolynomials.publicInfo, a3, a4]
    constructor
    · rintro ⟨p', q', b1, b2, rfl⟩
      rw [a1] at b1
      cases b1
      rw [a2] at b2
      cases b2
      exact e
    · rintro rfl
      exact ⟨p, q, a1, a2, e.symm⟩
  have s2 : (∀ i m, m ∈ (hist i).polynomials ↔ m.1 < params.shares ∧ m.1 ≠ i ∧
      ∃ p q, dkgCommitments B params m.1 (rngs m.1) (hist m.1) = some p ∧ p.finishCommitmentPhase = some q ∧
        m.2 = q.publicInfo) ↔ (∀ i m, m ∈ (hist i).polynomials ↔ m.1 < params.shares ∧ m.1 ≠ i ∧
      m.2 = ⟨(P m.1).dealer.publicInfo.1, (P m.1).dealer.publicInfo.2, (P m.1).opening⟩) :=
    forall_congr' fun i => forall_congr' fun m => iff_congr Iff.rfl
      (and_congr_right fun hm => and_congr_right fun _ => e2 m.1 hm m.2)
  rw [s2]
  refine and_congr_right fun h2 => forall_congr' fun i => forall_congr' fun m => iff_congr Iff.rfl
    (and_congr_right fun hm => and_congr_right fun _ => ?_)
  obtain ⟨q, p, a1, a2, -, -, a3⟩ := honest_phase2 B hP h1 h2 m.1 hm
  constructor
  · rintro ⟨q', p', b1, b2, b3⟩
    rw [a1] at b1
    cases b1
    rw [a2] at b2
    cases b2
    rw [← a3]
    exact b3
  · intro h
    exact ⟨q, p, a1, a2, by rw [ExchangingSecrets.secretShareForParticipant, a3]; exact h⟩

/-- C47: if all participants are honest and each gets the messages of all others, in any order and possibly
repeated, then every participant completes the protocol. They agree on a key set, which belongs to the sum
of all polynomials, and the secret share of each is the sum of the shares dealt to it. The messages are the
values of `commitment()`, `public_info()` and `secret_share_for_participant()` of the senders, in the state
in which they entered the phase. -/
theorem C47_honest (B : Backend F E) (hB : B.Lawful) (hT : B.TotalSer) (c : ℕ) [CharP F c] (params : Params)
    (hv : ValidParams params) (hn : params.shares < c) (rngs : ℕ → B.Rng)
    (P : ℕ → CollectingCommitments F E)
    (hP : ∀ i, i < params.shares → ∃ rng', CollectingCommitments.new B params i (rngs i) = some (P i, rng'))
    (hist : ℕ → DkgHistory F E)
    (h1 : ∀ i m, m ∈ (hist i).commitments ↔ m.1 < params.shares ∧ m.1 ≠ i ∧ (P m.1).commitment = some m.2)
    (h2 : ∀ i m, m ∈ (hist i).polynomials ↔ m.1 < params.shares ∧ m.1 ≠ i ∧
      ∃ p q, dkgCommitments B params m.1 (rngs m.1) (hist m.1) = some p ∧ p.finishCommitmentPhase = some q ∧
        m.2 = q.publicInfo)
    (h3 : ∀ i m, m ∈ (hist i).shares ↔ m.1 < params.shares ∧ m.1 ≠ i ∧
      ∃ q p, dkgPolynomials B params m.1 (rngs m.1) (hist m.1) = some q ∧ q.finishPolynomialsPhase = some p ∧
        p.secretShareForParticipant i = some m.2) :
    ∃ ks : PublicKeySet E, ks.params = params ∧
      KeySetFor B ks (polySum params.threshold
        ((List.range params.shares).map fun j => (P j).dealer.publicInfo.1)) ∧
      ∀ i, i < params.shares → ∃ p part, dkgShares B params i (rngs i) (hist i) = some p ∧
        p.missingShares = [] ∧ p.complete B = some (.ok part) ∧ part.keySet = ks ∧ part.index = i ∧
        part.secretShare = ((List.range params.shares).map fun j =>
          polyAt ((i : F) + 1) ((P j).dealer.polynomial.map (·.secret))).sum := by
  obtain ⟨h2', h3'⟩ := (honest_messages B hP h1).mp ⟨h2, h3⟩
  exact dkg_honest B hB hT c params hv hn rngs P hP hist h1 h2' h3'

/-- A history in which the own polynomial is replaced: no shares are missing, and `complete` fails
(`C47_own_replaced`). The hash is constant here, so that a proof is easily written down. -/
example : ((dkgShares (B101.withHash fun _ => 7) ⟨2, 2⟩ 0 (0 : ℕ)
    { commitments := [(1, B101.sha256 ([8] ++ [1]))]
      polynomials := [(1, ⟨[8, 9], ⟨7, [1, 2]⟩, [1]⟩), (0, ⟨[7, 12], ⟨7, [1, 2]⟩, leBytes 32 4⟩)]
      shares := [(1, 3), (1, 17), (1, 17)] }).bind fun p => (p.complete (B101.withHash fun _ => 7)).map fun r =>
        (p.missingShares, p.publicPolynomials, p.accumulatedShare, match r with | .error e => some e | .ok _ => none)) =
    some ([], [[7, 12], [8, 9]], 35, some (.InconsistentPublicShares .InvalidSecret)) := by
  decide +kernel

/-! ## C48 -/

/-- C48: two public infos accepted under one commitment have the same constant term and the same opening, or
the hashed data are a collision of SHA-256. -/
theorem C48_binding (B : Backend F E) (hB : B.Lawful) (p p1 p2 : CollectingPolynomials F E) (i : ℕ)
    (info info' : PublicInfo F E)
    (h1 : p.insertPublicPolynomial B i info = some (.ok (), p1))
    (h2 : p1.insertPublicPolynomial B i info' = some (.ok (), p2)) :
    (info.polynomial.head? = info'.polynomial.head? ∧ info.opening = info'.opening) ∨
    ∃ c c' b b', info.polynomial.head? = some c ∧ info'.polynomial.head? = some c' ∧
      B.serElem c = some b ∧ B.serElem c' = some b' ∧ b ++ info.opening ≠ b' ++ info'.opening ∧
      B.sha256 (b ++ info.opening) = B.sha256 (b' ++ info'.opening) := by
  have key : ∀ {p p' : CollectingPolynomials F E} {info : PublicInfo F E},
      p.insertPublicPolynomial B i info = some (.ok (), p') → p'.commitments = p.commitments ∧
        ∃ c b, info.polynomial.head? = some c ∧ B.serElem c = some b ∧
          p.commitments[i]? = some (B.sha256 (b ++ info.opening)) := by
    intro p p' info h
    simp only [CollectingPolynomials.insertPublicPolynomial, Option.bind_eq_bind, Option.bind_eq_some_iff] at h
    obtain ⟨c, hc, com, hcom, expd, hexp, h⟩ := h
    split at h
    · simp at h
    · rename_i hne
      simp only [Option.bind_eq_some_iff] at h
      obtain ⟨r, -, h⟩ := h
      split at h
      · simp at h
      · simp only [Option.bind_eq_some_iff, Option.pure_def, Option.some.injEq, Prod.mk.injEq, true_and] at h
        obtain ⟨l, -, rfl⟩ := h
        obtain ⟨b, hb, hcb⟩ := createCommitment_eq_some.mp hcom
        refine ⟨rfl, c, b, by rw [List.head?_eq_getElem?, hc], hb, ?_⟩
        rw [hexp, not_not.mp hne, hcb]
  obtain ⟨e, c, b, hc, hb, hh⟩ := key h1
  obtain ⟨-, c', b', hc', hb', hh'⟩ := key h2
  rw [e, hh] at hh'
  have hh := Option.some.inj hh'
  by_cases hne : b ++ info.opening = b' ++ info'.opening
  · left
    have hl : b.length = b'.length := by rw [hB.serElem_length c b hb, hB.serElem_length c' b' hb']
    obtain ⟨rfl, ho⟩ := List.append_inj hne hl
    have : c = c' := hB.serElem_inj hb hb'
    exact ⟨by rw [hc, hc', this], ho⟩
  · exact .inr ⟨c, c', b, b', hc, hc', hb, hb', hne, hh⟩

/-- Participant 1 replaces the polynomial by another one with the same constant term. -/
example := C48_binding C101 (B101_lawful.withHash _) exampleCollecting _ _ 1 ⟨[8, 9], ⟨7, [1, 2]⟩, [1]⟩
  ⟨[8, 10], ⟨7, [3, 4]⟩, [1]⟩ rfl rfl

/-- C48: an info whose constant term and opening do not hash to the stored commitment is rejected with
`InvalidCommitment`, and this error is returned in no other case. -/
theorem C48_reject (B : Backend F E) (hT : B.TotalSer) (p : CollectingPolynomials F E) (i : ℕ)
    (info : PublicInfo F E) (com : Bytes) (hi : p.commitments[i]? = some com) (c : E)
    (hc : info.polynomial.head? = some c) :
    p.insertPublicPolynomial B i info = some (.error .InvalidCommitment, p) ↔ ¬ Opens B com c info.opening := by
  obtain ⟨b, hb⟩ := hT c
  have hcreate : createCommitment B c info.opening = some (B.sha256 (b ++ info.opening)) := by
    simp [createCommitment, hb]
  rw [List.head?_eq_getElem?] at hc
  have hop : Opens B com c info.opening ↔ com = B.sha256 (b ++ info.opening) := by
    rw [← createCommitment_eq_some, hcreate, Option.some.injEq, eq_comm]
  rw [hop]
  simp only [CollectingPolynomials.insertPublicPolynomial, hc, Option.bind_eq_bind, Option.bind_some, hcreate, hi]
  by_cases he : com = B.sha256 (b ++ info.opening)
  · simp only [he, ne_eq, not_true, if_false, iff_false, Option.bind_eq_some_iff, not_exists, not_and]
    intro r _
    cases r with
    | error e => simp
    | ok u => simp [Option.bind_eq_some_iff]
  · simp [he]

example : exampleCollecting.insertPublicPolynomial C101 1 ⟨[8, 9], ⟨7, [1, 2]⟩, [2]⟩ =
    some (.error .InvalidCommitment, exampleCollecting) :=
  (C48_reject C101 B101_total exampleCollecting 1 ⟨[8, 9], ⟨7, [1, 2]⟩, [2]⟩ _ rfl 8 rfl).mpr (by
    rintro ⟨b, h1, h2⟩
    cases h1
    revert h2
    decide +kernel)

/-- C48 (finding): the commitment does not bind other coefficients. With any backend of total encodings and
threshold at least 2 there are two different acceptable polynomials for one commitment; the second message
then replaces the first one. -/
theorem C48_rest_unbound (B : Backend F E) (hB : B.Lawful) (hT : B.TotalSer) (params : Params)
    (ht : 2 ≤ params.threshold) (rng : B.Rng) (opening : Bytes) (s : F) :
    ∃ com info info', info.polynomial ≠ info'.polynomial ∧ info.polynomial.head? = some (s • B.gen) ∧
      AcceptableInfo B params com info ∧ AcceptableInfo B params com info' ∧
      ∀ (p : CollectingPolynomials F E) (i : ℕ), p.params = params → p.commitments[i]? = some com →
        p.publicPolynomials.length = p.commitments.length →
        ∃ p1 p2, p.insertPublicPolynomial B i info = some (.ok (), p1) ∧
          p1.insertPublicPolynomial B i info' = some (.ok (), p2) ∧
          p2.publicPolynomials[i]? = some (some info'.polynomial) := by
  have mk : ∀ secrets : List F, secrets.length = params.threshold → ∃ proof : ProofOfPossession F,
      ∃ (keys : List (PublicKey E)) (t' : Transcript),
        List.Forall₂ (fun e pk => IsKey B pk e) (secrets.map (· • B.gen)) keys ∧
        proof.verify B keys ⟨dealerLog params⟩ = some (.ok (), t') := by
    intro secrets _
    obtain ⟨f, hf⟩ := Classical.axiomOfChoice fun e => hT e
    obtain ⟨⟨proof, t', rng'⟩, hp⟩ := C14_pop_new_total B hT
      (secrets.map fun s => (⟨s, ⟨f (s • B.gen), s • B.gen⟩⟩ : Keypair F E)) ⟨dealerLog params⟩ rng
    refine ⟨proof, _, t', ?_, C14_pop_complete B _ ?_ _ _ _ _ _ hp⟩
    · rw [List.map_map, List.forall₂_map_left_iff, List.forall₂_map_right_iff, List.forall₂_same]
      intro s _
      exact ⟨rfl, hf _⟩
    · intro kp hkp
      obtain ⟨s, -, rfl⟩ := List.mem_map.mp hkp
      rfl
  obtain ⟨k, hk⟩ : ∃ k, params.threshold = k + 2 := ⟨params.threshold - 2, by omega⟩
  obtain ⟨b, hb⟩ := hT (s • B.gen)
  obtain ⟨proof, hproof⟩ := mk (s :: 0 :: List.replicate k 0) (by simp [hk])
  obtain ⟨proof', hproof'⟩ := mk (s :: 1 :: List.replicate k 0) (by simp [hk])
  have acc : AcceptableInfo B params (B.sha256 (b ++ opening))
      ⟨(s :: 0 :: List.replicate k 0).map (· • B.gen), proof, opening⟩ :=
    ⟨⟨s • B.gen, rfl, b, hb, rfl⟩, by simp [hk], hproof⟩
  have acc' : AcceptableInfo B params (B.sha256 (b ++ opening))
      ⟨(s :: 1 :: List.replicate k 0).map (· • B.gen), proof', opening⟩ :=
    ⟨⟨s • B.gen, rfl, b, hb, rfl⟩, by simp [hk], hproof'⟩
  refine ⟨_, _, _, ?_, rfl, acc, acc', fun p i hpar hcom hlen => ?_⟩
  · simp only [List.map_cons, ne_eq, List.cons.injEq, true_and, not_and]
    intro h
    have := hB.smul_gen_inj h
    exact absurd this zero_ne_one
  · have ins : ∀ (p : CollectingPolynomials F E), p.params = params →
        p.commitments[i]? = some (B.sha256 (b ++ opening)) →
        p.publicPolynomials.length = p.commitments.length → ∀ info,
        AcceptableInfo B params (B.sha256 (b ++ opening)) info →
        p.insertPublicPolynomial B i info =
          some (.ok (), { p with publicPolynomials := p.publicPolynomials.set i (some info.polynomial) }) := by
      intro p hpar hcom hlen info hacc
      obtain ⟨a1, a2⟩ := CollectingPolynomials.insert_spec (B := B) p hlen i info
      have hex : ∃ c, p.commitments[i]? = some c ∧ AcceptableInfo B p.params c info :=
        ⟨_, hcom, by rw [hpar]; exact hacc⟩
      cases hr : p.insertPublicPolynomial B i info with
      | none => exact absurd hex (a2 hr)
      | some out =>
        obtain ⟨r, p'⟩ := out
        rcases a1 r p' hr with ⟨rfl, -, rfl⟩ | ⟨-, -, hno⟩
        · rfl
        · exact absurd hex hno
    have hi : i < p.publicPolynomials.length := by
      rw [hlen]; exact (List.getElem?_eq_some_iff.mp hcom).1
    refine ⟨_, _, ins p hpar hcom hlen _ acc, ins _ ?_ ?_ ?_ _ acc', ?_⟩
    · exact hpar
    · exact hcom
    · simpa using hlen
    · simp [hi]

example := C48_rest_unbound B101 B101_lawful B101_total ⟨3, 2⟩ (by norm_num) (0 : ℕ) [1] 8

/-- C48 (finding): neither the commitment nor the proof of possession is bound to the index of the sender:
whoever repeated the commitment of another participant can repeat its public info. -/
theorem C48_replay (B : Backend F E) (p : CollectingPolynomials F E)
    (hlen : p.publicPolynomials.length = p.commitments.length) (i j : ℕ)
    (heq : p.commitments[i]? = p.commitments[j]?) (info : PublicInfo F E) :
    (∃ p', p.insertPublicPolynomial B i info = some (.ok (), p')) ↔
      ∃ p', p.insertPublicPolynomial B j info = some (.ok (), p') := by
  have key : ∀ i, (∃ p', p.insertPublicPolynomial B i info = some (.ok (), p')) ↔
      ∃ c, p.commitments[i]? = some c ∧ AcceptableInfo B p.params c info := by
    intro i
    obtain ⟨a1, a2⟩ := CollectingPolynomials.insert_spec (B := B) p hlen i info
    constructor
    · rintro ⟨p', hp'⟩
      rcases a1 _ p' hp' with ⟨-, h, -⟩ | ⟨⟨e, he⟩, -⟩
      · exact h
      · cases he
    · intro h
      cases hr : p.insertPublicPolynomial B i info with
      | none => exact absurd h (a2 hr)
      | some out =>
        obtain ⟨r, p'⟩ := out
        rcases a1 r p' hr with ⟨rfl, -, -⟩ | ⟨-, -, hno⟩
        · exact ⟨p', rfl⟩
        · exact absurd h hno
  rw [key i, key j, heq]

/-- Participant 1 copies the commitment of participant 0. -/
example := (C48_replay C101 { exampleCollecting with commitments :=
    [B101.sha256 ([7] ++ leBytes 32 4), B101.sha256 ([7] ++ leBytes 32 4)] } rfl 0 1 rfl
  ⟨[7, 11], ⟨7, [66, 1]⟩, leBytes 32 4⟩).mp ⟨_, rfl⟩

/-! ## C49 -/

/-- C49: `new` panics exactly if the index is out of bounds. -/
theorem C49_new (B : Backend F E) (hT : B.TotalSer) (params : Params) (hv : ValidParams params) (index : ℕ)
    (rng : B.Rng) : CollectingCommitments.new B params index rng = none ↔ params.shares ≤ index := by
  constructor
  · intro h
    by_contra hlt
    have hlt : index < params.shares := by omega
    obtain ⟨⟨dealer, rng'⟩, hd⟩ := C42_dealer_total B hT params rng
    obtain ⟨-, hl, -⟩ := C42_dealer B params rng rng' dealer hd
    obtain ⟨kp, rest, hpoly⟩ := List.exists_cons_of_ne_nil
      (List.ne_nil_of_length_pos (hl ▸ hv.1 : 0 < dealer.polynomial.length))
    obtain ⟨b, hb⟩ := hT kp.publicKey.element
    simp [CollectingCommitments.new, hlt, hd, Dealer.publicInfo, hpoly, createCommitment, hb, setAt] at h
  · intro h
    have : ¬ index < params.shares := by omega
    simp [CollectingCommitments.new, this]

/-- C49: `insert_commitment` panics exactly if the index is out of bounds, is the own one or belongs to a
participant whose commitment was provided. -/
theorem C49_insert_commitment (B : Backend F E) (params : Params) (index : ℕ) (rng : B.Rng) (h : DkgHistory F E)
    (p : CollectingCommitments F E) (hp : dkgCommitments B params index rng h = some p) (i : ℕ) (c : Bytes) :
    p.insertCommitment i c = none ↔
      params.shares ≤ i ∨ i = index ∨ ∃ m ∈ h.commitments, m.1 = i := by
  obtain ⟨own, hs, h1, h2, h3⟩ := dkgCommitments_spec hp
  rw [CollectingCommitments.insert_spec]
  by_cases hi : i < params.shares
  · have hget : p.commitments[i]? = some (if i = index then some own else firstFrom h.commitments i) := by
      rw [h3, List.getElem?_map, List.getElem?_range hi]; rfl
    have hno : ¬ params.shares ≤ i := by omega
    rw [hget]
    by_cases hx : i = index
    · simp [hx]
    · rw [if_neg hx]
      cases hfi : firstFrom h.commitments i with
      | none =>
        have hnone : ∀ m ∈ h.commitments, m.1 ≠ i := by simpa [firstFrom] using hfi
        simp only [if_true, reduceCtorEq, false_iff, hno, hx, false_or, not_exists, not_and]
        exact hnone
      | some x =>
        have : ∃ m ∈ h.commitments, m.1 = i := by
          simp only [firstFrom, Option.map_eq_some_iff] at hfi
          obtain ⟨m, hm, -⟩ := hfi
          exact ⟨m, List.mem_of_find?_eq_some hm, by simpa using List.find?_some hm⟩
        simp only [Option.some.injEq, reduceCtorEq, if_false, true_iff]
        exact .inr (.inr this)
  · have : p.commitments[i]? = none := List.getElem?_eq_none (by rw [h3]; simpa using hi)
    have hge : params.shares ≤ i := by omega
    simp [this, hge]

example (p : CollectingCommitments (ZMod 101) (ZMod 101))
    (hp : dkgCommitments C101 ⟨2, 2⟩ 0 (0 : ℕ) exampleHistory = some p) : p.insertCommitment 1 [5] = none :=
  (C49_insert_commitment C101 ⟨2, 2⟩ 0 (0 : ℕ) exampleHistory p hp 1 [5]).mpr (.inr (.inr ⟨_, .head _, rfl⟩))

/-- C49: `finish_commitment_phase` panics exactly if commitments are missing. -/
theorem C49_finish_commitments (B : Backend F E) (params : Params) (index : ℕ) (rng : B.Rng)
    (h : DkgHistory F E) (p : CollectingCommitments F E) (hp : dkgCommitments B params index rng h = some p) :
    p.finishCommitmentPhase = none ↔ p.missingCommitments ≠ [] := by
  obtain ⟨own, hs, h1, h2, -⟩ := dkgCommitments_spec hp
  constructor
  · intro hn hm
    obtain ⟨q, hq⟩ := finishCommitments_some hm (by rw [h1, h2]; exact hs.index_lt)
    rw [hn] at hq
    cases hq
  · intro hm
    simp [CollectingCommitments.finishCommitmentPhase, hm, guard]

example (p : CollectingCommitments (ZMod 101) (ZMod 101))
    (hp : dkgCommitments C101 ⟨2, 2⟩ 0 (0 : ℕ) ⟨[], [], []⟩ = some p) : p.finishCommitmentPhase = none :=
  (C49_finish_commitments C101 ⟨2, 2⟩ 0 (0 : ℕ) _ p hp).mpr (by cases hp; decide)

/-- C49: `insert_public_polynomial` panics exactly for indexes out of bounds and, contrary to its
documentation, for the empty polynomial. -/
theorem C49_insert_polynomial (B : Backend F E) (hT : B.TotalSer) (params : Params) (index : ℕ) (rng : B.Rng)
    (h : DkgHistory F E) (p : CollectingPolynomials F E) (hp : dkgPolynomials B params index rng h = some p)
    (i : ℕ) (info : PublicInfo F E) :
    p.insertPublicPolynomial B i info = none ↔ params.shares ≤ i ∨ info.polynomial = [] := by
  have hf := dkgPolynomials_spec hp
  constructor
  · intro hn
    by_contra hno
    push Not at hno
    obtain ⟨hi, hne⟩ := hno
    obtain ⟨c, cs, hpoly⟩ := List.exists_cons_of_ne_nil hne
    obtain ⟨b, hb⟩ := hT c
    have hic : i < p.commitments.length := by rw [hf.commitments_length]; exact hi
    have hip : i < p.publicPolynomials.length := by rw [hf.polys_length]; exact hi
    have hval : ∃ r, PublicKeySet.validate B p.params info.polynomial info.proofOfPossession = some r := by
      unfold PublicKeySet.validate
      split
      · exact ⟨_, rfl⟩
      · obtain ⟨keys, hkeys⟩ := mapM_option_exists (l := info.polynomial) (f := PublicKey.fromElement B)
          fun e _ => by
            obtain ⟨b, hb⟩ := hT e
            exact ⟨⟨b, e⟩, fromElement_isKey.mpr ⟨rfl, hb⟩⟩
        obtain ⟨⟨r, t'⟩, hr⟩ := C50_pop_verify_total B hT info.proofOfPossession keys (sharePolyTranscript p.params)
        exact ⟨r.mapError .InvalidDealerProof, by simp [hkeys, hr]⟩
    obtain ⟨r, hr⟩ := hval
    have hc0 : info.polynomial[0]? = some c := by simp [hpoly]
    have hcreate : createCommitment B c info.opening = some (B.sha256 (b ++ info.opening)) := by
      simp [createCommitment, hb]
    simp only [CollectingPolynomials.insertPublicPolynomial, hc0, Option.bind_eq_bind, Option.bind_some, hcreate,
      List.getElem?_eq_getElem hic, hr, setAt, hip, if_true, Option.pure_def] at hn
    split at hn
    · cases hn
    · cases r <;> cases hn
  · rintro (hi | hi)
    · have : p.commitments[i]? = none := List.getElem?_eq_none (by rw [hf.commitments_length]; exact hi)
      simp only [CollectingPolynomials.insertPublicPolynomial, this, Option.bind_eq_bind, Option.bind_none]
      cases info.polynomial[0]? with
      | none => rfl
      | some c => cases createCommitment B c info.opening <;> simp
    · simp [CollectingPolynomials.insertPublicPolynomial, hi]

example : exampleCollecting.insertPublicPolynomial C101 1 ⟨[], ⟨0, []⟩, []⟩ = none :=
  (C49_insert_polynomial C101 B101_total ⟨2, 2⟩ 0 (0 : ℕ) exampleHistory _ exampleCollecting_eq 1 _).mpr (.inr rfl)

/-- C49: `finish_polynomials_phase` panics exactly if polynomials are missing. -/
theorem C49_finish_polynomials (B : Backend F E) (params : Params) (index : ℕ) (rng : B.Rng)
    (h : DkgHistory F E) (p : CollectingPolynomials F E) (hp : dkgPolynomials B params index rng h = some p) :
    p.finishPolynomialsPhase = none ↔ p.missingPublicPolynomials ≠ [] := by
  have hf := dkgPolynomials_spec hp
  obtain ⟨own, hs, -⟩ := hf.setup
  constructor
  · intro hn hm
    obtain ⟨q, hq⟩ := finishPolynomials_some hm (by rw [hf.params_eq, hf.index_eq]; exact hs.index_lt)
      (by rw [hf.params_eq, hs.params_eq])
    rw [hn] at hq
    cases hq
  · intro hm
    simp [CollectingPolynomials.finishPolynomialsPhase, hm, guard]

example : exampleCollecting.finishPolynomialsPhase ≠ none := fun h =>
  (C49_finish_polynomials C101 ⟨2, 2⟩ 0 (0 : ℕ) exampleHistory _ exampleCollecting_eq).mp h rfl

/-- C49: outcome of `insert_secret_share` in every reachable state: a panic exactly for indexes out of bounds,
`DuplicateShare` exactly for the own index and for participants whose share was accepted, otherwise
`InvalidSecret` exactly if the share is not on the polynomial of the sender. -/
theorem C49_insert_share (B : Backend F E) (hT : B.TotalSer) (params : Params) (index : ℕ) (rng : B.Rng)
    (h : DkgHistory F E) (p : ExchangingSecrets F E) (hp : dkgShares B params index rng h = some p)
    (i : ℕ) (s : F) :
    (p.insertSecretShare B i s = none ↔ params.shares ≤ i) ∧
    (i < params.shares → ∃ poly, p.publicPolynomials[i]? = some poly ∧
      (p.insertSecretShare B i s = some (.error .DuplicateShare, p) ↔
        i = index ∨ ∃ m ∈ h.shares, m.1 = i ∧ m.2 • B.gen = polyAt ((index : F) + 1) poly) ∧
      (¬ (i = index ∨ ∃ m ∈ h.shares, m.1 = i ∧ m.2 • B.gen = polyAt ((index : F) + 1) poly) →
        if s • B.gen = polyAt ((index : F) + 1) poly then
          ∃ p', p.insertSecretShare B i s = some (.ok (), p') ∧
            p'.accumulatedShare = p.accumulatedShare + s ∧
            p'.missingShares = p.missingShares.filter (· ≠ i)
        else p.insertSecretShare B i s = some (.error .InvalidSecret, p))) := by
  obtain ⟨q, hf⟩ := dkgShares_spec hp
  obtain ⟨acc, h1, h2, h3, h4, h5, h6⟩ := hf.shares
  have hlen : p.publicPolynomials.length = p.sharesReceived.length := by rw [hf.polys_length, hf.received_length]
  have hspec := ExchangingSecrets.insert_spec (B := B) p hlen i s
  rw [hf.index_eq] at hspec
  by_cases hi : i < params.shares
  · have hip : i < p.publicPolynomials.length := by rw [hf.polys_length]; exact hi
    have hir : i < p.sharesReceived.length := by rw [hf.received_length]; exact hi
    have hpoly := List.getElem?_eq_getElem hip
    have hrecv : p.sharesReceived[i]? = some true ↔
        i = index ∨ ∃ m ∈ h.shares, m.1 = i ∧ m.2 • B.gen = polyAt ((index : F) + 1) p.publicPolynomials[i] := by
      rw [h5 i]
      constructor
      · rintro (h | h)
        · exact .inl h
        · obtain ⟨m, hm, rfl⟩ := List.mem_map.mp h
          obtain ⟨-, -, poly, hp', ha⟩ := h3 m hm
          rw [hpoly] at hp'
          cases hp'
          exact .inr ⟨m, h1.subset hm, rfl, ha.1⟩
      · rintro (h | ⟨m, hm, hmi, ha⟩)
        · exact .inl h
        · by_cases hx : i = index
          · exact .inl hx
          · subst hmi
            exact .inr (h6 m hm hi hx _ hpoly ⟨ha, hT _⟩)
    have hacciff : AcceptableShare B index p.publicPolynomials[i] s ↔
        s • B.gen = polyAt ((index : F) + 1) p.publicPolynomials[i] := ⟨fun h => h.1, fun h => ⟨h, hT _⟩⟩
    rcases hspec with ⟨hn, -⟩ | ⟨ht, hr⟩ | ⟨hfl, poly, hp', hrest⟩
    · rw [List.getElem?_eq_none_iff] at hn
      omega
    · refine ⟨by simp [hr]; omega, fun _ => ⟨_, hpoly, ⟨fun _ => hrecv.mp ht, fun _ => hr⟩, fun hno => ?_⟩⟩
      exact absurd (hrecv.mp ht) hno
    · rw [hpoly] at hp'
      cases hp'
      have hnr : ¬ (i = index ∨ ∃ m ∈ h.shares, m.1 = i ∧
          m.2 • B.gen = polyAt ((index : F) + 1) p.publicPolynomials[i]) := by
        rw [← hrecv, hfl]; simp
      rcases hrest with ⟨ha, hr⟩ | ⟨ha, -, hr⟩ | ⟨-, hser, -⟩
      · refine ⟨by simp [hr]; omega, fun _ => ⟨_, hpoly, ⟨fun h' => by simp [hr] at h', fun h' => absurd h' hnr⟩, fun _ => ?_⟩⟩
        rw [if_pos (hacciff.mp ha)]
        refine ⟨_, hr, rfl, ?_⟩
        rw [ExchangingSecrets.missingShares, ExchangingSecrets.missingShares, missingIndexes_eq, missingIndexes_eq,
          List.filter_filter, List.length_set]
        refine List.filter_congr fun j hj => ?_
        by_cases hji : i = j
        · subst hji; simp [hir]
        · have : ¬ j = i := fun h => hji h.symm
          simp [List.getElem?_set_ne hji, this]
      · refine ⟨by simp [hr]; omega, fun _ => ⟨_, hpoly, ⟨fun h' => by simp [hr] at h', fun h' => absurd h' hnr⟩, fun _ => ?_⟩⟩
        rw [if_neg (hacciff.not.mp ha), hr]
      · obtain ⟨b, hb⟩ := hT (polyAt ((index : F) + 1) p.publicPolynomials[i])
        rw [hb] at hser
        cases hser
  · refine ⟨?_, fun h => absurd h hi⟩
    have hn : p.sharesReceived[i]? = none := List.getElem?_eq_none (by rw [hf.received_length]; omega)
    rcases hspec with ⟨-, hr⟩ | ⟨ht, -⟩ | ⟨ht, -⟩
    · simp [hr]; omega
    · rw [hn] at ht; cases ht
    · rw [hn] at ht; cases ht

example : exampleExchanging.insertSecretShare C101 2 17 = none :=
  (C49_insert_share C101 B101_total ⟨2, 2⟩ 0 (0 : ℕ) exampleHistory _ exampleExchanging_eq 2 17).1.mpr le_rfl

/-- C49: `complete` panics exactly if shares are missing. -/
theorem C49_complete (B : Backend F E) (hT : B.TotalSer) (c : ℕ) [CharP F c] (params : Params)
    (hv : ValidParams params) (hn : params.shares < c) (index : ℕ) (rng : B.Rng) (h : DkgHistory F E)
    (p : ExchangingSecrets F E) (hp : dkgShares B params index rng h = some p) :
    p.complete B = none ↔ p.missingShares ≠ [] := by
  constructor
  · intro hnone hm
    obtain ⟨r, hr⟩ := C47_complete_total B hT c params hv hn index rng h p hp hm
    rw [hnone] at hr
    cases hr
  · intro hm
    simp [ExchangingSecrets.complete, hm, guard]

example : exampleExchanging.complete C101 ≠ none := fun h =>
  (C49_complete C101 B101_total 101 ⟨2, 2⟩ (by simp [ValidParams]) (by norm_num) 0 (0 : ℕ) exampleHistory _
    exampleExchanging_eq).mp h rfl

/-- C49: `secret_share_for_participant` panics exactly for indexes out of bounds, and otherwise is the value
of the own polynomial. -/
theorem C49_secret_share (B : Backend F E) (params : Params) (index : ℕ) (rng : B.Rng)
    (h : DkgHistory F E) (p : ExchangingSecrets F E) (hp : dkgShares B params index rng h = some p) (i : ℕ) :
    p.secretShareForParticipant i = if i < params.shares then
      some (polyAt ((i : F) + 1) (p.dealer.polynomial.map (·.secret))) else none := by
  obtain ⟨q, hf⟩ := dkgShares_spec hp
  obtain ⟨own, hs, -⟩ := hf.facts.setup
  rw [ExchangingSecrets.secretShareForParticipant, Dealer.share_eq, hf.dealer_eq, hs.params_eq]
  rfl

example : exampleExchanging.secretShareForParticipant 1 = some 29 :=
  (C49_secret_share C101 ⟨2, 2⟩ 0 (0 : ℕ) exampleHistory _ exampleExchanging_eq 1).trans (by decide)

/-! ## SEC1 encodings -/

/-- C50: with SEC1 encodings a message with the identity as the constant term makes
`insert_public_polynomial` panic. -/
theorem C50_insert_polynomial_panics_sec1 (B : Backend F E) (hS : B.Sec1Ser) (p : CollectingPolynomials F E)
    (i : ℕ) (rest : List E) (proof : ProofOfPossession F) (opening : Bytes) :
    p.insertPublicPolynomial B i ⟨0 :: rest, proof, opening⟩ = none := by
  simp [CollectingPolynomials.insertPublicPolynomial, createCommitment, (hS 0).mpr rfl]

example (p : CollectingPolynomials (ZMod 101) (ZMod 101)) :
    p.insertPublicPolynomial S101 1 ⟨[0, 5], ⟨0, [0, 0]⟩, []⟩ = none :=
  C50_insert_polynomial_panics_sec1 S101 S101_sec1 p 1 [5] ⟨0, [0, 0]⟩ []

/-- C50: with SEC1 encodings `complete` panics if the polynomials add up to one with value zero at zero or
at the point of any participant. -/
theorem C50_complete_panics_sec1 (B : Backend F E) (hS : B.Sec1Ser) (c : ℕ) [CharP F c] (params : Params)
    (hv : ValidParams params) (hn : params.shares < c) (index : ℕ) (rng : B.Rng) (h : DkgHistory F E)
    (p : ExchangingSecrets F E) (hp : dkgShares B params index rng h = some p) (hm : p.missingShares = [])
    (hz : (∃ i : ℕ, i < params.shares ∧
        polyAt ((i : F) + 1) (polySum params.threshold p.publicPolynomials) = 0) ∨
      polyAt (0 : F) (polySum params.threshold p.publicPolynomials) = 0) :
    p.complete B = none := by
  have h0 : PublicKey.fromElement B (0 : E) = none := by simp [PublicKey.fromElement, (hS 0).mpr rfl]
  rw [complete_eq B c params hv hn index rng h p hp hm]
  rcases hz with ⟨i, hi, hz⟩ | hz
  · cases hk : (List.range params.shares).mapM fun i : ℕ => PublicKey.fromElement B
        (polyAt ((i : F) + 1) (polySum params.threshold p.publicPolynomials)) with
    | none => rfl
    | some keys =>
      obtain ⟨hl, hkeys⟩ := mapM_keys hk
      have := hkeys i _ (List.getElem?_eq_getElem (by rw [hl]; exact hi))
      rw [← fromElement_isKey, hz, h0] at this
      cases this
  · rw [hz, h0]
    cases (List.range params.shares).mapM fun i : ℕ => PublicKey.fromElement B
        (polyAt ((i : F) + 1) (polySum params.threshold p.publicPolynomials)) <;> rfl

/-- Participant 1 chooses a polynomial such that the shared key is the identity. -/
example (p : ExchangingSecrets (ZMod 101) (ZMod 101)) (hp : dkgShares (S101.withHash fun _ => 7) ⟨2, 2⟩ 0 (0 : ℕ)
    { commitments := [(1, S101.sha256 ([2, 94] ++ [1]))]
      polynomials := [(1, ⟨[94, 9], ⟨7, [1, 2]⟩, [1]⟩)]
      shares := [(1, 2)] } = some p) : p.complete (S101.withHash fun _ => 7) = none := by
  refine C50_complete_panics_sec1 (S101.withHash fun _ => 7) S101_sec1 101 ⟨2, 2⟩ (by simp [ValidParams]) (by norm_num)
    0 (0 : ℕ) _ p hp ?_ (.inr ?_)
  · cases hp; decide
  · cases hp; decide

/-- Two participants whose polynomials `7 + 11x` and `94 + 9x` have opposite constant terms. -/
example : (dkgShares (S101.withHash fun _ => 7) ⟨2, 2⟩ 0 (0 : ℕ)
    { commitments := [(1, S101.sha256 ([2, 94] ++ [1]))]
      polynomials := [(1, ⟨[94, 9], ⟨7, [1, 2]⟩, [1]⟩)]
      shares := [(1, 2)] }).map (fun p => (p.missingShares, (p.complete (S101.withHash fun _ => 7)).isNone)) =
    some ([], true) := by
  decide +kernel

/-- Incomplete phases: participant 1 of 3 lacks messages, an early commitment is kept, a wrong opening and a
proof with a wrong challenge are rejected. -/
example : ((dkgCommitments (B101.withHash fun _ => 7) ⟨3, 2⟩ 1 (0 : ℕ) ⟨[(2, [5]), (2, [6]), (7, [])], [], []⟩).map
      fun p => (p.missingCommitments, (p.commitments.getD 2 none : Option Bytes), p.finishCommitmentPhase.isNone)) =
    some ([0], some [5], true) ∧
    ((dkgPolynomials (B101.withHash fun _ => 7) ⟨3, 2⟩ 1 (0 : ℕ)
      ⟨[(2, B101.sha256 ([8] ++ [1])), (0, B101.sha256 ([20] ++ [1, 2]))],
        [(2, ⟨[8, 9], ⟨7, [1, 2]⟩, [2]⟩), (0, ⟨[20, 4], ⟨6, [1, 2]⟩, [1, 2]⟩), (0, ⟨[20, 5], ⟨7, [1, 2]⟩, [1, 2]⟩),
         (0, ⟨[20, 6], ⟨7, [1, 3]⟩, [1, 2]⟩), (0, ⟨[], ⟨7, [1, 3]⟩, [1, 2]⟩)], []⟩).map
      fun p => (p.missingPublicPolynomials, (p.publicPolynomials : List (Option (List (ZMod 101)))),
        p.finishPolynomialsPhase.isNone)) =
    some ([2], [some [20, 6], some [7, 11], none], true) := by
  decide +kernel

/-! ## An honest run -/

/-- An honest 2-of-3 run. -/
example : ∃ (hist : ℕ → DkgHistory (ZMod 101) (ZMod 101)) (ks : PublicKeySet (ZMod 101)), ks.params = ⟨3, 2⟩ ∧
    ∀ i, i < 3 → ∃ p part, dkgShares B101 ⟨3, 2⟩ i (10 * i : ℕ) (hist i) = some p ∧ p.missingShares = [] ∧
      p.complete B101 = some (.ok part) ∧ part.keySet = ks := by
  have hv : ValidParams ⟨3, 2⟩ := by simp [ValidParams]
  have hex : ∀ i : ℕ, ∃ out, i < 3 → CollectingCommitments.new B101 ⟨3, 2⟩ i (10 * i : ℕ) = some out := by
    intro i
    cases h : CollectingCommitments.new B101 ⟨3, 2⟩ i (10 * i : ℕ) with
    | none => exact ⟨⟨⟨⟨1, 1⟩, 0, ⟨⟨1, 1⟩, [], ⟨0, []⟩⟩, [], []⟩, (0 : ℕ)⟩,
        fun hi => absurd ((C49_new B101 B101_total ⟨3, 2⟩ hv i _).mp h) (by simpa using hi)⟩
    | some out => exact ⟨out, fun _ => rfl⟩
  obtain ⟨P, hP⟩ := Classical.axiomOfChoice hex
  obtain ⟨hist, h1, h2, h3⟩ := honest_histories 3 fun i => (P i).1
  have hP' : ∀ i, i < 3 → ∃ rng', CollectingCommitments.new B101 ⟨3, 2⟩ i (10 * i : ℕ) = some ((P i).1, rng') :=
    fun i hi => ⟨(P i).2, hP i hi⟩
  obtain ⟨h2', h3'⟩ := (honest_messages B101 (params := ⟨3, 2⟩) (rngs := fun i => (10 * i : ℕ)) hP' h1).mpr ⟨h2, h3⟩
  obtain ⟨ks, hks, -, hall⟩ := C47_honest B101 B101_lawful B101_total 101 ⟨3, 2⟩ hv (by norm_num)
    (fun i => (10 * i : ℕ)) (fun i => (P i).1) hP' hist h1 h2' h3'
  refine ⟨hist, ks, hks, fun i hi => ?_⟩
  obtain ⟨p, part, a, b, c, d, -⟩ := hall i hi
  exact ⟨p, part, a, b, c, d⟩

end ElasticElgamal
