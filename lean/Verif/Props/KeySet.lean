import Verif.Lemmas.KeySet
import Verif.Lemmas.Choice
import Verif.Props.Sharing
import Verif.Props.Possession
import Verif.Props.LogEq

/-!
# Dealers, key sets and participants (C42, C43, C44, C45, C50)
-/

set_option autoImplicit false
set_option linter.unusedSectionVars false

namespace ElasticElgamal

open Spec Toy

variable {F E : Type} [Field F] [AddCommGroup E] [Module F E] [DecidableEq F] [DecidableEq E]

/-! ## C42 -/

/-- C42: a dealer has a polynomial of `threshold` coefficients with matching public keys. -/
theorem C42_dealer (B : Backend F E) (params : Params) (rng rng' : B.Rng) (dealer : Dealer F E)
    (h : Dealer.new B params rng = some (dealer, rng')) :
    dealer.params = params ∧ dealer.polynomial.length = params.threshold ∧
    (∀ kp ∈ dealer.polynomial, IsKey B kp.publicKey (kp.secret • B.gen)) ∧
    ∃ t', dealer.proofOfPossession.verify B (dealer.polynomial.map (·.publicKey)) ⟨dealerLog params⟩ =
      some (.ok (), t') := by
  simp only [Dealer.new, Option.bind_eq_bind, Option.bind_eq_some_iff, Option.pure_def, Option.some.injEq,
    Prod.mk.injEq, Prod.exists] at h
  obtain ⟨kps, r1, hk, pop, t', r2, hpop, rfl, rfl⟩ := h
  obtain ⟨h1, h2⟩ := generateKeypairs_spec _ hk
  exact ⟨rfl, h1, h2, t', C14_pop_complete B kps (fun kp hkp => (h2 kp hkp).1) _ _ _ _ _ hpop⟩

/-- C42: with total encodings a dealer can always be created. -/
theorem C42_dealer_total (B : Backend F E) (hT : B.TotalSer) (params : Params) (rng : B.Rng) :
    ∃ out, Dealer.new B params rng = some out := by
  obtain ⟨⟨kps, r1⟩, h1⟩ := generateKeypairs_total hT params.threshold rng
  obtain ⟨⟨pop, t', r2⟩, h2⟩ := C14_pop_new_total B hT kps (sharePolyTranscript params) r1
  exact ⟨(⟨params, kps, pop⟩, r2), by simp [Dealer.new, h1, h2]⟩

/-- A 2-of-3 dealer exists. -/
example : ∃ dealer rng', Dealer.new B101 ⟨3, 2⟩ (0 : ℕ) = some (dealer, rng') ∧
    dealer.polynomial.length = 2 := by
  obtain ⟨⟨dealer, rng'⟩, h⟩ := C42_dealer_total B101 B101_total ⟨3, 2⟩ (0 : ℕ)
  exact ⟨dealer, rng', h, (C42_dealer B101 ⟨3, 2⟩ _ _ dealer h).2.1⟩

/-- C42: a key set accepted by `PublicKeySet::new` belongs to the given polynomial, which has the right
degree and comes with a valid proof of possession of all its coefficients. -/
theorem C42_key_set_new (B : Backend F E) (params : Params) (poly : List E) (proof : ProofOfPossession F)
    (ks : PublicKeySet E) (h : PublicKeySet.new B params poly proof = some (.ok ks)) :
    ks.params = params ∧ KeySetFor B ks poly ∧
    ∃ (keys : List (PublicKey E)) (t' : Transcript), List.Forall₂ (fun e pk => IsKey B pk e) poly keys ∧
      proof.verify B keys ⟨dealerLog params⟩ = some (.ok (), t') := by
  simp only [PublicKeySet.new, Option.bind_eq_bind, Option.bind_eq_some_iff] at h
  obtain ⟨r, hr, h⟩ := h
  split at h
  · simp at h
  · simp only [Option.bind_eq_some_iff, Option.pure_def, Option.some.injEq, Except.ok.injEq] at h
    obtain ⟨v0, hv0, sk, hsk, pks, hpks, rfl⟩ := h
    obtain ⟨hl, hkeys⟩ := mapM_keys hpks
    rcases validate_spec hr with ⟨-, h⟩ | ⟨hpl, keys, r', t', hk, hv, hr'⟩
    · cases h
    · refine ⟨rfl, ⟨hpl, ?_, hl, fun i pk hi => ?_⟩, keys, t', hk, ?_⟩
      · have : polyAt (0 : F) poly = v0 := by
          rw [PublicPolynomial.valueAtZero] at hv0
          cases poly with
          | nil => simp at hv0
          | cons c cs => simp only [List.getElem?_cons_zero, Option.some.injEq] at hv0; simp [polyAt, hv0]
        rw [this]
        exact fromElement_isKey.mp hsk
      · rw [← valueAt_point]
        exact hkeys i pk hi
      · cases r' with
        | error e => simp [Except.mapError] at hr'
        | ok u => exact hv

/-- The key set for the polynomial `7 + 11x`. -/
def exampleKeySet : PublicKeySet (ZMod 101) := ⟨⟨3, 2⟩, ⟨[7], 7⟩, [⟨[18], 18⟩, ⟨[29], 29⟩, ⟨[40], 40⟩]⟩

/-- For a constant hash function a proof of possession is accepted. -/
theorem exampleKeySet_for : KeySetFor (B101.withHash fun _ => 7) exampleKeySet
    (([7, 11] : List (ZMod 101)).map (· • (B101.withHash fun _ => 7).gen)) :=
  (C42_key_set_new (B101.withHash fun _ => 7) ⟨3, 2⟩ [7, 11] ⟨7, [1, 2]⟩ exampleKeySet (by decide +kernel)).2.1

/-- C42: public info of any dealer is accepted. -/
theorem C42_dealer_accepted (B : Backend F E) (params : Params) (rng rng' : B.Rng) (dealer : Dealer F E)
    (h : Dealer.new B params rng = some (dealer, rng')) (r : Except SharingError (PublicKeySet E))
    (hr : PublicKeySet.new B params dealer.publicInfo.1 dealer.publicInfo.2 = some r) :
    ∃ ks, r = .ok ks ∧ ks.params = params ∧
      KeySetFor B ks ((dealer.polynomial.map (·.secret)).map (· • B.gen)) := by
  obtain ⟨h1, h2, h3, t', h4⟩ := C42_dealer B params rng rng' dealer h
  have hpub : dealer.publicInfo.1 = (dealer.polynomial.map (·.secret)).map (· • B.gen) := by
    rw [List.map_map]
    exact List.map_congr_left fun kp hkp => (h3 kp hkp).1
  have hval : PublicKeySet.validate B params dealer.publicInfo.1 dealer.publicInfo.2 = some (.ok ()) := by
    refine validate_eq (r := .ok ()) (keys := dealer.polynomial.map Keypair.publicKey) (t' := t')
      (by simpa [Dealer.publicInfo] using h2) ?_ h4
    rw [Dealer.publicInfo, List.forall₂_map_left_iff, List.forall₂_map_right_iff, List.forall₂_same]
    intro kp hkp
    rw [(h3 kp hkp).1]
    exact h3 kp hkp
  cases r with
  | error e =>
    simp [PublicKeySet.new, hval, Option.bind_eq_some_iff] at hr
  | ok ks =>
    obtain ⟨e1, e2, -⟩ := C42_key_set_new B params _ _ ks hr
    rw [hpub] at e2
    exact ⟨ks, rfl, e1, e2⟩

/-- C42: with total encodings `PublicKeySet::new` does not panic for any input of valid parameters. -/
theorem C50_key_set_new_total (B : Backend F E) (hT : B.TotalSer) (params : Params) (hv : ValidParams params)
    (poly : List E) (proof : ProofOfPossession F) : ∃ r, PublicKeySet.new B params poly proof = some r := by
  have key : ∀ e, ∃ pk, PublicKey.fromElement B e = some pk := fun e => by
    obtain ⟨b, hb⟩ := hT e
    exact ⟨⟨b, e⟩, fromElement_isKey.mpr ⟨rfl, hb⟩⟩
  have hval : ∃ r, PublicKeySet.validate B params poly proof = some r := by
    unfold PublicKeySet.validate
    split
    · exact ⟨_, rfl⟩
    · obtain ⟨keys, hkeys⟩ := mapM_option_exists (l := poly) (f := PublicKey.fromElement B) fun e _ => key e
      obtain ⟨⟨r, t'⟩, hr⟩ := C50_pop_verify_total B hT proof keys (sharePolyTranscript params)
      exact ⟨r.mapError .InvalidDealerProof, by simp [hkeys, hr]⟩
  obtain ⟨r, hr⟩ := hval
  cases r with
  | error e => exact ⟨.error e, by simp [PublicKeySet.new, hr]⟩
  | ok u =>
    have hl : poly.length = params.threshold := by
      rcases validate_spec hr with ⟨-, h⟩ | ⟨h, -⟩
      · cases h
      · exact h
    obtain ⟨c, cs, rfl⟩ := List.exists_cons_of_ne_nil (List.ne_nil_of_length_pos (hl ▸ hv.1))
    obtain ⟨sk, hsk⟩ := key c
    obtain ⟨pks, hpks⟩ := mapM_option_exists (l := List.range params.shares)
      (f := fun idx => PublicKey.fromElement B (PublicPolynomial.valueAt (c :: cs) ((idx + 1 : ℕ) : F)))
      fun i _ => key _
    refine ⟨.ok ⟨params, sk, pks⟩, ?_⟩
    simp only [PublicKeySet.new, hr, PublicPolynomial.valueAtZero, List.getElem?_cons_zero, hsk, hpks,
      Option.bind_eq_bind, Option.bind_some, Option.pure_def]

example : ∃ r, PublicKeySet.new B101 ⟨3, 2⟩ [0, 0, 0] ⟨0, []⟩ = some r :=
  C50_key_set_new_total B101 B101_total ⟨3, 2⟩ (by unfold ValidParams; decide) [0, 0, 0] ⟨0, []⟩

example : ∃ (dealer : Dealer (ZMod 101) (ZMod 101)) (rng' : ℕ) (ks : PublicKeySet (ZMod 101)),
    Dealer.new B101 ⟨3, 2⟩ (0 : ℕ) = some (dealer, rng') ∧ ks.params = ⟨3, 2⟩ := by
  obtain ⟨⟨dealer, rng'⟩, h⟩ := C42_dealer_total B101 B101_total ⟨3, 2⟩ (0 : ℕ)
  obtain ⟨r, hr⟩ := C50_key_set_new_total B101 B101_total ⟨3, 2⟩ (by unfold ValidParams; decide) dealer.publicInfo.1
    dealer.publicInfo.2
  obtain ⟨ks, -, hk, -⟩ := C42_dealer_accepted B101 ⟨3, 2⟩ (0 : ℕ) rng' dealer h r hr
  exact ⟨dealer, rng', ks, h, hk⟩

/-- Setup of the examples below: a dealer, and the key set for its public info. -/
theorem exampleDealer : ∃ (dealer : Dealer (ZMod 101) (ZMod 101)) (rng' : ℕ) (ks : PublicKeySet (ZMod 101)),
    Dealer.new B101 ⟨3, 2⟩ (0 : ℕ) = some (dealer, rng') ∧
    PublicKeySet.new B101 ⟨3, 2⟩ dealer.publicInfo.1 dealer.publicInfo.2 = some (.ok ks) ∧
    KeySetFor B101 ks ((dealer.polynomial.map (·.secret)).map (· • B101.gen)) := by
  obtain ⟨⟨dealer, rng'⟩, h⟩ := C42_dealer_total B101 B101_total ⟨3, 2⟩ (0 : ℕ)
  obtain ⟨r, hr⟩ := C50_key_set_new_total B101 B101_total ⟨3, 2⟩ (by simp [ValidParams]) dealer.publicInfo.1
    dealer.publicInfo.2
  obtain ⟨ks, rfl, -, hks⟩ := C42_dealer_accepted B101 ⟨3, 2⟩ _ _ dealer h r hr
  exact ⟨dealer, rng', ks, h, hr, hks⟩

/-- C42: errors of `PublicKeySet::new`. -/
theorem C42_key_set_errors (B : Backend F E) (params : Params) (poly : List E) (proof : ProofOfPossession F)
    (e : SharingError) (h : PublicKeySet.new B params poly proof = some (.error e)) :
    (poly.length ≠ params.threshold ∧ e = .MalformedDealerPolynomial) ∨
    (poly.length = params.threshold ∧ ∃ (keys : List (PublicKey E)) (e' : VerificationError) (t' : Transcript),
      List.Forall₂ (fun e pk => IsKey B pk e) poly keys ∧
      proof.verify B keys ⟨dealerLog params⟩ = some (.error e', t') ∧ e = .InvalidDealerProof e') := by
  simp only [PublicKeySet.new, Option.bind_eq_bind, Option.bind_eq_some_iff] at h
  obtain ⟨r, hr, h⟩ := h
  split at h
  · rename_i e1
    simp only [Option.pure_def, Option.some.injEq, Except.error.injEq] at h
    subst h
    rcases validate_spec hr with ⟨h1, h2⟩ | ⟨hpl, keys, r', t', hk, hv, hr'⟩
    · exact .inl ⟨h1, by simpa using h2⟩
    · cases r' with
      | ok u => simp [Except.mapError] at hr'
      | error e' =>
        simp only [Except.mapError, Except.error.injEq] at hr'
        exact .inr ⟨hpl, keys, e', t', hk, hv, hr'⟩
  · simp [Option.bind_eq_some_iff] at h

example : ∃ (keys : List (PublicKey (ZMod 101))) (t' : Transcript),
    (⟨1, [2, 3]⟩ : ProofOfPossession (ZMod 101)).verify B101 keys ⟨dealerLog ⟨3, 2⟩⟩ =
      some (.error .ChallengeMismatch, t') := by
  obtain ⟨h, -⟩ | ⟨-, keys, e', t', -, h, he⟩ := C42_key_set_errors B101 ⟨3, 2⟩ [5, 6] ⟨1, [2, 3]⟩
    (.InvalidDealerProof .ChallengeMismatch) (by decide +kernel)
  · exact absurd rfl h
  · cases he
    exact ⟨keys, t', h⟩

/-- Some proof is rejected for a polynomial of the right degree. -/
example : PublicKeySet.new B101 ⟨3, 2⟩ [5, 6] ⟨1, [2, 3]⟩ =
    some (.error (.InvalidDealerProof .ChallengeMismatch)) := by decide +kernel

/-- C42: a polynomial of a wrong degree is always rejected. -/
theorem C42_wrong_degree (B : Backend F E) (params : Params) (poly : List E) (proof : ProofOfPossession F)
    (h : poly.length ≠ params.threshold) :
    PublicKeySet.new B params poly proof = some (.error .MalformedDealerPolynomial) := by
  simp [PublicKeySet.new, PublicKeySet.validate, h]

example : PublicKeySet.new B101 ⟨3, 2⟩ [5, 6, 7] ⟨1, [2, 3, 4]⟩ = some (.error .MalformedDealerPolynomial) :=
  C42_wrong_degree B101 ⟨3, 2⟩ [5, 6, 7] ⟨1, [2, 3, 4]⟩ (by decide)

/-- C42: `ActiveParticipant::new` accepts exactly the value of the secret polynomial, rejects every other
secret, and panics exactly for indexes out of bounds. -/
theorem C42_participant (B : Backend F E) (hB : B.Lawful) (ks : PublicKeySet E) (secrets : List F)
    (hks : KeySetFor B ks (secrets.map (· • B.gen))) (i : ℕ) (s : F) :
    ActiveParticipant.new B ks i s =
      if i < ks.params.shares then
        some (if s = polyAt ((i : F) + 1) secrets then .ok ⟨ks, i, s⟩ else .error .InvalidSecret)
      else none := by
  unfold ActiveParticipant.new
  split
  · rename_i hi
    have hi' : i < ks.participantKeys.length := by rw [hks.count]; exact hi
    have hk := (hks.keys i _ (List.getElem?_eq_getElem hi')).1
    rw [polyAt_smul] at hk
    simp only [List.getElem?_eq_getElem hi', Option.bind_eq_bind, Option.bind_some, hk, Backend.mulGen,
      Option.pure_def]
    by_cases hs : s = polyAt ((i : F) + 1) secrets
    · simp [hs]
    · rw [if_neg fun h => hs (hB.smul_gen_inj h), if_neg hs]
  · rename_i hi
    have : ks.participantKeys[i]? = none := List.getElem?_eq_none (by rw [hks.count]; omega)
    simp [this]

/-- The value of `7 + 11x` for the third participant is 40. -/
example : ActiveParticipant.new (B101.withHash fun _ => 7) exampleKeySet 2 40 = some (.ok ⟨exampleKeySet, 2, 40⟩) ∧
    ActiveParticipant.new (B101.withHash fun _ => 7) exampleKeySet 2 41 = some (.error .InvalidSecret) ∧
    ActiveParticipant.new (B101.withHash fun _ => 7) exampleKeySet 3 51 = none := by
  have h := C42_participant (B101.withHash fun _ => 7) (B101_lawful.withHash _) exampleKeySet [7, 11] exampleKeySet_for
  exact ⟨(h 2 40).trans rfl, (h 2 41).trans rfl, (h 3 51).trans rfl⟩

/-- C42: shares of the dealer are accepted by every participant. -/
theorem C42_share_accepted (B : Backend F E) (hB : B.Lawful) (params : Params) (rng rng' : B.Rng)
    (dealer : Dealer F E) (h : Dealer.new B params rng = some (dealer, rng')) (ks : PublicKeySet E)
    (hks : PublicKeySet.new B params dealer.publicInfo.1 dealer.publicInfo.2 = some (.ok ks)) (i : ℕ)
    (hi : i < params.shares) :
    ∃ s, dealer.secretShareForParticipant i = some s ∧
      ActiveParticipant.new B ks i s = some (.ok ⟨ks, i, s⟩) ∧
      ∀ s', s' ≠ s → ActiveParticipant.new B ks i s' = some (.error .InvalidSecret) := by
  obtain ⟨ks', e, hp, hfor⟩ := C42_dealer_accepted B params rng rng' dealer h _ hks
  cases e
  have hdp := (C42_dealer B params rng rng' dealer h).1
  refine ⟨_, by rw [Dealer.share_eq, hdp, if_pos hi], ?_, fun s' hs' => ?_⟩
  · rw [C42_participant B hB ks _ hfor, hp, if_pos hi]
    simp [point]
  · rw [C42_participant B hB ks _ hfor, hp, if_pos hi, if_neg]
    simpa [point] using hs'

example : ∃ (dealer : Dealer (ZMod 101) (ZMod 101)) (ks : PublicKeySet (ZMod 101)) (s : ZMod 101),
    dealer.secretShareForParticipant 2 = some s ∧ ActiveParticipant.new B101 ks 2 s = some (.ok ⟨ks, 2, s⟩) ∧
    ActiveParticipant.new B101 ks 2 (s + 1) = some (.error .InvalidSecret) := by
  obtain ⟨dealer, rng', ks, h1, h2, h3⟩ := exampleDealer
  obtain ⟨s, h4, h5, h6⟩ := C42_share_accepted B101 B101_lawful ⟨3, 2⟩ _ _ dealer h1 ks h2 2 (by norm_num)
  exact ⟨dealer, ks, s, h4, h5, h6 _ (by simp)⟩

/-! ## C43 -/

/-- C43: `from_participants` succeeds exactly if there are `n` keys which lie on a polynomial of degree less
than `t` (provided that the restored key can be encoded). -/
theorem C43_ok_iff (B : Backend F E) (hT : B.TotalSer) (p : ℕ) [CharP F p] (params : Params)
    (hv : ValidParams params) (hn : params.shares < p) (keys : List (PublicKey E)) :
    (∃ ks, PublicKeySet.fromParticipants B params keys = some (.ok ks)) ↔
      keys.length = params.shares ∧ ∃ cs, OnPolynomial F params.threshold (keys.map (·.element)) cs := by
  by_cases hl : params.shares = keys.length
  · obtain ⟨r, h1, h2, h3⟩ := fromParticipants_spec (B := B) p params hv hn keys hl
    obtain ⟨b, hb⟩ := hT (polyAt (0 : F) (interpolating (Finset.range params.threshold) (point F)
      fun i => (keys.map (·.element)).getD i 0))
    rw [h3, fromElement_isKey (pk := ⟨b, _⟩) |>.mpr ⟨rfl, hb⟩]
    constructor
    · rintro ⟨ks, h⟩
      rcases h1 with rfl | rfl
      · exact ⟨hl.symm, _, h2.mp rfl⟩
      · simp [Except.map] at h
    · rintro ⟨-, cs, hcs⟩
      have := OnPolynomial.unique (p := p) hv hn (by simp [hl]) hcs
      rw [this] at hcs
      rw [h2.mpr hcs]
      exact ⟨_, rfl⟩
  · constructor
    · rintro ⟨ks, h⟩
      simp [PublicKeySet.fromParticipants, hl] at h
    · rintro ⟨h, -⟩
      exact absurd h.symm hl

example : ∃ ks, PublicKeySet.fromParticipants B101 ⟨3, 2⟩ [⟨[12], 12⟩, ⟨[17], 17⟩, ⟨[22], 22⟩] = some (.ok ks) :=
  (C43_ok_iff B101 B101_total 101 ⟨3, 2⟩ (by unfold ValidParams; decide) (by decide)
    [⟨[12], 12⟩, ⟨[17], 17⟩, ⟨[22], 22⟩]).mpr ⟨rfl, [7, 5], rfl, by
      intro i e h
      match i, h with
      | 0, h => cases h; decide
      | 1, h => cases h; decide
      | 2, h => cases h; decide
      | i + 3, h => simp at h⟩

/-- C43: the restored key set has the given parameters and participant keys, and its shared key is the value
at zero of the only polynomial through the keys. -/
theorem C43_restored (B : Backend F E) (p : ℕ) [CharP F p] (params : Params) (hv : ValidParams params)
    (hn : params.shares < p) (keys : List (PublicKey E)) (ks : PublicKeySet E)
    (h : PublicKeySet.fromParticipants B params keys = some (.ok ks)) :
    ks.params = params ∧ ks.participantKeys = keys ∧
    ∃ cs, OnPolynomial F params.threshold (keys.map (·.element)) cs ∧
      (∀ cs', OnPolynomial F params.threshold (keys.map (·.element)) cs' → cs' = cs) ∧
      IsKey B ks.sharedKey (polyAt (0 : F) cs) := by
  by_cases hl : params.shares = keys.length
  · obtain ⟨r, h1, h2, h3⟩ := fromParticipants_spec (B := B) p params hv hn keys hl
    rw [h3, Option.map_eq_some_iff] at h
    obtain ⟨sk, hsk, h⟩ := h
    rcases h1 with rfl | rfl
    · simp only [Except.map, Except.ok.injEq] at h
      subst h
      exact ⟨rfl, rfl, _, h2.mp rfl, fun cs' h' => OnPolynomial.unique (p := p) hv hn (by simp [hl]) h',
        fromElement_isKey.mp hsk⟩
    · simp [Except.map] at h
  · simp [PublicKeySet.fromParticipants, hl] at h

example : ∃ cs, OnPolynomial (ZMod 101) 2 [(12 : ZMod 101), 17, 22] cs ∧ IsKey B101 ⟨[7], 7⟩ (polyAt (0 : ZMod 101) cs) := by
  obtain ⟨-, -, cs, h1, -, h2⟩ := C43_restored B101 101 ⟨3, 2⟩ (by unfold ValidParams; decide) (by decide)
    [⟨[12], 12⟩, ⟨[17], 17⟩, ⟨[22], 22⟩] ⟨⟨3, 2⟩, ⟨[7], 7⟩, [⟨[12], 12⟩, ⟨[17], 17⟩, ⟨[22], 22⟩]⟩ (by decide +kernel)
  exact ⟨cs, h1, h2⟩

/-- C43: the errors of `from_participants`. -/
theorem C43_errors (B : Backend F E) (hT : B.TotalSer) (p : ℕ) [CharP F p] (params : Params)
    (hv : ValidParams params) (hn : params.shares < p) (keys : List (PublicKey E)) :
    (PublicKeySet.fromParticipants B params keys = some (.error .ParticipantCountMismatch) ↔
      keys.length ≠ params.shares) ∧
    (PublicKeySet.fromParticipants B params keys = some (.error .MalformedParticipantKeys) ↔
      keys.length = params.shares ∧ ¬ ∃ cs, OnPolynomial F params.threshold (keys.map (·.element)) cs) := by
  by_cases hl : params.shares = keys.length
  · obtain ⟨r, h1, h2, h3⟩ := fromParticipants_spec (B := B) p params hv hn keys hl
    obtain ⟨b, hb⟩ := hT (polyAt (0 : F) (interpolating (Finset.range params.threshold) (point F)
      fun i => (keys.map (·.element)).getD i 0))
    rw [h3, fromElement_isKey (pk := ⟨b, _⟩) |>.mpr ⟨rfl, hb⟩]
    rcases h1 with rfl | rfl
    · simp only [Option.map_some, Except.map, Option.some.injEq, reduceCtorEq, hl.symm, ne_eq, not_true,
        false_iff, true_and, not_not, iff_self]
      exact ⟨_, h2.mp rfl⟩
    · simp only [Option.map_some, Except.map, Option.some.injEq, Except.error.injEq, reduceCtorEq, hl.symm,
        ne_eq, not_true, true_and, true_iff]
      rintro ⟨cs, hcs⟩
      have := OnPolynomial.unique (p := p) hv hn (by simp [hl]) hcs
      rw [this] at hcs
      have := h2.mpr hcs
      cases this
  · have : keys.length ≠ params.shares := fun h => hl h.symm
    simp [PublicKeySet.fromParticipants, hl, this]

example : ¬ ∃ cs, OnPolynomial (ZMod 101) 2 [(12 : ZMod 101), 17, 23] cs :=
  ((C43_errors B101 B101_total 101 ⟨3, 2⟩ (by unfold ValidParams; decide) (by decide)
    [⟨[12], 12⟩, ⟨[17], 17⟩, ⟨[23], 23⟩]).2.mp (by decide +kernel)).2

/-- Keys of the polynomial `7 + 5x` are accepted and the shared key is restored. -/
example : PublicKeySet.fromParticipants B101 ⟨3, 2⟩ [⟨[12], 12⟩, ⟨[17], 17⟩, ⟨[22], 22⟩] =
    some (.ok ⟨⟨3, 2⟩, ⟨[7], 7⟩, [⟨[12], 12⟩, ⟨[17], 17⟩, ⟨[22], 22⟩]⟩) := by decide +kernel

example : OnPolynomial (ZMod 101) 2 [(12 : ZMod 101), 17, 22] [7, 5] := by
  refine ⟨rfl, fun i e h => ?_⟩
  match i, h with
  | 0, h => rw [← Option.some.inj h]; decide
  | 1, h => rw [← Option.some.inj h]; decide
  | 2, h => rw [← Option.some.inj h]; decide

example : PublicKeySet.fromParticipants B101 ⟨3, 2⟩ [⟨[12], 12⟩, ⟨[17], 17⟩, ⟨[23], 23⟩] =
    some (.error .MalformedParticipantKeys) := by decide +kernel

/-- C50 for `from_participants`: no panics with total encodings and valid parameters. -/
theorem C50_from_participants_total (B : Backend F E) (hT : B.TotalSer) (p : ℕ) [CharP F p] (params : Params)
    (hv : ValidParams params) (hn : params.shares < p) (keys : List (PublicKey E)) :
    ∃ r, PublicKeySet.fromParticipants B params keys = some r := by
  by_cases hl : params.shares = keys.length
  · obtain ⟨r, h1, h2, h3⟩ := fromParticipants_spec (B := B) p params hv hn keys hl
    obtain ⟨b, hb⟩ := hT (polyAt (0 : F) (interpolating (Finset.range params.threshold) (point F)
      fun i => (keys.map (·.element)).getD i 0))
    rw [h3, fromElement_isKey (pk := ⟨b, _⟩) |>.mpr ⟨rfl, hb⟩]
    exact ⟨_, rfl⟩
  · exact ⟨.error .ParticipantCountMismatch, by simp [PublicKeySet.fromParticipants, hl]⟩

example : ∃ r, PublicKeySet.fromParticipants B101 ⟨3, 2⟩ [⟨[0], 0⟩, ⟨[0], 0⟩, ⟨[0], 0⟩] = some r :=
  C50_from_participants_total B101 B101_total 101 ⟨3, 2⟩ (by unfold ValidParams; decide) (by decide) _

/-- C50, finding: in groups with SEC1 encoding `from_participants` panics if the keys lie on a polynomial
with the identity as the constant term (all of the keys can be valid `PublicKey`s). -/
theorem C50_from_participants_panics_sec1 (B : Backend F E) (hS : B.Sec1Ser) (p : ℕ) [CharP F p]
    (params : Params) (hv : ValidParams params) (hn : params.shares < p) (keys : List (PublicKey E))
    (hl : keys.length = params.shares) (cs : List E)
    (hcs : OnPolynomial F params.threshold (keys.map (·.element)) (0 :: cs)) :
    PublicKeySet.fromParticipants B params keys = none := by
  obtain ⟨r, h1, h2, h3⟩ := fromParticipants_spec (B := B) p params hv hn keys hl.symm
  rw [h3, ← OnPolynomial.unique (p := p) hv hn (by simp [hl]) hcs]
  simp [polyAt, PublicKey.fromElement, (hS 0).mpr rfl]

/-- Three valid keys `1, 2, 3` make `from_participants` panic. -/
example : PublicKeySet.fromParticipants S101 ⟨3, 2⟩ [⟨[2, 1], 1⟩, ⟨[2, 2], 2⟩, ⟨[2, 3], 3⟩] = none := by
  refine C50_from_participants_panics_sec1 S101 S101_sec1 101 ⟨3, 2⟩ (by simp [ValidParams]) (by norm_num) _ rfl
    [1] ⟨rfl, fun i e h => ?_⟩
  match i, h with
  | 0, h => rw [← Option.some.inj h]; decide
  | 1, h => rw [← Option.some.inj h]; decide
  | 2, h => rw [← Option.some.inj h]; decide

/-! ## C44 -/

/-- C44: a decryption share is `[x_i]R`, and it is accepted for the index of the participant. -/
theorem C44_share_complete (B : Backend F E) (ks : PublicKeySet E) (i : ℕ) (s : F)
    (part : ActiveParticipant F E) (hp : ActiveParticipant.new B ks i s = some (.ok part))
    (ct : Ciphertext E) (rng rng' : B.Rng) (d : VerifiableDecryption E) (proof : LogEqualityProof F)
    (h : part.decryptShare B ct rng = some ((d, proof), rng')) :
    d.dhElement = s • ct.random ∧
    ks.verifyShare B (.ofVerifiable d) ct i proof = some (.ok d) := by
  obtain ⟨rfl, pk, hpk, he⟩ := participant_key hp
  simp only [ActiveParticipant.decryptShare, ActiveParticipant.publicKeyShare, hpk, Option.bind_eq_bind,
    Option.bind_some, Option.bind_eq_some_iff, Option.pure_def, Option.some.injEq, Prod.mk.injEq,
    Prod.exists] at h
  obtain ⟨lb, hlb, proof', t', r', hnew, ⟨rfl, rfl⟩, rfl⟩ := h
  refine ⟨rfl, ?_⟩
  have hk := fromElement_isKey.mp hlb
  rw [he, ← hk.1] at hnew
  have hver := C11_log_eq_complete B lb s _ _ _ _ _ hnew
  rw [hk.1, ← he] at hver
  simp only [PublicKeySet.verifyShare, hpk, hlb, Option.bind_eq_bind, Option.bind_some, Option.pure_def,
    CandidateDecryption.ofVerifiable, VerifiableDecryption.fromElement, hver]
  rfl

/-- C44: with total encodings shares can always be created. -/
theorem C44_share_total (B : Backend F E) (hT : B.TotalSer) (ks : PublicKeySet E) (i : ℕ) (s : F)
    (part : ActiveParticipant F E) (hp : ActiveParticipant.new B ks i s = some (.ok part))
    (ct : Ciphertext E) (rng : B.Rng) : ∃ out, part.decryptShare B ct rng = some out := by
  obtain ⟨rfl, pk, hpk, he⟩ := participant_key hp
  obtain ⟨b, hb⟩ := hT ct.random
  obtain ⟨⟨proof, t', rng'⟩, h⟩ := C11_log_eq_new_total B hT ⟨b, ct.random⟩ s (pk.element, s • ct.random)
    (ks.shareTranscript i) rng
  exact ⟨((⟨s • ct.random⟩, proof), rng'), by
    simp [ActiveParticipant.decryptShare, ActiveParticipant.publicKeyShare, hpk, PublicKey.fromElement, hb, h,
      VerifiableDecryption.fromElement]⟩

/-- C44: an accepted share is returned unchanged, and it is `[x_i]R` for the participant's secret `x_i` unless
the proof was forged. -/
theorem C44_share_sound (B : Backend F E) (hB : B.Lawful) (ks : PublicKeySet E) (i : ℕ) (pk : PublicKey E)
    (hpk : ks.participantKeys[i]? = some pk) (s : F) (hs : pk.element = s • B.gen)
    (cand : CandidateDecryption E) (ct : Ciphertext E) (proof : LogEqualityProof F)
    (d : VerifiableDecryption E) (h : ks.verifyShare B cand ct i proof = some (.ok d)) :
    d = cand.inner ∧ (d.dhElement = s • ct.random ∨
      ∃ base, IsKey B base ct.random ∧
        LogEqForged B (shareLog ks.params ks.sharedKey.bytes i) base (pk.element, d.dhElement) proof) := by
  simp only [PublicKeySet.verifyShare, hpk, Option.bind_eq_bind, Option.bind_some, Option.bind_eq_some_iff,
    Option.pure_def, Option.some.injEq, Prod.exists] at h
  obtain ⟨base, hbase, r, t', hv, hr⟩ := h
  cases r with
  | error e => simp [Except.map] at hr
  | ok u =>
    simp only [Except.map, Except.ok.injEq, VerifiableDecryption.fromElement] at hr
    subst hr
    refine ⟨rfl, ?_⟩
    have hk := fromElement_isKey.mp hbase
    rcases LogEqualityProof.verify_forged hv with ⟨r, h1, h2⟩ | hf
    · left
      simp only [hs] at h1
      rw [hB.smul_gen_inj h1, ← hk.1]
      exact h2
    · exact .inr ⟨base, hk, hf⟩

/-- A wrong share (4 instead of 50), accepted for a constant hash function: the proof is forged. -/
example : ∃ base, LogEqForged (B101.withHash fun _ => 7) (shareLog ⟨1, 1⟩ [5] 0) base (5, 4) ⟨7, 1⟩ := by
  obtain ⟨-, h | ⟨base, -, h⟩⟩ := C44_share_sound (B101.withHash fun _ => 7) (B101_lawful.withHash _)
    ⟨⟨1, 1⟩, ⟨[5], 5⟩, [⟨[5], 5⟩]⟩ 0 ⟨[5], 5⟩ rfl 5 (by decide) (.ofVerifiable ⟨4⟩) ⟨10, 20⟩ ⟨7, 1⟩ ⟨4⟩ (by decide +kernel)
  · exact absurd h (by decide)
  · exact ⟨base, h⟩

/-- C44, in terms of the hash function: there is an assignment of one exceptional hash value to every hash
input, independent of the hash function, such that acceptance of a wrong share means that the data hashed
for it has its exceptional value. -/
theorem C44_share_bad_hash (B : Backend F E) (hB : B.Lawful) :
    ∃ bad : List Entry → F, ∀ (H : List Entry → F) (ks : PublicKeySet E) (i : ℕ) (pk : PublicKey E) (s : F)
      (cand : CandidateDecryption E) (ct : Ciphertext E) (proof : LogEqualityProof F)
      (d : VerifiableDecryption E), ks.participantKeys[i]? = some pk → pk.element = s • B.gen →
      ks.verifyShare (B.withHash H) cand ct i proof = some (.ok d) → d.dhElement ≠ s • ct.random →
      ∃ q, ShareHashInput B ks i ct d.dhElement proof q ∧ H q = bad q := by
  obtain ⟨bad, hbad⟩ := C12_log_eq_sound B hB
  refine ⟨bad, fun H ks i pk s cand ct proof d hpk hs h hne => ?_⟩
  obtain ⟨base, hbase, t', hv, rfl⟩ := verifyShare_ok hpk h
  have hk : IsKey B base ct.random := fromElement_isKey.mp hbase
  have hwf : WellFormedKey B base := by
    rw [WellFormedKey, hB.deElem_serElem _ _ hk.2, hk.1]
  obtain ⟨q, hq, ht⟩ := shareHashInput_of_verify (B := B.withHash H) hpk hk hv
  refine ⟨q, hq, ?_⟩
  rcases hbad H proof base _ _ _ hwf hv with ⟨r, h1, h2⟩ | hb
  · simp only [hs] at h1
    rw [hB.smul_gen_inj h1] at hne
    rw [hk.1] at h2
    exact absurd h2 hne
  · rw [ht] at hb
    exact hb

example : ∃ bad : List Entry → ZMod 101, ∃ q, 7 = bad q := by
  obtain ⟨bad, h⟩ := C44_share_bad_hash B101 B101_lawful
  obtain ⟨q, -, hq⟩ := h (fun _ => 7) ⟨⟨1, 1⟩, ⟨[5], 5⟩, [⟨[5], 5⟩]⟩ 0 ⟨[5], 5⟩ 5 (.ofVerifiable ⟨4⟩) ⟨10, 20⟩ ⟨7, 1⟩ ⟨4⟩
    rfl (by decide) (by decide +kernel) (by decide)
  exact ⟨bad, q, hq⟩

/-- Decryption of `(10, 20)` by the third participant. -/
example : ∃ (ks : PublicKeySet (ZMod 101)) (s : ZMod 101) (d : VerifiableDecryption (ZMod 101))
    (proof : LogEqualityProof (ZMod 101)), ks.verifyShare B101 (.ofVerifiable d) ⟨10, 20⟩ 2 proof =
      some (.ok d) ∧ d.dhElement = s • 10 := by
  obtain ⟨dealer, rng', ks, h1, h2, h3⟩ := exampleDealer
  obtain ⟨s, h4, h5, h6⟩ := C42_share_accepted B101 B101_lawful ⟨3, 2⟩ _ _ dealer h1 ks h2 2 (by norm_num)
  obtain ⟨⟨⟨d, proof⟩, r⟩, h⟩ := C44_share_total B101 B101_total ks 2 s _ h5 ⟨10, 20⟩ (3 : ℕ)
  obtain ⟨h7, h8⟩ := C44_share_complete B101 ks 2 s _ h5 _ _ _ d proof h
  exact ⟨ks, s, d, proof, h8, h7⟩

/-- A wrong share accepted for an unlucky hash function (constant `7`), as in `C44_share_bad_hash`. -/
example : (⟨⟨1, 1⟩, ⟨[5], 5⟩, [⟨[5], 5⟩]⟩ : PublicKeySet (ZMod 101)).verifyShare
    (B101.withHash fun _ => 7) (.ofVerifiable ⟨4⟩) ⟨10, 20⟩ 0 ⟨7, 1⟩ = some (.ok ⟨4⟩) ∧
    (4 : ZMod 101) ≠ (5 : ZMod 101) • 10 := by decide +kernel

/-- C44: shares with an index out of bounds make `verify_share` panic (this is not documented). -/
theorem C44_share_index (B : Backend F E) (ks : PublicKeySet E) (i : ℕ) (cand : CandidateDecryption E)
    (ct : Ciphertext E) (proof : LogEqualityProof F) (hi : ks.participantKeys.length ≤ i) :
    ks.verifyShare B cand ct i proof = none := by
  simp [PublicKeySet.verifyShare, List.getElem?_eq_none hi]

example : (⟨⟨1, 1⟩, ⟨[5], 5⟩, [⟨[5], 5⟩]⟩ : PublicKeySet (ZMod 101)).verifyShare B101 (.ofVerifiable ⟨4⟩) ⟨10, 20⟩ 1
    ⟨7, 1⟩ = none :=
  C44_share_index B101 _ 1 _ ⟨10, 20⟩ ⟨7, 1⟩ (by decide)

/-- C50 for shares: with total encodings `verify_share` returns for every index in bounds. -/
theorem C50_verify_share_total (B : Backend F E) (hT : B.TotalSer) (ks : PublicKeySet E) (i : ℕ)
    (hi : i < ks.participantKeys.length) (cand : CandidateDecryption E) (ct : Ciphertext E)
    (proof : LogEqualityProof F) : ∃ r, ks.verifyShare B cand ct i proof = some r := by
  obtain ⟨b, hb⟩ := hT ct.random
  obtain ⟨⟨r, t'⟩, h⟩ := C50_log_eq_verify_total B hT proof ⟨b, ct.random⟩
    ((ks.participantKeys[i]).element, cand.inner.dhElement) (ks.shareTranscript i)
  exact ⟨_, by simp [PublicKeySet.verifyShare, hi, PublicKey.fromElement, hb, h]; rfl⟩

example : ∃ r, (⟨⟨1, 1⟩, ⟨[5], 5⟩, [⟨[5], 5⟩]⟩ : PublicKeySet (ZMod 101)).verifyShare B101 (.ofVerifiable ⟨0⟩) ⟨0, 0⟩ 0
    ⟨0, 0⟩ = some r :=
  C50_verify_share_total B101 B101_total _ 0 (by decide) _ ⟨0, 0⟩ ⟨0, 0⟩

/-- C44: the hash input of an accepted share hashes to the challenge of the proof, and it determines the
index, parameters, shared key, the participant's key, the ciphertext and the share. So a proof cannot be
reused in another context without a hash collision. -/
theorem C44_share_hash (B : Backend F E) (ks : PublicKeySet E) (i : ℕ) (cand : CandidateDecryption E)
    (ct : Ciphertext E) (proof : LogEqualityProof F) (d : VerifiableDecryption E)
    (h : ks.verifyShare B cand ct i proof = some (.ok d)) :
    ∃ q, ShareHashInput B ks i ct d.dhElement proof q ∧ B.challenge q = proof.challenge := by
  obtain ⟨pk, hpk⟩ : ∃ pk, ks.participantKeys[i]? = some pk := by
    simp only [PublicKeySet.verifyShare, Option.bind_eq_bind, Option.bind_eq_some_iff] at h
    exact ⟨_, h.choose_spec.1⟩
  obtain ⟨base, hbase, t', hv, rfl⟩ := verifyShare_ok hpk h
  have hk := fromElement_isKey.mp hbase
  obtain ⟨q, hq, ht⟩ := shareHashInput_of_verify hpk hk hv
  refine ⟨q, hq, ?_⟩
  obtain ⟨a, d, x, y, -, -, -, -, rfl, hc⟩ := LogEqualityProof.verify_eq_some.mp hv
  rw [← ht]
  exact checkChallenge_ok.mp hc.symm

example : ∃ q, ShareHashInput (B101.withHash fun _ => 7) ⟨⟨1, 1⟩, ⟨[5], 5⟩, [⟨[5], 5⟩]⟩ 0 ⟨10, 20⟩ 4 ⟨7, 1⟩ q := by
  obtain ⟨q, h, -⟩ := C44_share_hash (B101.withHash fun _ => 7) ⟨⟨1, 1⟩, ⟨[5], 5⟩, [⟨[5], 5⟩]⟩ 0 (.ofVerifiable ⟨4⟩)
    ⟨10, 20⟩ ⟨7, 1⟩ ⟨4⟩ (by decide +kernel)
  exact ⟨q, h⟩

theorem C44_share_hash_inj (B : Backend F E) (hB : B.Lawful) (ks ks' : PublicKeySet E) (i i' : ℕ)
    (ct ct' : Ciphertext E) (D D' : E) (proof proof' : LogEqualityProof F) (q : List Entry)
    (hi : i < 2 ^ 64) (hi' : i' < 2 ^ 64)
    (hn : ks.params.shares < 2 ^ 64) (hn' : ks'.params.shares < 2 ^ 64)
    (ht : ks.params.threshold < 2 ^ 64) (ht' : ks'.params.threshold < 2 ^ 64)
    (h : ShareHashInput B ks i ct D proof q) (h' : ShareHashInput B ks' i' ct' D' proof' q) :
    i = i' ∧ ks.params = ks'.params ∧ ks.sharedKey.bytes = ks'.sharedKey.bytes ∧
    (ks.participantKeys[i]?).map (·.element) = (ks'.participantKeys[i']?).map (·.element) ∧
    ct.random = ct'.random ∧ D = D' := by
  obtain ⟨pk, r, a, d, x, y, hpk, hr, ha, hd, -, -, hq⟩ := h
  obtain ⟨pk', r', a', d', x', y', hpk', hr', ha', hd', -, -, hq'⟩ := h'
  obtain ⟨h1, rfl, rfl, rfl, -, -⟩ := logEqQuery_inj (hq.symm.trans hq')
  obtain ⟨e1, e2, e3⟩ := shareLog_inj hi hi' hn hn' ht ht' h1
  exact ⟨e1, e2, e3, by rw [hpk, hpk', Option.map_some, Option.map_some, hB.serElem_inj ha ha'],
    hB.serElem_inj hr hr', hB.serElem_inj hd hd'⟩

/-- Shares for two ciphertexts have different hash inputs. -/
example (q : List Entry)
    (h : ShareHashInput (B101.withHash fun _ => 7) ⟨⟨1, 1⟩, ⟨[5], 5⟩, [⟨[5], 5⟩]⟩ 0 ⟨10, 20⟩ 4 ⟨7, 1⟩ q) :
    ¬ ShareHashInput (B101.withHash fun _ => 7) ⟨⟨1, 1⟩, ⟨[5], 5⟩, [⟨[5], 5⟩]⟩ 0 ⟨11, 20⟩ 4 ⟨7, 1⟩ q := fun h' =>
  absurd (C44_share_hash_inj (B101.withHash fun _ => 7) (B101_lawful.withHash _) _ _ 0 0 _ _ 4 4 _ _ q (by decide)
    (by decide) (by decide) (by decide) (by decide) (by decide) h h').2.2.2.2.1 (by decide)

/-- C44: participants' proofs of possession are accepted for their index. -/
theorem C44_participant_pop (B : Backend F E) (ks : PublicKeySet E) (i : ℕ) (s : F)
    (part : ActiveParticipant F E) (hp : ActiveParticipant.new B ks i s = some (.ok part))
    (rng rng' : B.Rng) (proof : ProofOfPossession F)
    (h : part.proofOfPossession B rng = some (proof, rng')) :
    ks.verifyParticipant B i proof = some (.ok ()) := by
  obtain ⟨rfl, pk, hpk, he⟩ := participant_key hp
  simp only [ActiveParticipant.proofOfPossession, ActiveParticipant.publicKeyShare, hpk, Option.bind_eq_bind,
    Option.bind_some, Option.bind_eq_some_iff, Option.pure_def, Option.some.injEq, Prod.mk.injEq,
    Prod.exists] at h
  obtain ⟨proof', t', r', hnew, rfl, rfl⟩ := h
  have := C14_pop_complete B [⟨s, pk⟩] (by simpa using he) _ _ _ _ _ hnew
  simp only [List.map_cons, List.map_nil] at this
  simp [PublicKeySet.verifyParticipant, PublicKeySet.participantKey, hpk, this]

example : ∃ proof, exampleKeySet.verifyParticipant (B101.withHash fun _ => 7) 2 proof = some (.ok ()) :=
  ⟨_, C44_participant_pop (B101.withHash fun _ => 7) exampleKeySet 2 40 ⟨exampleKeySet, 2, 40⟩ rfl (3 : ℕ)
    _ _ rfl⟩

/-- C44: the hash input of an accepted proof of possession hashes to its challenge, and it determines index,
parameters, shared key and the participant's key. -/
theorem C44_participant_pop_hash (B : Backend F E) (ks : PublicKeySet E) (i : ℕ)
    (proof : ProofOfPossession F) (h : ks.verifyParticipant B i proof = some (.ok ())) :
    ∃ q, ParticipantHashInput B ks i proof q ∧ B.challenge q = proof.challenge := by
  simp only [PublicKeySet.verifyParticipant, PublicKeySet.participantKey, Option.bind_eq_bind,
    Option.bind_eq_some_iff, Option.pure_def, Option.some.injEq, Prod.exists] at h
  obtain ⟨pk, hpk, r, t', hv, rfl⟩ := h
  have hl := ProofOfPossession.verify_ok hv
  obtain ⟨rs, hrs, -, hc⟩ := (ProofOfPossession.verify_eq_some hl).mp hv
  obtain ⟨s, hs⟩ := List.length_eq_one_iff.mp hl
  rw [hs] at hrs
  simp only [List.zip_cons_cons, List.zip_nil_left] at hrs
  obtain ⟨x, rs', hx, hnil, rfl⟩ := List.forall₂_cons_left_iff.mp hrs
  cases hnil
  refine ⟨_, ⟨pk, s, x, hpk, hs, hx, rfl⟩, ?_⟩
  rw [← participantLog_eq]
  exact checkChallenge_ok.mp hc.symm

example : ∃ q, ParticipantHashInput (B101.withHash fun _ => 7) exampleKeySet 2 ⟨7, [1]⟩ q := by
  obtain ⟨q, h, -⟩ := C44_participant_pop_hash (B101.withHash fun _ => 7) exampleKeySet 2 ⟨7, [1]⟩ (by decide +kernel)
  exact ⟨q, h⟩

theorem C44_participant_pop_hash_inj (B : Backend F E) (ks ks' : PublicKeySet E) (i i' : ℕ)
    (proof proof' : ProofOfPossession F) (q : List Entry) (hi : i < 2 ^ 64) (hi' : i' < 2 ^ 64)
    (hn : ks.params.shares < 2 ^ 64) (hn' : ks'.params.shares < 2 ^ 64)
    (ht : ks.params.threshold < 2 ^ 64) (ht' : ks'.params.threshold < 2 ^ 64)
    (h : ParticipantHashInput B ks i proof q) (h' : ParticipantHashInput B ks' i' proof' q) :
    i = i' ∧ ks.params = ks'.params ∧ ks.sharedKey.bytes = ks'.sharedKey.bytes ∧
    (ks.participantKeys[i]?).map (·.bytes) = (ks'.participantKeys[i']?).map (·.bytes) := by
  obtain ⟨pk, s, x, hpk, hs, hx, hq⟩ := h
  obtain ⟨pk', s', x', hpk', hs', hx', hq'⟩ := h'
  obtain ⟨h1, h2, -⟩ := popQuery_inj (by simp) (by simp) (hq.symm.trans hq')
  obtain ⟨e1, e2, e3⟩ := participantLog_inj hi hi' hn hn' ht ht' h1
  refine ⟨e1, e2, e3, ?_⟩
  rw [hpk, hpk', Option.map_some, Option.map_some]
  simpa using h2

/-- Proofs of two participants have different hash inputs. -/
example (q : List Entry) (h : ParticipantHashInput (B101.withHash fun _ => 7) exampleKeySet 2 ⟨7, [1]⟩ q) :
    ¬ ParticipantHashInput (B101.withHash fun _ => 7) exampleKeySet 1 ⟨7, [1]⟩ q := fun h' =>
  absurd (C44_participant_pop_hash_inj (B101.withHash fun _ => 7) _ _ 2 1 _ _ q (by decide)
    (by decide) (by decide) (by decide) (by decide) (by decide) h h').1 (by decide)

/-- C44: `verify_participant` panics exactly for indexes out of bounds if encodings are total. -/
theorem C50_verify_participant (B : Backend F E) (hT : B.TotalSer) (ks : PublicKeySet E) (i : ℕ)
    (proof : ProofOfPossession F) :
    ks.verifyParticipant B i proof = none ↔ ks.participantKeys.length ≤ i := by
  constructor
  · intro h
    by_contra hi
    have hi : i < ks.participantKeys.length := not_le.mp hi
    obtain ⟨⟨r, t'⟩, hr⟩ := C50_pop_verify_total B hT proof [ks.participantKeys[i]] (ks.popTranscript i)
    simp [PublicKeySet.verifyParticipant, PublicKeySet.participantKey, hi, hr] at h
  · intro hi
    simp [PublicKeySet.verifyParticipant, PublicKeySet.participantKey, List.getElem?_eq_none hi]

example : exampleKeySet.verifyParticipant B101 3 ⟨0, [0]⟩ = none ∧ exampleKeySet.verifyParticipant B101 2 ⟨0, []⟩ ≠ none :=
  ⟨(C50_verify_participant B101 B101_total exampleKeySet 3 ⟨0, [0]⟩).mpr (by decide),
    fun h => absurd ((C50_verify_participant B101 B101_total exampleKeySet 2 ⟨0, []⟩).mp h) (by decide)⟩

/-! ## C45 -/

/-- C45: decryption shares of any `threshold` participants with distinct indexes, combined in any order,
decrypt every ciphertext for the shared key. -/
theorem C45_end_to_end (B : Backend F E) (p : ℕ) [CharP F p] (params : Params)
    (hv : ValidParams params) (hn : params.shares < p) (rng rng' : B.Rng) (dealer : Dealer F E)
    (hdealer : Dealer.new B params rng = some (dealer, rng')) (ks : PublicKeySet E)
    (hks : PublicKeySet.new B params dealer.publicInfo.1 dealer.publicInfo.2 = some (.ok ks)) (m : E)
    (rng1 : B.Rng) (contributions : List (ℕ × VerifiableDecryption E))
    (hc : ∀ c ∈ contributions, ∃ s part proof r r',
      dealer.secretShareForParticipant c.1 = some s ∧
      ActiveParticipant.new B ks c.1 s = some (.ok part) ∧
      part.decryptShare B (ks.sharedKey.encryptElement B m rng1).1 r = some ((c.2, proof), r'))
    (hd : (contributions.map Prod.fst).Nodup) (hlen : params.threshold ≤ contributions.length) :
    ∃ d, params.combineShares F contributions = some (some d) ∧
      d.decryptToElement (ks.sharedKey.encryptElement B m rng1).1 = m := by
  obtain ⟨hp, hl, hkeys, -⟩ := C42_dealer B params rng rng' dealer hdealer
  obtain ⟨ks', e, hp', hfor⟩ := C42_dealer_accepted B params rng rng' dealer hdealer _ hks
  cases e
  obtain ⟨kp, rest, hpoly⟩ := List.exists_cons_of_ne_nil
    (List.ne_nil_of_length_pos (hl ▸ hv.1 : 0 < dealer.polynomial.length))
  have hshared : ks.sharedKey.element = kp.secret • B.gen := by
    rw [hfor.shared.1, polyAt_smul, hpoly]
    simp [polyAt]
  refine C39_combine_decrypts B p params hn kp.secret (rest.map (·.secret))
    (by rw [hpoly] at hl; simp only [List.length_cons] at hl; simp [hl]) _ m ?_ contributions hlen ?_
    (hd.sublist (((List.take_sublist _ _).map _))) ?_
  · refine ⟨(B.genScalar rng1).1, rfl, ?_⟩
    simp only [PublicKey.encryptElement, ExtendedCiphertext.new, SecretKey.generate, hshared]
  · intro c hc'
    obtain ⟨s, part, proof, r, r', h1, -, -⟩ := hc c (List.mem_of_mem_take hc')
    rw [Dealer.share_eq, hp] at h1
    split at h1
    · assumption
    · cases h1
  · intro c hc'
    obtain ⟨s, part, proof, r, r', h1, h2, h3⟩ := hc c (List.mem_of_mem_take hc')
    rw [(C44_share_complete B ks c.1 s part h2 _ r r' c.2 proof h3).1]
    rw [Dealer.share_eq] at h1
    split at h1
    · rw [← Option.some.inj h1, hpoly]; rfl
    · cases h1

example : ∃ (dealer : Dealer (ZMod 101) (ZMod 101)) (ks : PublicKeySet (ZMod 101))
    (d d0 d2 : VerifiableDecryption (ZMod 101)) (proof0 proof2 : LogEqualityProof (ZMod 101)) (r0 r2 : ℕ),
    (∃ s part, dealer.secretShareForParticipant 2 = some s ∧ ActiveParticipant.new B101 ks 2 s = some (.ok part) ∧
      part.decryptShare B101 (ks.sharedKey.encryptElement B101 55 (9 : ℕ)).1 (3 : ℕ) =
        some ((d2, proof2), r2)) ∧
    (∃ s part, dealer.secretShareForParticipant 0 = some s ∧ ActiveParticipant.new B101 ks 0 s = some (.ok part) ∧
      part.decryptShare B101 (ks.sharedKey.encryptElement B101 55 (9 : ℕ)).1 (4 : ℕ) =
        some ((d0, proof0), r0)) ∧
    (⟨3, 2⟩ : Params).combineShares (ZMod 101) [(2, d2), (0, d0)] = some (some d) ∧
    d.decryptToElement (ks.sharedKey.encryptElement B101 55 (9 : ℕ)).1 = 55 := by
  obtain ⟨dealer, rng', ks, h1, h2, h3⟩ := exampleDealer
  obtain ⟨s, h4, h5, h6⟩ := C42_share_accepted B101 B101_lawful ⟨3, 2⟩ _ _ dealer h1 ks h2 2 (by norm_num)
  obtain ⟨⟨⟨d2, proof2⟩, r2⟩, h⟩ := C44_share_total B101 B101_total ks 2 s _ h5
    (ks.sharedKey.encryptElement B101 55 (9 : ℕ)).1 (3 : ℕ)
  obtain ⟨s', h4', h5', h6'⟩ := C42_share_accepted B101 B101_lawful ⟨3, 2⟩ _ _ dealer h1 ks h2 0 (by norm_num)
  obtain ⟨⟨⟨d0, proof0⟩, r0⟩, h'⟩ := C44_share_total B101 B101_total ks 0 s' _ h5'
    (ks.sharedKey.encryptElement B101 55 (9 : ℕ)).1 (4 : ℕ)
  obtain ⟨d, hd⟩ := C45_end_to_end B101 101 ⟨3, 2⟩ (by simp [ValidParams]) (by norm_num) _ _ dealer h1 ks h2 55
    (9 : ℕ) [(2, d2), (0, d0)] (by
      intro c hc
      simp only [List.mem_cons, List.not_mem_nil, or_false] at hc
      rcases hc with rfl | rfl
      · exact ⟨s, _, proof2, _, _, h4, h5, h⟩
      · exact ⟨s', _, proof0, _, _, h4', h5', h'⟩) (by simp) (by simp)
  exact ⟨dealer, ks, d, d0, d2, proof0, proof2, r0, r2, ⟨s, _, h4, h5, h⟩, ⟨s', _, h4', h5', h'⟩, hd⟩

/-- C45 against dishonest participants: if every used share passed `verify_share`, the combined decryption
is correct unless one of the proofs was forged. The key set may come from anywhere, provided that it
belongs to a polynomial. -/
theorem C45_verified_shares (B : Backend F E) (hB : B.Lawful) (p : ℕ) [CharP F p] (ks : PublicKeySet E)
    (hn : ks.params.shares < p) (cs : List E) (hks : KeySetFor B ks cs) (m : E)
    (ct : Ciphertext E) (r : F) (hr : ct.random = r • B.gen)
    (hct : ct.blinded = m + r • ks.sharedKey.element)
    (contributions : List (ℕ × VerifiableDecryption E))
    (proofs : ℕ → LogEqualityProof F)
    (hc : ∀ c ∈ contributions.take ks.params.threshold, ∃ cand,
      ks.verifyShare B cand ct c.1 (proofs c.1) = some (.ok c.2))
    (hd : ((contributions.take ks.params.threshold).map Prod.fst).Nodup)
    (hlen : ks.params.threshold ≤ contributions.length) :
    (∃ d, ks.params.combineShares F contributions = some (some d) ∧ d.decryptToElement ct = m) ∨
    ∃ c ∈ contributions.take ks.params.threshold, ∃ base pk, IsKey B base ct.random ∧
      ks.participantKeys[c.1]? = some pk ∧
      LogEqForged B (shareLog ks.params ks.sharedKey.bytes c.1) base (pk.element, c.2.dhElement)
        (proofs c.1) := by
  by_cases hforged : ∃ c ∈ contributions.take ks.params.threshold, ∃ base pk, IsKey B base ct.random ∧
      ks.participantKeys[c.1]? = some pk ∧
      LogEqForged B (shareLog ks.params ks.sharedKey.bytes c.1) base (pk.element, c.2.dhElement)
        (proofs c.1)
  · exact .inr hforged
  · left
    have hidx : ∀ c ∈ contributions.take ks.params.threshold, c.1 < ks.params.shares := by
      intro c hc'
      obtain ⟨cand, h⟩ := hc c hc'
      by_contra hge
      rw [C44_share_index B ks c.1 cand ct _ (by rw [hks.count]; omega)] at h
      cases h
    have hval : ∀ c ∈ contributions.take ks.params.threshold,
        c.2.dhElement = polyAt ((c.1 : F) + 1) (cs.map (r • ·)) := by
      intro c hc'
      obtain ⟨cand, h⟩ := hc c hc'
      have hi : c.1 < ks.participantKeys.length := by rw [hks.count]; exact hidx c hc'
      have hpk := List.getElem?_eq_getElem hi
      obtain ⟨s, hs⟩ := hB.gen_spans ks.participantKeys[c.1].element
      obtain ⟨h1, h2 | ⟨base, hb, hf⟩⟩ := C44_share_sound B hB ks c.1 _ hpk s hs cand ct _ c.2 h
      · have hmap : ∀ (x : F) (l : List E), polyAt x (l.map (r • ·)) = r • polyAt x l := by
          intro x l
          induction l with
          | nil => simp [polyAt]
          | cons a l ih => simp only [List.map_cons, polyAt, ih]; module
        rw [h2, hmap, ← (hks.keys c.1 _ hpk).1, hs, hr]
        module
      · exact absurd ⟨c, hc', base, _, hb, hpk, hf⟩ hforged
    refine ⟨_, C39_combine p ks.params hn (cs.map (r • ·)) (by simp [hks.degree]) contributions hlen hidx hd hval, ?_⟩
    have h0 : polyAt (0 : F) (cs.map (r • ·)) = r • polyAt (0 : F) cs := by
      rw [polyAt_zero, polyAt_zero]
      cases cs <;> simp
    simp only [VerifiableDecryption.decryptToElement, h0, hct, hks.shared.1]
    abel

/-- The first and the third participant decrypt `(3, 30)`, which encrypts 9 for the shared key 7; one of the shares
may be forged, as the hash function is constant. -/
example : (∃ d, (⟨3, 2⟩ : Params).combineShares (ZMod 101) [(2, ⟨(40 * 3 : ZMod 101)⟩), (0, ⟨18 * 3⟩)] = some (some d) ∧
      d.decryptToElement ⟨3, 30⟩ = 9) ∨
    ∃ c base powers, LogEqForged (B101.withHash fun _ => 7) (shareLog ⟨3, 2⟩ [7] c) base powers ⟨7, 1⟩ := by
  rcases C45_verified_shares (B101.withHash fun _ => 7) (B101_lawful.withHash _) 101 exampleKeySet (by decide) [7, 11]
    exampleKeySet_for 9 ⟨3, 30⟩ 3 (by decide) (by decide) [(2, ⟨40 * 3⟩), (0, ⟨18 * 3⟩)] (fun _ => ⟨7, 1⟩)
    (by
      intro c hc
      refine ⟨.ofVerifiable c.2, ?_⟩
      revert c
      decide +kernel)
    (by decide) (by decide) with h | ⟨c, -, base, pk, -, -, h⟩
  · exact .inl h
  · exact .inr ⟨c.1, base, _, h⟩

end ElasticElgamal
