import Verif.Props.Tally
import Verif.Props.Dkg

/-!
# Honest elections, end to end (C65)
-/

set_option autoImplicit false
set_option linter.unusedSectionVars false

namespace ElasticElgamal

open Spec Toy

variable {F E : Type} [Field F] [AddCommGroup E] [Module F E] [DecidableEq F] [DecidableEq E]

/-- Sums of the columns of a table of ciphertexts encrypt the sums of the columns of a table of numbers. -/
theorem tally_decrypts (B : Backend F E) (hB : B.Lawful) (k : F) (n : ℕ) (rows : List (List (Ciphertext E)))
    (values : List (List ℕ)) (h : List.Forall₂ (fun cts xs => cts.length = n ∧
      cts.map (SecretKey.decryptToElement k) = xs.map fun x : ℕ => (x : F) • B.gen) rows values) (j : ℕ)
    (ct : Ciphertext E) (hct : (tally n rows)[j]? = some ct) :
    SecretKey.decryptToElement k ct = (((values.map fun xs => (xs[j]?).getD 0).sum : ℕ) : F) • B.gen := by
  have hj : j < n := by
    by_contra hj
    rw [tally, List.getElem?_map, List.getElem?_eq_none (by simpa using hj)] at hct
    cases hct
  simp only [tally, List.getElem?_map, List.getElem?_range hj, Option.map_some, Option.some.injEq] at hct
  have h1 : List.Forall₂ (Encrypts B k) (rows.map fun cts => (cts[j]?).getD Ciphertext.zero)
      (values.map fun xs => (((xs[j]?).getD 0 : ℕ) : F) • B.gen) := by
    rw [List.forall₂_map_left_iff, List.forall₂_map_right_iff]
    refine h.imp fun cts xs ⟨hl, hm⟩ => ?_
    have hl' : xs.length = n := by
      have := congrArg List.length hm
      simp only [List.length_map] at this
      omega
    have hg := congrArg (·[j]?) hm
    simp only [List.getElem?_map, List.getElem?_eq_getElem (show j < cts.length by omega),
      List.getElem?_eq_getElem (show j < xs.length by omega), Option.map_some, Option.some.injEq] at hg
    rw [List.getElem?_eq_getElem (show j < cts.length by omega),
      List.getElem?_eq_getElem (show j < xs.length by omega), Option.getD_some, Option.getD_some,
      C01_encrypts_iff_decrypts B hB]
    exact hg
  have h2 := tally_encrypts _ _ h1 Ciphertext.zero 0 ⟨0, by simp [Ciphertext.zero], by simp [Ciphertext.zero]⟩
  rw [hct, zero_add, C01_encrypts_iff_decrypts B hB] at h2
  rw [h2]
  clear h h1 h2 hct
  induction values with
  | nil => simp
  | cons v values ih => rw [List.map_cons, List.sum_cons, ih, List.map_cons, List.sum_cons]; push_cast; module

/-- C65: decryption shares made by participants of a key set (who passed `ActiveParticipant::new`) are accepted, and
combining those of any `t` distinct ones decrypts every ciphertext in the same way as the secret key that nobody
holds. The key set may come from a dealer, from distributed key generation, or from participant keys. -/
theorem C65_participants_decrypt (B : Backend F E) (hB : B.Lawful) (p : ℕ) [CharP F p] (ks : PublicKeySet E)
    (cs : List E) (hks : KeySetFor B ks cs) (hv : ValidParams ks.params) (hn : ks.params.shares < p) (k : F)
    (hk : ks.sharedKey.element = k • B.gen) (ct : Ciphertext E) (contributions : List (ℕ × VerifiableDecryption E))
    (hc : ∀ c ∈ contributions, ∃ s part proof r r', ActiveParticipant.new B ks c.1 s = some (.ok part) ∧
      part.decryptShare B ct r = some ((c.2, proof), r'))
    (hd : (contributions.map Prod.fst).Nodup) (hlen : ks.params.threshold ≤ contributions.length) :
    (∀ c ∈ contributions, ∃ proof, ks.verifyShare B (.ofVerifiable c.2) ct c.1 proof = some (.ok c.2)) ∧
    ∃ d, ks.params.combineShares F contributions = some (some d) ∧
      d.decryptToElement ct = SecretKey.decryptToElement k ct := by
  refine ⟨fun c hc' => ?_, ?_⟩
  · obtain ⟨s, part, proof, r, r', h1, h2⟩ := hc c hc'
    exact ⟨proof, (C44_share_complete B ks c.1 s part h1 ct r r' c.2 proof h2).2⟩
  obtain ⟨secrets, hsec⟩ : ∃ secrets : List F, cs = secrets.map (· • B.gen) := by
    clear hks
    induction cs with
    | nil => exact ⟨[], rfl⟩
    | cons c cs ih =>
      obtain ⟨s, rfl⟩ := hB.gen_spans c
      obtain ⟨l, rfl⟩ := ih
      exact ⟨s :: l, rfl⟩
  subst hsec
  have hl : secrets.length = ks.params.threshold := by simpa using hks.degree
  obtain ⟨s0, rest, rfl⟩ := List.exists_cons_of_ne_nil
    (List.ne_nil_of_length_pos (hl ▸ hv.1 : 0 < secrets.length))
  have hkk : k = s0 := hB.smul_gen_inj (by
    rw [← hk, hks.shared.1, polyAt_smul]
    simp [polyAt])
  have hpart : ∀ c ∈ contributions, c.1 < ks.params.shares ∧
      c.2.dhElement = polyAt ((c.1 : F) + 1) (s0 :: rest) • ct.random := by
    intro c hc'
    obtain ⟨s, part, proof, r, r', h1, h2⟩ := hc c hc'
    rw [(C44_share_complete B ks c.1 s part h1 ct r r' c.2 proof h2).1]
    rw [C42_participant B hB ks _ hks] at h1
    split at h1
    · rename_i hi
      refine ⟨hi, ?_⟩
      split at h1
      · rename_i hs; rw [hs]
      · cases h1
    · cases h1
  refine C39_combine_decrypts B p ks.params hn s0 rest (by simp only [List.length_cons] at hl; omega) ct _
    ((C01_encrypts_iff_decrypts B hB s0 ct _).mpr (by rw [hkk])) contributions hlen
    (fun c hc' => (hpart c (List.mem_of_mem_take hc')).1)
    (hd.sublist ((List.take_sublist _ _).map _))
    (fun c hc' => (hpart c (List.mem_of_mem_take hc')).2)

/-- C65: after an honest run of distributed key generation (as in `C47_honest`) there is one key set of which everyone
is a participant in the above sense. -/
theorem C65_dkg_participants (B : Backend F E) (hB : B.Lawful) (hT : B.TotalSer) (c : ℕ) [CharP F c]
    (params : Params) (hv : ValidParams params) (hn : params.shares < c) (rngs : ℕ → B.Rng)
    (P : ℕ → CollectingCommitments F E)
    (hP : ∀ i, i < params.shares → ∃ rng', CollectingCommitments.new B params i (rngs i) = some (P i, rng'))
    (hist : ℕ → DkgHistory F E)
    (h1 : ∀ i m, m ∈ (hist i).commitments ↔ m.1 < params.shares ∧ m.1 ≠ i ∧ (P m.1).commitment = some m.2)
    (h2 : ∀ i m, m ∈ (hist i).polynomials ↔ m.1 < params.shares ∧ m.1 ≠ i ∧
      ∃ p q, dkgCommitments B params m.1 (rngs m.1) (hist m.1) = some p ∧ p.finishCommitmentPhase = some q ∧
        m.2 = q.publicInfo)
    (h3 : ∀ i m, m ∈ (hist i).shares ↔ m.1 < params.shares ∧ m.1 ≠ i ∧
      ∃ q p, dkgPolynomials B params m.1 (rngs m.1) (hist m.1) = some q ∧ q.finishPolynomialsPhase = some p ∧
        p.secretShareForParticipant i = some m.2) :
    ∃ (ks : PublicKeySet E) (cs : List E), ks.params = params ∧ KeySetFor B ks cs ∧
      ks.sharedKey.element = (((List.range params.shares).map fun j =>
        polyAt (0 : F) ((P j).dealer.polynomial.map (·.secret))).sum : F) • B.gen ∧
      ∀ i, i < params.shares → ∃ p part, dkgShares B params i (rngs i) (hist i) = some p ∧
        p.complete B = some (.ok part) ∧ ActiveParticipant.new B ks i part.secretShare = some (.ok part) := by
  obtain ⟨ks, hpar, hks, hall⟩ := C47_honest B hB hT c params hv hn rngs P hP hist h1 h2 h3
  have hdl : ∀ j < params.shares, (P j).dealer.publicInfo.1.length = params.threshold ∧
      polyAt (0 : F) (P j).dealer.publicInfo.1 = polyAt (0 : F) ((P j).dealer.polynomial.map (·.secret)) • B.gen := by
    intro j hj
    obtain ⟨rng', hn'⟩ := hP j hj
    obtain ⟨own, hs, -⟩ := collecting_new_spec hn'
    exact ⟨by
      obtain ⟨rng1, hd, -⟩ := hs.created
      rw [Dealer.publicInfo, List.length_map]
      exact (C42_dealer B params _ rng1 _ hd).2.1, own_poly hs 0⟩
  refine ⟨ks, _, hpar, hks, ?_, fun i hi => ?_⟩
  · rw [hks.shared.1, polyAt_polySum _ _ _ (by
      intro poly hp
      rw [List.mem_map] at hp
      obtain ⟨j, hj, rfl⟩ := hp
      exact (hdl j (List.mem_range.mp hj)).1), List.map_map]
    have : ∀ l : List ℕ, (∀ j ∈ l, j < params.shares) →
        (l.map (polyAt (0 : F) ∘ fun j => (P j).dealer.publicInfo.1)).sum =
        ((l.map fun j => polyAt (0 : F) ((P j).dealer.polynomial.map (·.secret))).sum : F) • B.gen := by
      intro l hl
      induction l with
      | nil => simp
      | cons j l ih =>
        rw [List.map_cons, List.sum_cons, List.map_cons, List.sum_cons, ih fun x hx => hl x (by simp [hx]),
          Function.comp_apply, (hdl j (hl j (by simp))).2]
        module
    exact this _ fun j hj => List.mem_range.mp hj
  · obtain ⟨p, part, hp, hm, hr, rfl, -, -⟩ := hall i hi
    obtain ⟨part', e, -, -, -, -, -, h⟩ := C47_complete B c params hv hn i _ _ p hp hm
      (C47_own_polynomial B params i _ _ p hp fun m hm => ((h2 i m).mp hm).2.1) _ hr
    cases e
    exact ⟨p, part, hp, hr, h⟩

/-- Decrypting a tally of well-formed ballots, see below. -/
theorem decrypt_total (B : Backend F E) (hB : B.Lawful) (hu : Backend.U64Inj F) (p : ℕ) [CharP F p]
    (ks : PublicKeySet E) (cs : List E) (hks : KeySetFor B ks cs) (hv : ValidParams ks.params)
    (hn : ks.params.shares < p) (k : F) (hk : ks.sharedKey.element = k • B.gen) (ct : Ciphertext E) (x N : ℕ)
    (hx : SecretKey.decryptToElement k ct = (x : F) • B.gen) (hN : N < 2 ^ 64) (hxN : x ≤ N)
    (table : DiscreteLogTable) (ht : DiscreteLogTable.new B (List.range (N + 1)) = some table)
    (contributions : List (ℕ × VerifiableDecryption E))
    (hc : ∀ c ∈ contributions, ∃ s part proof r r', ActiveParticipant.new B ks c.1 s = some (.ok part) ∧
      part.decryptShare B ct r = some ((c.2, proof), r'))
    (hd : (contributions.map Prod.fst).Nodup) (hlen : ks.params.threshold ≤ contributions.length) :
    ∃ d, ks.params.combineShares F contributions = some (some d) ∧ d.decrypt B ct table = some (some x) := by
  obtain ⟨-, d, h1, h2⟩ := C65_participants_decrypt B hB p ks cs hks hv hn k hk ct contributions hc hd hlen
  refine ⟨d, h1, ?_⟩
  rw [VerifiableDecryption.decrypt, h2, hx]
  refine C02_get_complete B hB hu _ (fun v hv => by rw [List.mem_range] at hv; omega) table ht _ ?_
  rw [List.mem_range]
  omega

/-- C65, multi-choice polls: honestly created ballots are accepted, and any `t` participants of the key set recover the
exact number of ballots selecting each option. -/
theorem C65_honest_multi (B : Backend F E) (hB : B.Lawful) (hu : Backend.U64Inj F) (p : ℕ) [CharP F p]
    (ks : PublicKeySet E) (cs : List E) (hks : KeySetFor B ks cs) (hv : ValidParams ks.params)
    (hn : ks.params.shares < p) (params : ChoiceParams E .multi) (hK : params.receiver = ks.sharedKey)
    (votes : List (List Bool)) (ballots : List (EncryptedChoice F E .multi))
    (h : List.Forall₂ (fun flags ballot => ∃ r r',
      EncryptedChoice.new B params flags r = some (ballot, r')) votes ballots)
    (N : ℕ) (hN : N < 2 ^ 64) (hb : ballots.length ≤ N) (table : DiscreteLogTable)
    (ht : DiscreteLogTable.new B (List.range (N + 1)) = some table) :
    (∀ b ∈ ballots, b.verify B params = some (.ok b.choices)) ∧
    ∀ (j : ℕ) (ct : Ciphertext E), (tally params.optionsCount (ballots.map (·.choices)))[j]? = some ct →
    ∀ (contributions : List (ℕ × VerifiableDecryption E)),
      (∀ c ∈ contributions, ∃ s part proof r r', ActiveParticipant.new B ks c.1 s = some (.ok part) ∧
        part.decryptShare B ct r = some ((c.2, proof), r')) →
      (contributions.map Prod.fst).Nodup → ks.params.threshold ≤ contributions.length →
      ∃ d, ks.params.combineShares F contributions = some (some d) ∧
        d.decrypt B ct table = some (some (votes.countP fun flags => flags[j]? = some true)) := by
  obtain ⟨k, hk⟩ := hB.gen_spans ks.sharedKey.element
  have hall := h.imp fun flags ballot ⟨r, r', hs⟩ =>
    C32_choice_complete B params k (by rw [hK, hk]) flags (by intro h; cases h) r r' ballot hs
  refine ⟨fun b hb => ?_, fun j ct hct contributions hc hd hlen => ?_⟩
  · obtain ⟨i, hi, rfl⟩ := List.mem_iff_getElem.mp hb
    exact (List.Forall₂.get hall (i := i) (by rw [hall.length_eq]; exact hi) hi).1
  · have hrows : List.Forall₂ (fun (cts : List (Ciphertext E)) (xs : List ℕ) =>
        cts.length = params.optionsCount ∧
        cts.map (SecretKey.decryptToElement k) = xs.map fun x : ℕ => (x : F) • B.gen)
        (ballots.map (·.choices)) (votes.map fun flags => flags.map fun f : Bool => if f then 1 else 0) := by
      rw [List.forall₂_map_left_iff, List.forall₂_map_right_iff]
      refine hall.flip.imp fun ballot flags h => ⟨h.2.1, ?_⟩
      rw [h.2.2.1, List.map_map]
      refine List.map_congr_left fun f _ => ?_
      cases f <;> simp
    have hdec := tally_decrypts B hB k _ _ _ hrows j ct hct
    have hcount : ((votes.map fun flags => flags.map fun f : Bool => if f then 1 else 0).map
        fun xs => (xs[j]?).getD 0).sum = votes.countP fun flags => flags[j]? = some true := by
      clear h hall hrows hdec
      induction votes with
      | nil => rfl
      | cons v votes ih =>
        simp only [List.map_cons, List.sum_cons, List.countP_cons, ih, List.getElem?_map]
        rcases v[j]? with _ | _ | _ <;> simp [add_comm]
    rw [hcount] at hdec
    refine decrypt_total B hB hu p ks cs hks hv hn k hk ct _ N hdec hN ?_ table ht contributions hc hd hlen
    have := List.countP_le_length (p := fun flags : List Bool => flags[j]? = some true) (l := votes)
    have := h.length_eq
    omega

/-- C65, quadratic voting: honestly created ballots are accepted, respect the limits, and any `t` participants of the
key set recover the exact total of votes for each option. -/
theorem C65_honest_quadratic (B : Backend F E) (hB : B.Lawful) (hu : Backend.U64Inj F) (p : ℕ) [CharP F p]
    (ks : PublicKeySet E) (cs : List E) (hks : KeySetFor B ks cs) (hv : ValidParams ks.params)
    (hn : ks.params.shares < p) (params : QuadraticVotingParams E) (o c m : ℕ)
    (hp : VotingParamsFor B params o c m) (hK : params.receiver = ks.sharedKey) (votes : List (List ℕ))
    (ballots : List (QuadraticVotingBallot F E))
    (h : List.Forall₂ (fun xs ballot => (B.debug = true ∨ cost xs < 2 ^ 64) ∧ ∃ r r',
      QuadraticVotingBallot.new B params xs r = some (ballot, r')) votes ballots)
    (N : ℕ) (hN : N < 2 ^ 64) (hb : ballots.length * m ≤ N) (table : DiscreteLogTable)
    (ht : DiscreteLogTable.new B (List.range (N + 1)) = some table) :
    (∀ b ∈ ballots, b.verify B params = some (.ok (b.votes.map (·.ciphertext)))) ∧
    (∀ xs ∈ votes, xs.length = o ∧ (∀ v ∈ xs, v ≤ m) ∧ cost xs ≤ c) ∧
    ∀ (j : ℕ) (ct : Ciphertext E),
      (tally o (ballots.map fun b => b.votes.map (·.ciphertext)))[j]? = some ct →
    ∀ (contributions : List (ℕ × VerifiableDecryption E)),
      (∀ c ∈ contributions, ∃ s part proof r r', ActiveParticipant.new B ks c.1 s = some (.ok part) ∧
        part.decryptShare B ct r = some ((c.2, proof), r')) →
      (contributions.map Prod.fst).Nodup → ks.params.threshold ≤ contributions.length →
      ∃ d, ks.params.combineShares F contributions = some (some d) ∧
        d.decrypt B ct table = some (some (votes.map fun xs => (xs[j]?).getD 0).sum) := by
  obtain ⟨k, hk⟩ := hB.gen_spans ks.sharedKey.element
  have hall := h.imp fun xs ballot ⟨hnw, r, r', hs⟩ =>
    C36_ballot_complete B params o c m hp k (by rw [hK, hk]) xs hnw r r' ballot hs
  have hvotes : ∀ xs ∈ votes, xs.length = o ∧ (∀ v ∈ xs, v ≤ m) ∧ cost xs ≤ c := by
    intro xs hxs
    obtain ⟨i, hi, rfl⟩ := List.mem_iff_getElem.mp hxs
    exact (List.Forall₂.get hall (i := i) hi (by rw [← hall.length_eq]; exact hi)).2.2.2
  refine ⟨fun b hb => ?_, hvotes, fun j ct hct contributions hc hd hlen => ?_⟩
  · obtain ⟨i, hi, rfl⟩ := List.mem_iff_getElem.mp hb
    exact (List.Forall₂.get hall (i := i) (by rw [hall.length_eq]; exact hi) hi).1
  · have hrows : List.Forall₂ (fun (cts : List (Ciphertext E)) (xs : List ℕ) => cts.length = o ∧
        cts.map (SecretKey.decryptToElement k) = xs.map fun x : ℕ => (x : F) • B.gen)
        (ballots.map fun b => b.votes.map (·.ciphertext)) votes := by
      rw [List.forall₂_map_left_iff]
      refine hall.flip.imp fun ballot xs h => ⟨?_, ?_⟩
      · have := congrArg List.length h.2.1
        simp only [List.length_map] at this ⊢
        rw [this, h.2.2.2.1]
      · rw [← h.2.1, List.map_map]
        rfl
    have hdec := tally_decrypts B hB k _ _ _ hrows j ct hct
    have hmax : (votes.map fun xs => (xs[j]?).getD 0).sum ≤ votes.length * m := by
      clear h hall hrows hdec
      induction votes with
      | nil => simp
      | cons v votes ih =>
        have h1 : (v[j]?).getD 0 ≤ m := by
          rcases hv' : v[j]? with _ | y
          · simp
          · exact (hvotes v (by simp)).2.1 y (List.mem_of_getElem? hv')
        have h2 := ih fun xs hxs => hvotes xs (by simp [hxs])
        simp only [List.map_cons, List.sum_cons, List.length_cons, Nat.add_mul, one_mul]
        omega
    refine decrypt_total B hB hu p ks cs hks hv hn k hk ct _ N hdec hN ?_ table ht contributions
      hc hd hlen
    have := h.length_eq
    rw [this] at hmax
    omega

/-! ## Examples -/

/-- The shared key of a dealer's key set in the large toy group, with two participants. -/
theorem exampleTrustees (ct : PublicKeySet (ZMod bigPrime) → Ciphertext (ZMod bigPrime)) :
    ∃ (ks : PublicKeySet (ZMod bigPrime)) (cs : List (ZMod bigPrime)) (k : ZMod bigPrime)
      (contributions : List (ℕ × VerifiableDecryption (ZMod bigPrime))), KeySetFor BBig ks cs ∧
      ks.params = ⟨3, 2⟩ ∧ ks.sharedKey.element = k • BBig.gen ∧
      (∀ c ∈ contributions, ∃ (s : ZMod bigPrime) (part : ActiveParticipant (ZMod bigPrime) (ZMod bigPrime))
        (proof : LogEqualityProof (ZMod bigPrime)) (r r' : ℕ), ActiveParticipant.new BBig ks c.1 s = some (.ok part) ∧
        part.decryptShare BBig (ct ks) r = some ((c.2, proof), r')) ∧
      (contributions.map Prod.fst).Nodup ∧ contributions.length = 2 := by
  obtain ⟨⟨dealer, rng'⟩, h1⟩ := C42_dealer_total BBig BBig_total ⟨3, 2⟩ (0 : ℕ)
  obtain ⟨r, hr⟩ := C50_key_set_new_total BBig BBig_total ⟨3, 2⟩ (by simp [ValidParams]) dealer.publicInfo.1
    dealer.publicInfo.2
  obtain ⟨ks, rfl, hpar, hks⟩ := C42_dealer_accepted BBig ⟨3, 2⟩ _ _ dealer h1 r hr
  obtain ⟨k, hk⟩ := BBig_lawful.gen_spans ks.sharedKey.element
  obtain ⟨s, h4, h5, h6⟩ := C42_share_accepted BBig BBig_lawful ⟨3, 2⟩ _ _ dealer h1 ks hr 2 (by norm_num)
  obtain ⟨⟨⟨d2, proof2⟩, r2⟩, h⟩ := C44_share_total BBig BBig_total ks 2 s _ h5 (ct ks) (3 : ℕ)
  obtain ⟨s', h4', h5', h6'⟩ := C42_share_accepted BBig BBig_lawful ⟨3, 2⟩ _ _ dealer h1 ks hr 0 (by norm_num)
  obtain ⟨⟨⟨d0, proof0⟩, r0⟩, h'⟩ := C44_share_total BBig BBig_total ks 0 s' _ h5' (ct ks) (4 : ℕ)
  refine ⟨ks, _, k, [(2, d2), (0, d0)], hks, hpar, hk, ?_, by simp, rfl⟩
  intro c hc
  simp only [List.mem_cons, List.not_mem_nil, or_false] at hc
  rcases hc with rfl | rfl
  · exact ⟨s, _, proof2, _, _, h5, h⟩
  · exact ⟨s', _, proof0, _, _, h5', h'⟩

example : ∃ (ks : PublicKeySet (ZMod bigPrime)) (k : ZMod bigPrime) (d : VerifiableDecryption (ZMod bigPrime))
    (contributions : List (ℕ × VerifiableDecryption (ZMod bigPrime))),
    ks.params.combineShares (ZMod bigPrime) contributions = some (some d) ∧
    d.decryptToElement ⟨10, 20⟩ = SecretKey.decryptToElement k ⟨10, 20⟩ := by
  obtain ⟨ks, cs, k, contributions, h1, h2, h3, h4, h5, h6⟩ := exampleTrustees fun _ => ⟨10, 20⟩
  obtain ⟨-, d, h⟩ := C65_participants_decrypt BBig BBig_lawful bigPrime ks cs h1 (by simp [h2, ValidParams])
    (by rw [h2]; norm_num [bigPrime, mersenne]) k h3 _ contributions h4 h5 (by simp [h2, h6])
  exact ⟨ks, k, d, contributions, h⟩

/-- Three multi-choice ballots with 2, 0 and 3 votes. -/
example : ∃ (ks : PublicKeySet (ZMod bigPrime)) (ct : Ciphertext (ZMod bigPrime)) (table : DiscreteLogTable)
    (d : VerifiableDecryption (ZMod bigPrime)) (contributions : List (ℕ × VerifiableDecryption (ZMod bigPrime))),
    ks.params.combineShares (ZMod bigPrime) contributions = some (some d) ∧
    d.decrypt BBig ct table = some (some 3) := by
  have hb : ∀ (ks : PublicKeySet (ZMod bigPrime)) (flags : List Bool), flags.length = 3 → ∃ ballot rng',
      EncryptedChoice.new BBig (kind := .multi) ⟨3, ks.sharedKey⟩ flags (1 : ℕ) = some (ballot, rng') := by
    intro ks flags hl
    obtain ⟨⟨ballot, rng'⟩, h⟩ := (C32_choice_total BBig BBig_total (kind := .multi) ⟨3, ks.sharedKey⟩ flags
      (1 : ℕ)).mpr (by constructor <;> first | exact hl | (rintro rfl; cases hl))
    exact ⟨ballot, rng', h⟩
  choose ballot rng' hb using hb
  obtain ⟨table, htable⟩ := C02_new_total BBig BBig_lawful bigPrime_u64 (List.range 4) (by
    intro v hv; rw [List.mem_range] at hv; omega)
  obtain ⟨ks, cs, k, contributions, h1, h2, h3, h4, h5, h6⟩ := exampleTrustees fun ks =>
    ((tally 3 ([ballot ks [true, false, true] rfl, ballot ks [true, false, true] rfl,
      ballot ks [false, false, true] rfl].map (·.choices)))[2]?).getD Ciphertext.zero
  obtain ⟨-, h⟩ := C65_honest_multi BBig BBig_lawful bigPrime_u64 bigPrime ks cs h1 (by simp [h2, ValidParams])
    (by rw [h2]; norm_num [bigPrime, mersenne]) ⟨3, ks.sharedKey⟩ rfl
    [[true, false, true], [true, false, true], [false, false, true]] _
    (.cons ⟨_, _, hb ks _ rfl⟩ (.cons ⟨_, _, hb ks _ rfl⟩ (.cons ⟨_, _, hb ks _ rfl⟩ .nil))) 3 (by norm_num)
    (by simp) table htable
  obtain ⟨d, hd⟩ := h 2 _ rfl contributions h4 h5 (by simp [h2, h6])
  exact ⟨ks, _, table, d, contributions, hd.1, by simpa using hd.2⟩

/-- Two quadratic voting ballots. -/
example : ∃ (ks : PublicKeySet (ZMod bigPrime)) (ct : Ciphertext (ZMod bigPrime)) (table : DiscreteLogTable)
    (d : VerifiableDecryption (ZMod bigPrime)) (contributions : List (ℕ × VerifiableDecryption (ZMod bigPrime))),
    ks.params.combineShares (ZMod bigPrime) contributions = some (some d) ∧
    d.decrypt BBig ct table = some (some 5) := by
  have hparams : ∀ ks : PublicKeySet (ZMod bigPrime), ∃ params, params.receiver = ks.sharedKey ∧
      VotingParamsFor BBig params 2 16 4 := by
    intro ks
    obtain ⟨params, m, h1, h2, h3, h4, h5, h6⟩ := C35_params_new BBig _
      C27_estimate_exact ks.sharedKey 2 16 (by norm_num) (by norm_num) (by norm_num)
    have hm : m = 4 := by
      have : m < 5 := by by_contra h; have := Nat.mul_le_mul (not_lt.mp h) (not_lt.mp h); omega
      interval_cases m <;> omega
    subst hm
    exact ⟨params, h2, h5⟩
  choose params hrec hfor using hparams
  have hb : ∀ (ks : PublicKeySet (ZMod bigPrime)) (votes : List ℕ), cost votes < 2 ^ 64 →
      votes.length = 2 ∧ (∀ v ∈ votes, v ≤ 4) ∧ cost votes ≤ 16 → ∃ ballot rng',
      QuadraticVotingBallot.new BBig (params ks) votes (1 : ℕ) = some (ballot, rng') := by
    intro ks votes hw hl
    obtain ⟨⟨ballot, rng'⟩, h⟩ := (C36_ballot_total BBig BBig_total (params ks) 2 16 4 (hfor ks) votes (.inr hw)
      (1 : ℕ)).mpr hl
    exact ⟨ballot, rng', h⟩
  choose ballot rng' hb using hb
  obtain ⟨table, htable⟩ := C02_new_total BBig BBig_lawful bigPrime_u64 (List.range 9) (by
    intro v hv; rw [List.mem_range] at hv; omega)
  obtain ⟨ks, cs, k, contributions, h1, h2, h3, h4, h5, h6⟩ := exampleTrustees fun ks =>
    ((tally 2 ([ballot ks [3, 2] (by decide) (by decide), ballot ks [2, 0] (by decide) (by decide)].map
      fun b => b.votes.map (·.ciphertext)))[0]?).getD Ciphertext.zero
  obtain ⟨-, -, h⟩ := C65_honest_quadratic BBig BBig_lawful bigPrime_u64 bigPrime ks cs h1
    (by simp [h2, ValidParams]) (by rw [h2]; norm_num [bigPrime, mersenne]) (params ks) 2 16 4 (hfor ks) (hrec ks)
    [[3, 2], [2, 0]] _
    (.cons ⟨.inr (by decide), _, _, hb ks _ (by decide) (by decide)⟩
      (.cons ⟨.inr (by decide), _, _, hb ks _ (by decide) (by decide)⟩ .nil)) 8 (by norm_num) (by simp) table htable
  obtain ⟨d, hd⟩ := h 0 _ rfl contributions h4 h5 (by simp [h2, h6])
  exact ⟨ks, _, table, d, contributions, hd.1, by simpa using hd.2⟩

/-- An honest 2-of-3 run of distributed key generation, after which all three are participants of one key set. -/
example : ∃ (ks : PublicKeySet (ZMod 101)) (cs : List (ZMod 101)), ks.params = ⟨3, 2⟩ ∧ KeySetFor B101 ks cs ∧
    ∀ i, i < 3 → ∃ (s : ZMod 101) (part : ActiveParticipant (ZMod 101) (ZMod 101)),
      ActiveParticipant.new B101 ks i s = some (.ok part) := by
  have hv : ValidParams ⟨3, 2⟩ := by simp [ValidParams]
  have hex : ∀ i : ℕ, ∃ out, i < 3 → CollectingCommitments.new B101 ⟨3, 2⟩ i (10 * i : ℕ) = some out := by
    intro i
    cases h : CollectingCommitments.new B101 ⟨3, 2⟩ i (10 * i : ℕ) with
    | none => exact ⟨⟨⟨⟨1, 1⟩, 0, ⟨⟨1, 1⟩, [], ⟨0, []⟩⟩, [], []⟩, (0 : ℕ)⟩,
        fun hi => absurd ((C49_new B101 B101_total ⟨3, 2⟩ hv i _).mp h) (by simpa using hi)⟩
    | some out => exact ⟨out, fun _ => rfl⟩
  obtain ⟨P, hP⟩ := Classical.axiomOfChoice hex
  obtain ⟨hist, h1, h2, h3⟩ := honest_histories 3 fun i => (P i).1
  have hP' : ∀ i, i < 3 → ∃ rng', CollectingCommitments.new B101 ⟨3, 2⟩ i (10 * i : ℕ) = some ((P i).1, rng') :=
    fun i hi => ⟨(P i).2, hP i hi⟩
  obtain ⟨h2', h3'⟩ := (honest_messages B101 (params := ⟨3, 2⟩) (rngs := fun i => (10 * i : ℕ)) hP' h1).mpr ⟨h2, h3⟩
  obtain ⟨ks, cs, hpar, hks, -, hall⟩ := C65_dkg_participants B101 B101_lawful B101_total 101 ⟨3, 2⟩ hv (by norm_num)
    (fun i => (10 * i : ℕ)) (fun i => (P i).1) hP' hist h1 h2' h3'
  refine ⟨ks, cs, hpar, hks, fun i hi => ?_⟩
  obtain ⟨p, part, -, -, h⟩ := hall i hi
  exact ⟨_, part, h⟩

end ElasticElgamal
