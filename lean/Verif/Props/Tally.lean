import Verif.Spec.Tally
import Verif.Props.Choice
import Verif.Props.QuadraticVoting
import Verif.Props.KeySet

/-!
# Tallies under threshold keys (C54) and quadratic voting tallies
-/

set_option autoImplicit false
set_option linter.unusedSectionVars false

namespace ElasticElgamal

open Spec Toy

variable {F E : Type} [Field F] [AddCommGroup E] [Module F E] [DecidableEq F] [DecidableEq E]

/-- C54, for any ciphertext: if it decrypts to `[n]G` and the table contains `n`, then combining verified
shares and looking up the result gives `n`, unless a share was forged. -/
theorem C54_lookup (B : Backend F E) (hB : B.Lawful) (hu : Backend.U64Inj F) (p : ℕ) [CharP F p]
    (ks : PublicKeySet E) (hn : ks.params.shares < p) (cs : List E) (hks : KeySetFor B ks cs) (k : F)
    (hK : ks.sharedKey.element = k • B.gen) (values : List ℕ) (hv : ∀ v ∈ values, v < 2 ^ 64)
    (table : DiscreteLogTable) (ht : DiscreteLogTable.new B values = some table)
    (ct : Ciphertext E) (n : ℕ) (hmem : n ∈ values)
    (hct : SecretKey.decryptToElement k ct = (n : F) • B.gen)
    (contributions : List (ℕ × VerifiableDecryption E)) (proofs : ℕ → LogEqualityProof F)
    (hs : VerifiedShares B ks ct contributions proofs) :
    ShareForged B ks ct contributions proofs ∨
    ∃ d, ks.params.combineShares F contributions = some (some d) ∧ d.decrypt B ct table = some (some n) := by
  obtain ⟨r, hr⟩ := hB.gen_spans ct.random
  have hb : ct.blinded = (n : F) • B.gen + r • ks.sharedKey.element := by
    rw [← hct, SecretKey.decryptToElement, hr, hK]; module
  rcases C45_verified_shares B hB p ks hn cs hks ((n : F) • B.gen) ct r hr hb contributions proofs hs.verified
    hs.distinct hs.enough with ⟨d, h1, h2⟩ | h
  · right
    refine ⟨d, h1, ?_⟩
    rw [VerifiableDecryption.decrypt, h2]
    exact C02_get_complete B hB hu values hv table ht n hmem
  · exact .inl h

/-- A 2-of-3 key set of a dealer in the large toy group, with verified shares of two participants for every
ciphertext. -/
theorem exampleShares : ∃ (ks : PublicKeySet (ZMod bigPrime)) (cs : List (ZMod bigPrime)) (k : ZMod bigPrime),
    KeySetFor BBig ks cs ∧ ks.params = ⟨3, 2⟩ ∧ ks.sharedKey.element = k • BBig.gen ∧
    ∀ ct : Ciphertext (ZMod bigPrime), ∃ (contributions : List (ℕ × VerifiableDecryption (ZMod bigPrime)))
      (proofs : ℕ → LogEqualityProof (ZMod bigPrime)), VerifiedShares BBig ks ct contributions proofs := by
  obtain ⟨⟨dealer, rng'⟩, h1⟩ := C42_dealer_total BBig BBig_total ⟨3, 2⟩ (0 : ℕ)
  obtain ⟨r, hr⟩ := C50_key_set_new_total BBig BBig_total ⟨3, 2⟩ (by simp [ValidParams]) dealer.publicInfo.1
    dealer.publicInfo.2
  obtain ⟨ks, rfl, hpar, hks⟩ := C42_dealer_accepted BBig ⟨3, 2⟩ _ _ dealer h1 r hr
  obtain ⟨s, h4, h5, h6⟩ := C42_share_accepted BBig BBig_lawful ⟨3, 2⟩ _ _ dealer h1 ks hr 2 (by norm_num)
  obtain ⟨s', h4', h5', h6'⟩ := C42_share_accepted BBig BBig_lawful ⟨3, 2⟩ _ _ dealer h1 ks hr 0 (by norm_num)
  obtain ⟨k, hk⟩ := BBig_lawful.gen_spans ks.sharedKey.element
  refine ⟨ks, _, k, hks, hpar, hk, fun ct => ?_⟩
  obtain ⟨⟨⟨d2, proof2⟩, r2⟩, h⟩ := C44_share_total BBig BBig_total ks 2 s _ h5 ct (3 : ℕ)
  obtain ⟨⟨⟨d0, proof0⟩, r0⟩, h'⟩ := C44_share_total BBig BBig_total ks 0 s' _ h5' ct (4 : ℕ)
  refine ⟨[(2, d2), (0, d0)], fun i => if i = 2 then proof2 else proof0, ?_⟩
  constructor
  · rw [hpar]; simp
  · rw [hpar]; simp
  · rw [hpar]
    intro c hc
    simp only [List.take_succ_cons, List.take_zero, List.mem_cons, List.not_mem_nil, or_false] at hc
    rcases hc with rfl | rfl
    · exact ⟨_, (C44_share_complete BBig ks 2 s _ h5 _ _ _ d2 proof2 h).2⟩
    · exact ⟨_, (C44_share_complete BBig ks 0 s' _ h5' _ _ _ d0 proof0 h').2⟩

/-- A ciphertext of 3 for the shared key. -/
example : ∃ (ks : PublicKeySet (ZMod bigPrime)) (ct : Ciphertext (ZMod bigPrime)) (table : DiscreteLogTable)
    (contributions : List (ℕ × VerifiableDecryption (ZMod bigPrime))) (proofs : ℕ → LogEqualityProof (ZMod bigPrime)),
    ShareForged BBig ks ct contributions proofs ∨
    ∃ d, ks.params.combineShares (ZMod bigPrime) contributions = some (some d) ∧
      d.decrypt BBig ct table = some (some 3) := by
  obtain ⟨ks, cs, k, h1, h2, h3, h4⟩ := exampleShares
  obtain ⟨table, htable⟩ := C02_new_total BBig BBig_lawful bigPrime_u64 (List.range 9) (by
    intro v hv; rw [List.mem_range] at hv; omega)
  obtain ⟨contributions, proofs, h5⟩ := h4 ⟨10, k * 10 + 3⟩
  exact ⟨ks, _, table, contributions, proofs, C54_lookup BBig BBig_lawful bigPrime_u64 bigPrime ks
    (by rw [h2]; norm_num [bigPrime, mersenne]) cs h1 k h3 (List.range 9) (by
      intro v hv; rw [List.mem_range] at hv; omega) table htable _ 3 (by simp)
    (by simp [SecretKey.decryptToElement, BBig, toy]) contributions proofs h5⟩

/-- C54, single-choice ballots: summing any list of at most `N` accepted ballots encrypted to the shared key,
decrypting each option with verified shares of any `t` participants and looking up in a table of `0..=N`
gives, unless a proof was forged, the number of ballots choosing the option; each ballot counts exactly
once. -/
theorem C54_single_tally (B : Backend F E) (hB : B.Lawful) (hu : Backend.U64Inj F) (p : ℕ) [CharP F p]
    (ks : PublicKeySet E) (hn : ks.params.shares < p) (cs : List E) (hks : KeySetFor B ks cs)
    (params : ChoiceParams E .single) (hK : params.receiver = ks.sharedKey) (hp : params.optionsCount ≤ p)
    (ballots : List (EncryptedChoice F E .single)) (verified : List (List (Ciphertext E)))
    (h : List.Forall₂ (fun (b : EncryptedChoice F E .single) cts =>
      b.verify B params = some (.ok cts)) ballots verified)
    (N : ℕ) (hN : N < 2 ^ 64) (hb : ballots.length ≤ N) (table : DiscreteLogTable)
    (ht : DiscreteLogTable.new B (List.range (N + 1)) = some table)
    (contributions : ℕ → List (ℕ × VerifiableDecryption E)) (proofs : ℕ → ℕ → LogEqualityProof F)
    (hs : ∀ j ct, (tally params.optionsCount verified)[j]? = some ct →
      VerifiedShares B ks ct (contributions j) (proofs j)) :
    (∃ b ∈ ballots, ChoiceForged B params.receiver b) ∨
    (∃ (j : ℕ) (ct : Ciphertext E), (tally params.optionsCount verified)[j]? = some ct ∧
      ShareForged B ks ct (contributions j) (proofs j)) ∨
    ∃ votes : List ℕ, votes.length = ballots.length ∧ (∀ v ∈ votes, v < params.optionsCount) ∧
      ∀ j < params.optionsCount, ∃ ct d, (tally params.optionsCount verified)[j]? = some ct ∧
        ks.params.combineShares F (contributions j) = some (some d) ∧
        d.decrypt B ct table = some (some (votes.count j)) := by
  obtain ⟨k, hk⟩ := hB.gen_spans ks.sharedKey.element
  rcases C34_single_tally B hB.gen_ne_zero p params k (by rw [hK, hk]) hp ballots verified h with
    hf | ⟨votes, h1, h2, h3, -⟩
  · exact .inl hf
  right
  by_cases hf : ∃ (j : ℕ) (ct : Ciphertext E), (tally params.optionsCount verified)[j]? = some ct ∧
      ShareForged B ks ct (contributions j) (proofs j)
  · exact .inl hf
  right
  refine ⟨votes, h1, h2, fun j hj => ?_⟩
  obtain ⟨ct, hct, hd⟩ := h3 j hj
  have hc : votes.count j ∈ List.range (N + 1) := by
    have := List.count_le_length (a := j) (l := votes)
    rw [List.mem_range]; omega
  rcases C54_lookup B hB hu p ks hn cs hks k hk _ (fun v hv => by rw [List.mem_range] at hv; omega) table ht ct _
    hc hd _ _ (hs j ct hct) with h' | ⟨d, h4, h5⟩
  · exact absurd ⟨j, ct, hct, h'⟩ hf
  · exact ⟨ct, d, hct, h4, h5⟩

/-- A ballot for option 1 which is counted twice, and one for option 2. -/
example : ∃ (ks : PublicKeySet (ZMod bigPrime)) (params : ChoiceParams (ZMod bigPrime) .single)
    (ballots : List (EncryptedChoice (ZMod bigPrime) (ZMod bigPrime) .single)) (table : DiscreteLogTable)
    (contributions : ℕ → List (ℕ × VerifiableDecryption (ZMod bigPrime)))
    (proofs : ℕ → ℕ → LogEqualityProof (ZMod bigPrime)), ballots.length = 3 ∧
    ((∃ b ∈ ballots, ChoiceForged BBig params.receiver b) ∨
    (∃ (j : ℕ) (ct : Ciphertext (ZMod bigPrime)), (tally 3 (ballots.map (·.choices)))[j]? = some ct ∧
      ShareForged BBig ks ct (contributions j) (proofs j)) ∨
    ∃ votes : List ℕ, votes.length = 3 ∧ (∀ v ∈ votes, v < 3) ∧
      ∀ j < 3, ∃ ct d, (tally 3 (ballots.map (·.choices)))[j]? = some ct ∧
        ks.params.combineShares (ZMod bigPrime) (contributions j) = some (some d) ∧
        d.decrypt BBig ct table = some (some (votes.count j))) := by
  obtain ⟨ks, cs, k, h1, h2, h3, h4⟩ := exampleShares
  choose contributions proofs h4 using h4
  obtain ⟨⟨b₁, r₁⟩, hb₁⟩ := (C32_single_total BBig BBig_total ⟨3, ks.sharedKey⟩ 1 (0 : ℕ)).mpr (by simp)
  obtain ⟨⟨b₂, r₂⟩, hb₂⟩ := (C32_single_total BBig BBig_total ⟨3, ks.sharedKey⟩ 2 (5 : ℕ)).mpr (by simp)
  have hv₁ := (C32_single_complete BBig ⟨3, ks.sharedKey⟩ k h3 1 _ _ b₁ hb₁).2.1
  have hv₂ := (C32_single_complete BBig ⟨3, ks.sharedKey⟩ k h3 2 _ _ b₂ hb₂).2.1
  obtain ⟨table, htable⟩ := C02_new_total BBig BBig_lawful bigPrime_u64 (List.range 4) (by
    intro v hv; rw [List.mem_range] at hv; omega)
  refine ⟨ks, ⟨3, ks.sharedKey⟩, [b₁, b₂, b₁], table,
    fun j => contributions (((tally 3 ([b₁, b₂, b₁].map (·.choices)))[j]?).getD Ciphertext.zero),
    fun j => proofs (((tally 3 ([b₁, b₂, b₁].map (·.choices)))[j]?).getD Ciphertext.zero), rfl, ?_⟩
  exact C54_single_tally BBig BBig_lawful bigPrime_u64 bigPrime ks (by rw [h2]; norm_num [bigPrime, mersenne]) cs h1
    ⟨3, ks.sharedKey⟩ rfl (by norm_num [bigPrime, mersenne]) [b₁, b₂, b₁] _ (.cons hv₁ (.cons hv₂ (.cons hv₁ .nil)))
    3 (by norm_num) (by simp) table htable _ _ (fun j ct h => by
      have h' : (tally 3 ([b₁, b₂, b₁].map (·.choices)))[j]? = some ct := h
      simp only [h', Option.getD_some]
      exact h4 ct)

/-- C54, multi-choice ballots: same, where each ballot may select any set of options. -/
theorem C54_multi_tally (B : Backend F E) (hB : B.Lawful) (hu : Backend.U64Inj F) (p : ℕ) [CharP F p]
    (ks : PublicKeySet E) (hn : ks.params.shares < p) (cs : List E) (hks : KeySetFor B ks cs)
    (params : ChoiceParams E .multi) (hK : params.receiver = ks.sharedKey)
    (ballots : List (EncryptedChoice F E .multi)) (verified : List (List (Ciphertext E)))
    (h : List.Forall₂ (fun (b : EncryptedChoice F E .multi) cts =>
      b.verify B params = some (.ok cts)) ballots verified)
    (N : ℕ) (hN : N < 2 ^ 64) (hb : ballots.length ≤ N) (table : DiscreteLogTable)
    (ht : DiscreteLogTable.new B (List.range (N + 1)) = some table)
    (contributions : ℕ → List (ℕ × VerifiableDecryption E)) (proofs : ℕ → ℕ → LogEqualityProof F)
    (hs : ∀ j ct, (tally params.optionsCount verified)[j]? = some ct →
      VerifiedShares B ks ct (contributions j) (proofs j)) (k : F) (hk : ks.sharedKey.element = k • B.gen) :
    (∃ b ∈ ballots, ChoiceForged B params.receiver b) ∨
    (∃ (j : ℕ) (ct : Ciphertext E), (tally params.optionsCount verified)[j]? = some ct ∧
      ShareForged B ks ct (contributions j) (proofs j)) ∨
    ∃ votes : List (List Bool),
      List.Forall₂ (fun (b : EncryptedChoice F E .multi) v => EncryptsBits B k b.choices v) ballots votes ∧
      ∀ j < params.optionsCount, ∃ ct d, (tally params.optionsCount verified)[j]? = some ct ∧
        ks.params.combineShares F (contributions j) = some (some d) ∧
        d.decrypt B ct table = some (some (votes.countP fun v => v[j]? = some true)) := by
  rcases C34_multi_tally B hB.gen_ne_zero p params k (by rw [hK, hk]) ballots verified h with
    hf | ⟨votes, h1, -, h2, h3⟩
  · exact .inl hf
  right
  by_cases hf : ∃ (j : ℕ) (ct : Ciphertext E), (tally params.optionsCount verified)[j]? = some ct ∧
      ShareForged B ks ct (contributions j) (proofs j)
  · exact .inl hf
  right
  refine ⟨votes, h2, fun j hj => ?_⟩
  obtain ⟨ct, hct, hd⟩ := h3 j hj
  have hc : (votes.countP fun v => v[j]? = some true) ∈ List.range (N + 1) := by
    have := List.countP_le_length (p := fun v : List Bool => decide (v[j]? = some true)) (l := votes)
    rw [List.mem_range]; omega
  rcases C54_lookup B hB hu p ks hn cs hks k hk _ (fun v hv => by rw [List.mem_range] at hv; omega) table ht ct _
    hc hd _ _ (hs j ct hct) with h' | ⟨d, h4, h5⟩
  · exact absurd ⟨j, ct, hct, h'⟩ hf
  · exact ⟨ct, d, hct, h4, h5⟩

example : ∃ (ks : PublicKeySet (ZMod bigPrime)) (k : ZMod bigPrime) (params : ChoiceParams (ZMod bigPrime) .multi)
    (ballots : List (EncryptedChoice (ZMod bigPrime) (ZMod bigPrime) .multi)) (table : DiscreteLogTable)
    (contributions : ℕ → List (ℕ × VerifiableDecryption (ZMod bigPrime)))
    (proofs : ℕ → ℕ → LogEqualityProof (ZMod bigPrime)), ballots.length = 2 ∧
    ((∃ b ∈ ballots, ChoiceForged BBig params.receiver b) ∨
    (∃ (j : ℕ) (ct : Ciphertext (ZMod bigPrime)), (tally 3 (ballots.map (·.choices)))[j]? = some ct ∧
      ShareForged BBig ks ct (contributions j) (proofs j)) ∨
    ∃ votes : List (List Bool),
      List.Forall₂ (fun (b : EncryptedChoice (ZMod bigPrime) (ZMod bigPrime) .multi) v =>
        EncryptsBits BBig k b.choices v) ballots votes ∧
      ∀ j < 3, ∃ ct d, (tally 3 (ballots.map (·.choices)))[j]? = some ct ∧
        ks.params.combineShares (ZMod bigPrime) (contributions j) = some (some d) ∧
        d.decrypt BBig ct table = some (some (votes.countP fun v => v[j]? = some true))) := by
  obtain ⟨ks, cs, k, h1, h2, h3, h4⟩ := exampleShares
  choose contributions proofs h4 using h4
  have hb : ∀ (flags : List Bool), flags.length = 3 → ∃ ballot rng',
      EncryptedChoice.new BBig (kind := .multi) ⟨3, ks.sharedKey⟩ flags (1 : ℕ) = some (ballot, rng') := by
    intro flags hl
    obtain ⟨⟨ballot, rng'⟩, h⟩ := (C32_choice_total BBig BBig_total (kind := .multi) ⟨3, ks.sharedKey⟩ flags
      (1 : ℕ)).mpr (by constructor <;> first | exact hl | (rintro rfl; cases hl))
    exact ⟨ballot, rng', h⟩
  obtain ⟨b₁, r₁, hb₁⟩ := hb [true, false, true] rfl
  obtain ⟨b₂, r₂, hb₂⟩ := hb [false, false, true] rfl
  have hv₁ := (C32_choice_complete BBig (kind := .multi) ⟨3, ks.sharedKey⟩ k h3 _ nofun _ _ b₁ hb₁).1
  have hv₂ := (C32_choice_complete BBig (kind := .multi) ⟨3, ks.sharedKey⟩ k h3 _ nofun _ _ b₂ hb₂).1
  obtain ⟨table, htable⟩ := C02_new_total BBig BBig_lawful bigPrime_u64 (List.range 4) (by
    intro v hv; rw [List.mem_range] at hv; omega)
  refine ⟨ks, k, ⟨3, ks.sharedKey⟩, [b₁, b₂], table,
    fun j => contributions (((tally 3 ([b₁, b₂].map (·.choices)))[j]?).getD Ciphertext.zero),
    fun j => proofs (((tally 3 ([b₁, b₂].map (·.choices)))[j]?).getD Ciphertext.zero), rfl, ?_⟩
  exact C54_multi_tally BBig BBig_lawful bigPrime_u64 bigPrime ks (by rw [h2]; norm_num [bigPrime, mersenne]) cs h1
    ⟨3, ks.sharedKey⟩ rfl [b₁, b₂] _ (.cons hv₁ (.cons hv₂ .nil))
    3 (by norm_num) (by simp) table htable _ _ (fun j ct h => by
      have h' : (tally 3 ([b₁, b₂].map (·.choices)))[j]? = some ct := h
      simp only [h', Option.getD_some]
      exact h4 ct) k h3

/-- Quadratic voting tallies: summing accepted ballots gives, unless a proof was forged, encryptions of the
total numbers of votes for each option; the votes of each ballot respect the limits. -/
theorem C37_tally (B : Backend F E) (hB : B.Lawful) (p : ℕ) [CharP F p] :
    ∃ bad : List Entry → F, ∀ (H : List Entry → F) (params : QuadraticVotingParams E) (o c m : ℕ),
      VotingParamsFor B params o c m → o * (m * m) < p → c < p →
      ∀ (k : F), params.receiver.element = k • B.gen → WellFormedKey B params.receiver →
      ∀ (ballots : List (QuadraticVotingBallot F E)) (verified : List (List (Ciphertext E))),
      List.Forall₂ (fun (b : QuadraticVotingBallot F E) cts =>
        b.verify (B.withHash H) params = some (.ok cts)) ballots verified →
      (∃ b ∈ ballots, BallotForged (B.withHash H) bad params b) ∨
      ∃ votes : List (List ℕ), votes.length = ballots.length ∧
        (∀ xs ∈ votes, xs.length = o ∧ (∀ x ∈ xs, x ≤ m) ∧ cost xs ≤ c) ∧
        ∀ j < o, ∃ ct, (tally o verified)[j]? = some ct ∧
          SecretKey.decryptToElement k ct =
            (((votes.map fun xs => (xs[j]?).getD 0).sum : ℕ) : F) • B.gen := by
  obtain ⟨bad, hbad⟩ := C37_ballot_sound B hB p
  refine ⟨bad, fun H params o c m hp hom hcp k hK hwf ballots verified h => ?_⟩
  by_cases hf : ∃ b ∈ ballots, BallotForged (B.withHash H) bad params b
  · exact .inl hf
  right
  push Not at hf
  have hvotes : ∃ votes : List (List ℕ), List.Forall₂ (fun (cts : List (Ciphertext E)) xs =>
      cts.length = o ∧ (∀ x ∈ xs, x ≤ m) ∧ cost xs ≤ c ∧
      List.Forall₂ (fun ct (x : ℕ) => Encrypts B k ct ((x : F) • B.gen)) cts xs) verified votes := by
    induction h with
    | nil => exact ⟨[], .nil⟩
    | cons hb _ ih =>
      rename_i b cts _ _ _
      obtain ⟨votes, hv⟩ := ih fun b hb => hf b (by simp [hb])
      obtain ⟨rfl, hl, hs⟩ := hbad H params o c m hp hom hcp k hK hwf b cts hb
      have hnf := hf b (by simp)
      rcases hs with ⟨xs, h1, h2, h3, -⟩ | hs | hs | hs
      · exact ⟨xs :: votes, .cons ⟨hl, h1, h2, h3⟩ hv⟩
      · exact absurd (.inl hs) hnf
      · exact absurd (.inr (.inl hs)) hnf
      · exact absurd (.inr (.inr hs)) hnf
  obtain ⟨votes, hv⟩ := hvotes
  refine ⟨votes, by rw [← hv.length_eq, h.length_eq], ?_, fun j hj => ⟨(verified.map fun cts =>
    (cts[j]?).getD Ciphertext.zero).foldl Ciphertext.add Ciphertext.zero, by simp only [tally,
    List.getElem?_map, List.getElem?_range hj, Option.map_some], ?_⟩⟩
  · clear h hf
    induction hv with
    | nil => simp
    | cons h _ ih =>
      simp only [List.mem_cons, forall_eq_or_imp]
      exact ⟨⟨by rw [← List.Forall₂.length_eq h.2.2.2, h.1], h.2.1, h.2.2.1⟩, ih⟩
  · have h1 : List.Forall₂ (Encrypts B k) (verified.map fun cts => (cts[j]?).getD Ciphertext.zero)
        (votes.map fun xs => (((xs[j]?).getD 0 : ℕ) : F) • B.gen) := by
      rw [List.forall₂_map_left_iff, List.forall₂_map_right_iff]
      refine hv.imp fun cts xs h => ?_
      have hl := List.Forall₂.length_eq h.2.2.2
      have hg := List.Forall₂.get h.2.2.2 (i := j) (by omega) (by omega)
      rw [List.getElem?_eq_getElem (by omega), List.getElem?_eq_getElem (by omega), Option.getD_some,
        Option.getD_some]
      simpa using hg
    have h2 := tally_encrypts _ _ h1 Ciphertext.zero 0 ⟨0, by simp [Ciphertext.zero],
      by simp [Ciphertext.zero]⟩
    rw [h2.decrypt, zero_add]
    clear h1 h2 hv h hf
    induction votes with
    | nil => simp
    | cons v votes ih => rw [List.map_cons, List.sum_cons, ih, List.map_cons, List.sum_cons]; push_cast; module

/-- One accepted ballot counted twice. -/
example : ∃ (bad : List Entry → ZMod 101) (ballot : QuadraticVotingBallot (ZMod 101) (ZMod 101)),
    BallotForged B101 bad exampleVoting ballot ∨
    ∃ votes : List (List ℕ), votes.length = 2 ∧
      (∀ xs ∈ votes, xs.length = 2 ∧ (∀ x ∈ xs, x ≤ 4) ∧ cost xs ≤ 16) ∧
      ∀ j < 2, ∃ ct, (tally 2 [ballot.votes.map (·.ciphertext), ballot.votes.map (·.ciphertext)])[j]? = some ct ∧
        SecretKey.decryptToElement (42 : ZMod 101) ct =
          (((votes.map fun xs => (xs[j]?).getD 0).sum : ℕ) : ZMod 101) • B101.gen := by
  obtain ⟨bad, h⟩ := C37_tally B101 B101_lawful 101
  obtain ⟨⟨ballot, rng'⟩, hb⟩ := (C36_ballot_total B101 B101_total exampleVoting 2 16 4
    exampleVoting_for.1 [3, 2] (.inl rfl) (5 : ℕ)).mpr (by decide)
  obtain ⟨h1, h2, -⟩ := C36_ballot_complete B101 exampleVoting 2 16 4 exampleVoting_for.1 42
    (by rw [exampleVoting_for.2]; decide) [3, 2] (.inl rfl) _ _ ballot hb
  refine ⟨bad, ballot, ?_⟩
  rcases h B101.challenge exampleVoting 2 16 4 exampleVoting_for.1 (by norm_num) (by norm_num) 42
    (by rw [exampleVoting_for.2]; decide) (by rw [exampleVoting_for.2]; unfold WellFormedKey; decide)
    [ballot, ballot] _ (.cons h1 (.cons h1 .nil)) with ⟨b, hb, h⟩ | h
  · simp only [List.mem_cons, List.not_mem_nil, or_false, or_self] at hb
    subst hb
    exact .inl h
  · exact .inr h

/-- C54, quadratic voting: totals of up to `m * ballots` votes are recovered from verified shares with a table
containing them. -/
theorem C54_quadratic_tally (B : Backend F E) (hB : B.Lawful) (hu : Backend.U64Inj F) (p : ℕ) [CharP F p] :
    ∃ bad : List Entry → F, ∀ (H : List Entry → F) (ks : PublicKeySet E), ks.params.shares < p →
      ∀ (cs : List E), KeySetFor B ks cs → ∀ (params : QuadraticVotingParams E) (o c m : ℕ),
      VotingParamsFor B params o c m → o * (m * m) < p → c < p → params.receiver = ks.sharedKey →
      ∀ (ballots : List (QuadraticVotingBallot F E)) (verified : List (List (Ciphertext E))),
      List.Forall₂ (fun (b : QuadraticVotingBallot F E) cts =>
        b.verify (B.withHash H) params = some (.ok cts)) ballots verified →
      ∀ (N : ℕ), N < 2 ^ 64 → ballots.length * m ≤ N → ∀ (table : DiscreteLogTable),
      DiscreteLogTable.new B (List.range (N + 1)) = some table →
      ∀ (contributions : ℕ → List (ℕ × VerifiableDecryption E)) (proofs : ℕ → ℕ → LogEqualityProof F),
      (∀ j ct, (tally o verified)[j]? = some ct →
        VerifiedShares (B.withHash H) ks ct (contributions j) (proofs j)) →
      (∃ b ∈ ballots, BallotForged (B.withHash H) bad params b) ∨
      (∃ (j : ℕ) (ct : Ciphertext E), (tally o verified)[j]? = some ct ∧
        ShareForged (B.withHash H) ks ct (contributions j) (proofs j)) ∨
      ∃ votes : List (List ℕ), votes.length = ballots.length ∧
        (∀ xs ∈ votes, xs.length = o ∧ (∀ x ∈ xs, x ≤ m) ∧ cost xs ≤ c) ∧
        ∀ j < o, ∃ ct d, (tally o verified)[j]? = some ct ∧
          ks.params.combineShares F (contributions j) = some (some d) ∧
          d.decrypt B ct table = some (some (votes.map fun xs => (xs[j]?).getD 0).sum) := by
  obtain ⟨bad, hbad⟩ := C37_tally B hB p
  refine ⟨bad, fun H ks hn cs hks params o c m hp hom hcp hK ballots verified h N hN hb table ht contributions
    proofs hs => ?_⟩
  obtain ⟨k, hk⟩ := hB.gen_spans ks.sharedKey.element
  have hwf : WellFormedKey B params.receiver := by
    rw [hK]
    unfold WellFormedKey
    rw [hB.deElem_serElem _ _ hks.shared.2, hks.shared.1]
  rcases hbad H params o c m hp hom hcp k (by rw [hK, hk]) hwf ballots verified h with hf | ⟨votes, h1, h2, h3⟩
  · exact .inl hf
  right
  by_cases hf : ∃ (j : ℕ) (ct : Ciphertext E), (tally o verified)[j]? = some ct ∧
      ShareForged (B.withHash H) ks ct (contributions j) (proofs j)
  · exact .inl hf
  right
  refine ⟨votes, h1, h2, fun j hj => ?_⟩
  obtain ⟨ct, hct, hd⟩ := h3 j hj
  have hle : (votes.map fun xs => (xs[j]?).getD 0).sum ≤ votes.length * m := by
    have : ∀ l : List (List ℕ), (∀ xs ∈ l, ∀ x ∈ xs, x ≤ m) →
        (l.map fun xs => (xs[j]?).getD 0).sum ≤ l.length * m := by
      intro l hl
      induction l with
      | nil => simp
      | cons xs l ih =>
        have h1 := ih fun y hy => hl y (by simp [hy])
        have h2 : (xs[j]?).getD 0 ≤ m := by
          cases hx : xs[j]? with
          | none => simp
          | some x => exact hl xs (by simp) x (List.mem_of_getElem? hx)
        simp only [List.map_cons, List.sum_cons, List.length_cons, Nat.add_mul]
        omega
    exact this votes fun xs hxs => (h2 xs hxs).2.1
  have hc : (votes.map fun xs => (xs[j]?).getD 0).sum ∈ List.range (N + 1) := by
    rw [List.mem_range]
    rw [h1] at hle
    omega
  rcases C54_lookup (B.withHash H) (hB.withHash H) hu p ks hn cs ⟨hks.degree, hks.shared, hks.count, hks.keys⟩ k hk
    _ (fun v hv => by rw [List.mem_range] at hv; omega) table ht ct _ hc hd _ _ (hs j ct hct) with h' | ⟨d, h4, h5⟩
  · exact absurd ⟨j, ct, hct, h'⟩ hf
  · exact ⟨ct, d, hct, h4, h5⟩

example : ∃ (bad : List Entry → ZMod bigPrime) (ks : PublicKeySet (ZMod bigPrime))
    (params : QuadraticVotingParams (ZMod bigPrime)) (ballot : QuadraticVotingBallot (ZMod bigPrime) (ZMod bigPrime))
    (table : DiscreteLogTable) (contributions : ℕ → List (ℕ × VerifiableDecryption (ZMod bigPrime)))
    (proofs : ℕ → ℕ → LogEqualityProof (ZMod bigPrime)),
    (∃ b ∈ [ballot, ballot], BallotForged BBig bad params b) ∨
    (∃ (j : ℕ) (ct : Ciphertext (ZMod bigPrime)),
      (tally 2 [ballot.votes.map (·.ciphertext), ballot.votes.map (·.ciphertext)])[j]? = some ct ∧
      ShareForged BBig ks ct (contributions j) (proofs j)) ∨
    ∃ votes : List (List ℕ), votes.length = 2 ∧
      (∀ xs ∈ votes, xs.length = 2 ∧ (∀ x ∈ xs, x ≤ 4) ∧ cost xs ≤ 16) ∧
      ∀ j < 2, ∃ ct d,
        (tally 2 [ballot.votes.map (·.ciphertext), ballot.votes.map (·.ciphertext)])[j]? = some ct ∧
        ks.params.combineShares (ZMod bigPrime) (contributions j) = some (some d) ∧
        d.decrypt BBig ct table = some (some (votes.map fun xs => (xs[j]?).getD 0).sum) := by
  obtain ⟨bad, h⟩ := C54_quadratic_tally BBig BBig_lawful bigPrime_u64 bigPrime
  obtain ⟨ks, cs, k, h1, h2, h3, h4⟩ := exampleShares
  choose contributions proofs h4 using h4
  obtain ⟨params, m, -, hrec, hm₁, hm₂, hfor, -⟩ := C35_params_new BBig _
      C27_estimate_exact ks.sharedKey 2 16 (by norm_num) (by norm_num) (by norm_num)
  have hm : m = 4 := by
    have : m < 5 := by by_contra h; have := Nat.mul_le_mul (not_lt.mp h) (not_lt.mp h); omega
    interval_cases m <;> omega
  subst hm
  obtain ⟨⟨ballot, rng'⟩, hb⟩ := (C36_ballot_total BBig BBig_total params 2 16 4 hfor [3, 2] (.inr (by decide))
    (5 : ℕ)).mpr (by decide)
  obtain ⟨hv, -⟩ := C36_ballot_complete BBig params 2 16 4 hfor k (by rw [hrec, h3]) [3, 2] (.inr (by decide)) _ _
    ballot hb
  obtain ⟨table, htable⟩ := C02_new_total BBig BBig_lawful bigPrime_u64 (List.range 9) (by
    intro v hv; rw [List.mem_range] at hv; omega)
  let ct : ℕ → Ciphertext (ZMod bigPrime) := fun j => ((tally 2 [ballot.votes.map (·.ciphertext), ballot.votes.map (·.ciphertext)])[j]?).getD
    Ciphertext.zero
  refine ⟨bad, ks, params, ballot, table, fun j => contributions (ct j), fun j => proofs (ct j), ?_⟩
  exact h BBig.challenge ks (by rw [h2]; norm_num [bigPrime, mersenne]) cs h1 params 2 16 4 hfor
    (by norm_num [bigPrime, mersenne]) (by norm_num [bigPrime, mersenne]) hrec [ballot, ballot] _
    (.cons hv (.cons hv .nil)) 8 (by norm_num) (by simp) table htable _ _ (fun j ct' h => by
      simp only [ct, h, Option.getD_some]
      exact h4 ct')

/-- C45 for any ciphertext (such as a sum of ballots): with a dealer, the decryption combined from shares of
any `t` distinct participants agrees with decryption by the shared secret, the constant term of the
polynomial. -/
theorem C45_any_ciphertext (B : Backend F E) (hB : B.Lawful) (p : ℕ) [CharP F p] (params : Params)
    (hv : ValidParams params) (hn : params.shares < p) (rng rng' : B.Rng) (dealer : Dealer F E)
    (hdealer : Dealer.new B params rng = some (dealer, rng')) (ks : PublicKeySet E)
    (hks : PublicKeySet.new B params dealer.publicInfo.1 dealer.publicInfo.2 = some (.ok ks)) (k : F)
    (hk : ks.sharedKey.element = k • B.gen) (ct : Ciphertext E)
    (contributions : List (ℕ × VerifiableDecryption E))
    (hc : ∀ c ∈ contributions, ∃ s part proof r r',
      dealer.secretShareForParticipant c.1 = some s ∧
      ActiveParticipant.new B ks c.1 s = some (.ok part) ∧
      part.decryptShare B ct r = some ((c.2, proof), r'))
    (hd : (contributions.map Prod.fst).Nodup) (hlen : params.threshold ≤ contributions.length) :
    ∃ d, params.combineShares F contributions = some (some d) ∧
      d.decryptToElement ct = SecretKey.decryptToElement k ct := by
  obtain ⟨hp, hl, hkeys, -⟩ := C42_dealer B params rng rng' dealer hdealer
  obtain ⟨ks', e, hp', hfor⟩ := C42_dealer_accepted B params rng rng' dealer hdealer _ hks
  cases e
  obtain ⟨kp, rest, hpoly⟩ := List.exists_cons_of_ne_nil
    (List.ne_nil_of_length_pos (hl ▸ hv.1 : 0 < dealer.polynomial.length))
  have hshared : ks.sharedKey.element = kp.secret • B.gen := by
    rw [hfor.shared.1, polyAt_smul, hpoly]
    simp [polyAt]
  have hkk : k = kp.secret := hB.smul_gen_inj (by rw [← hk, hshared])
  refine C39_combine_decrypts B p params hn kp.secret (rest.map (·.secret))
    (by rw [hpoly] at hl; simp only [List.length_cons] at hl; simp [hl]) _ _
    ((C01_encrypts_iff_decrypts B hB kp.secret ct _).mpr (by rw [hkk])) contributions hlen ?_
    (hd.sublist (((List.take_sublist _ _).map _))) ?_
  · intro c hc'
    obtain ⟨s, part, proof, r, r', h1, -, -⟩ := hc c (List.mem_of_mem_take hc')
    rw [Dealer.share_eq, hp] at h1
    split at h1
    · assumption
    · cases h1
  · intro c hc'
    obtain ⟨s, part, proof, r, r', h1, h2, h3⟩ := hc c (List.mem_of_mem_take hc')
    rw [(C44_share_complete B ks c.1 s part h2 _ r r' c.2 proof h3).1]
    rw [Dealer.share_eq] at h1
    split at h1
    · rw [← Option.some.inj h1, hpoly]; rfl
    · cases h1

example : ∃ (d : VerifiableDecryption (ZMod 101)) (k : ZMod 101)
    (contributions : List (ℕ × VerifiableDecryption (ZMod 101))),
    (⟨3, 2⟩ : Params).combineShares (ZMod 101) contributions = some (some d) ∧
      d.decryptToElement ⟨10, 20⟩ = SecretKey.decryptToElement k ⟨10, 20⟩ := by
  obtain ⟨dealer, rng', ks, h1, hr, hks⟩ := exampleDealer
  obtain ⟨k, hk⟩ := B101_lawful.gen_spans ks.sharedKey.element
  obtain ⟨s, h4, h5, h6⟩ := C42_share_accepted B101 B101_lawful ⟨3, 2⟩ _ _ dealer h1 ks hr 2 (by norm_num)
  obtain ⟨⟨⟨d2, proof2⟩, r2⟩, h⟩ := C44_share_total B101 B101_total ks 2 s _ h5 ⟨10, 20⟩ (3 : ℕ)
  obtain ⟨s', h4', h5', h6'⟩ := C42_share_accepted B101 B101_lawful ⟨3, 2⟩ _ _ dealer h1 ks hr 0 (by norm_num)
  obtain ⟨⟨⟨d0, proof0⟩, r0⟩, h'⟩ := C44_share_total B101 B101_total ks 0 s' _ h5' ⟨10, 20⟩ (4 : ℕ)
  obtain ⟨d, hd⟩ := C45_any_ciphertext B101 B101_lawful 101 ⟨3, 2⟩ (by simp [ValidParams]) (by norm_num) _ _ dealer h1
    ks hr k hk ⟨10, 20⟩ [(2, d2), (0, d0)] (by
      intro c hc
      simp only [List.mem_cons, List.not_mem_nil, or_false] at hc
      rcases hc with rfl | rfl
      · exact ⟨s, _, proof2, _, _, h4, h5, h⟩
      · exact ⟨s', _, proof0, _, _, h4', h5', h'⟩) (by simp) (by simp)
  exact ⟨d, k, _, hd⟩

/-- C54, honest election: ballots made by `EncryptedChoice::single` for the given choices are all accepted,
and decrypting their tally by any `t` participants gives the exact number of ballots for each option
(no exceptional events). -/
theorem C54_honest_single (B : Backend F E) (hB : B.Lawful) (hu : Backend.U64Inj F) (p : ℕ) [CharP F p]
    (sharing : Params) (hv : ValidParams sharing) (hn : sharing.shares < p) (rng rng' : B.Rng)
    (dealer : Dealer F E) (hdealer : Dealer.new B sharing rng = some (dealer, rng')) (ks : PublicKeySet E)
    (hks : PublicKeySet.new B sharing dealer.publicInfo.1 dealer.publicInfo.2 = some (.ok ks))
    (params : ChoiceParams E .single) (hK : params.receiver = ks.sharedKey) (choices : List ℕ)
    (ballots : List (EncryptedChoice F E .single))
    (h : List.Forall₂ (fun choice ballot => ∃ r r',
      EncryptedChoice.single B params choice r = some (ballot, r')) choices ballots)
    (N : ℕ) (hN : N < 2 ^ 64) (hb : ballots.length ≤ N) (table : DiscreteLogTable)
    (ht : DiscreteLogTable.new B (List.range (N + 1)) = some table) :
    (∀ b ∈ ballots, b.verify B params = some (.ok b.choices)) ∧
    ∀ (j : ℕ) (ct : Ciphertext E), (tally params.optionsCount (ballots.map (·.choices)))[j]? = some ct →
    ∀ (contributions : List (ℕ × VerifiableDecryption E)),
      (∀ c ∈ contributions, ∃ s part proof r r', dealer.secretShareForParticipant c.1 = some s ∧
        ActiveParticipant.new B ks c.1 s = some (.ok part) ∧
        part.decryptShare B ct r = some ((c.2, proof), r')) →
      (contributions.map Prod.fst).Nodup → sharing.threshold ≤ contributions.length →
      ∃ d, sharing.combineShares F contributions = some (some d) ∧
        d.decrypt B ct table = some (some (choices.count j)) := by
  obtain ⟨k, hk⟩ := hB.gen_spans ks.sharedKey.element
  have hall : List.Forall₂ (fun choice (ballot : EncryptedChoice F E .single) =>
      ballot.verify B params = some (.ok ballot.choices) ∧ ballot.choices.length = params.optionsCount ∧
      ∀ (i : ℕ) ct, ballot.choices[i]? = some ct →
        SecretKey.decryptToElement k ct = if i = choice then B.gen else 0) choices ballots :=
    h.imp fun choice ballot ⟨r, r', hs⟩ =>
      (C32_single_complete B params k (by rw [hK, hk]) choice r r' ballot hs).2
  refine ⟨fun b hb => ?_, fun j ct hct contributions hc hd hlen => ?_⟩
  · obtain ⟨i, hi, rfl⟩ := List.mem_iff_getElem.mp hb
    exact (List.Forall₂.get hall (i := i) (by rw [hall.length_eq]; exact hi) hi).1
  · have hj : j < params.optionsCount := by
      by_contra hj
      rw [tally, List.getElem?_map, List.getElem?_eq_none (by simpa using hj)] at hct
      cases hct
    simp only [tally, List.getElem?_map, List.getElem?_range hj, Option.map_some, Option.some.injEq,
      List.map_map] at hct
    have h1 : List.Forall₂ (Encrypts B k) (ballots.map fun b => (b.choices[j]?).getD Ciphertext.zero)
        (choices.map fun v => if v = j then B.gen else 0) := by
      rw [List.forall₂_map_left_iff, List.forall₂_map_right_iff]
      refine hall.flip.imp fun b v h => ?_
      have hg := h.2.2 j b.choices[j] (List.getElem?_eq_getElem (by rw [h.2.1]; exact hj))
      rw [List.getElem?_eq_getElem (by rw [h.2.1]; exact hj), Option.getD_some,
        C01_encrypts_iff_decrypts B hB, hg]
      by_cases hvj : v = j
      · simp [hvj]
      · simp [hvj, Ne.symm hvj]
    have h2 := tally_encrypts _ _ h1 Ciphertext.zero 0 ⟨0, by simp [Ciphertext.zero],
      by simp [Ciphertext.zero]⟩
    obtain ⟨d, hd1, hd2⟩ := C45_any_ciphertext B hB p sharing hv hn rng rng' dealer hdealer ks hks k hk ct
      contributions hc hd hlen
    refine ⟨d, hd1, ?_⟩
    have hsum : (choices.map fun v => if v = j then B.gen else 0).sum = (choices.count j : F) • B.gen := by
      clear h1 h2 h hall
      induction choices with
      | nil => simp
      | cons v votes ih =>
        rw [List.map_cons, List.sum_cons, ih, List.count_cons]
        by_cases hvj : v = j <;> simp [hvj, add_smul, add_comm]
    have hdec : SecretKey.decryptToElement k ct = (choices.count j : F) • B.gen := by
      rw [← hct, ← hsum]
      have := h2.decrypt
      rw [zero_add] at this
      exact this
    rw [VerifiableDecryption.decrypt, hd2, hdec]
    refine C02_get_complete B hB hu _ (fun v hv => by rw [List.mem_range] at hv; omega) table ht _ ?_
    have := List.count_le_length (a := j) (l := choices)
    rw [List.mem_range]
    have := h.length_eq
    omega

/-- An election with a 2-of-3 key: three ballots, two for option 1, decrypted by participants 2 and 0. -/
example : ∃ (d : VerifiableDecryption (ZMod bigPrime)) (ct : Ciphertext (ZMod bigPrime)) (table : DiscreteLogTable)
    (contributions : List (ℕ × VerifiableDecryption (ZMod bigPrime))),
    (⟨3, 2⟩ : Params).combineShares (ZMod bigPrime) contributions = some (some d) ∧
      d.decrypt BBig ct table = some (some 2) := by
  obtain ⟨⟨dealer, rng'⟩, h1⟩ := C42_dealer_total BBig BBig_total ⟨3, 2⟩ (0 : ℕ)
  obtain ⟨r, hr⟩ := C50_key_set_new_total BBig BBig_total ⟨3, 2⟩ (by simp [ValidParams]) dealer.publicInfo.1
    dealer.publicInfo.2
  obtain ⟨ks, rfl, -, hks⟩ := C42_dealer_accepted BBig ⟨3, 2⟩ _ _ dealer h1 r hr
  obtain ⟨⟨b₁, r₁⟩, hb₁⟩ := (C32_single_total BBig BBig_total ⟨3, ks.sharedKey⟩ 1 (0 : ℕ)).mpr (by simp)
  obtain ⟨⟨b₂, r₂⟩, hb₂⟩ := (C32_single_total BBig BBig_total ⟨3, ks.sharedKey⟩ 2 (5 : ℕ)).mpr (by simp)
  obtain ⟨table, htable⟩ := C02_new_total BBig BBig_lawful bigPrime_u64 (List.range 4) (by
    intro v hv; rw [List.mem_range] at hv; omega)
  obtain ⟨ct, hct⟩ : ∃ ct, (tally 3 ([b₁, b₂, b₁].map (·.choices)))[1]? = some ct := by simp [tally]
  obtain ⟨s, h4, h5, h6⟩ := C42_share_accepted BBig BBig_lawful ⟨3, 2⟩ _ _ dealer h1 ks hr 2 (by norm_num)
  obtain ⟨⟨⟨d2, proof2⟩, r2⟩, h⟩ := C44_share_total BBig BBig_total ks 2 s _ h5 ct (3 : ℕ)
  obtain ⟨s', h4', h5', h6'⟩ := C42_share_accepted BBig BBig_lawful ⟨3, 2⟩ _ _ dealer h1 ks hr 0 (by norm_num)
  obtain ⟨⟨⟨d0, proof0⟩, r0⟩, h'⟩ := C44_share_total BBig BBig_total ks 0 s' _ h5' ct (4 : ℕ)
  obtain ⟨d, hd, hd'⟩ := (C54_honest_single BBig BBig_lawful bigPrime_u64 bigPrime ⟨3, 2⟩
    (by simp [ValidParams]) (by norm_num [bigPrime, mersenne]) _ _ dealer h1 ks hr ⟨3, ks.sharedKey⟩ rfl [1, 2, 1]
    [b₁, b₂, b₁] (.cons ⟨_, _, hb₁⟩ (.cons ⟨_, _, hb₂⟩ (.cons ⟨_, _, hb₁⟩ .nil))) 3 (by norm_num) (by simp) table
    htable).2 1 ct hct [(2, d2), (0, d0)] (by
      intro c hc
      simp only [List.mem_cons, List.not_mem_nil, or_false] at hc
      rcases hc with rfl | rfl
      · exact ⟨s, _, proof2, _, _, h4, h5, h⟩
      · exact ⟨s', _, proof0, _, _, h4', h5', h'⟩) (by simp) (by simp)
  exact ⟨d, ct, table, _, hd, hd'⟩

end ElasticElgamal
