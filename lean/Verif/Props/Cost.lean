import Verif.Spec.Cost
import Verif.Lemmas.CostProve
import Verif.Props.Range
import Verif.Props.QuadraticVoting

/-!
# C90: sizes of range proofs, and the number of products of scalars and group elements

A verifier is given arbitrary data: the bounds hold for malformed proofs too, and accepted proofs attain them.
-/

set_option autoImplicit false
set_option linter.unusedSectionVars false

namespace ElasticElgamal

open Spec Toy Traced RangeDecomposition

/-- C90 (`src/proofs/range.rs:25-26`, `src/proofs/range.rs:54`): the size of a range proof is logarithmic in the upper
bound of the range: `3 log₂ n ≤ s + 1 ≤ 5 ⌊log₂ n⌋`. There are at most `log₂ n` rings. -/
theorem C90_size (dbg : Bool) (est : ℕ → ℕ) (he : EstimateOk est) (n : ℕ) (h2 : 2 ≤ n) (hn : n ≤ 2 ^ 64 - 3)
    (d : RangeDecomposition) (hd : optimal dbg est n = some d) :
    ∃ s, d.proofSize dbg = some s ∧ n ^ 3 ≤ 2 ^ (s + 1) ∧ s + 1 ≤ 5 * Nat.log 2 n ∧ 2 ^ d.rings.length ≤ n := by
  obtain ⟨h1, h3⟩ := C27_optimal dbg est he n h2 hn d hd
  obtain ⟨d', hd', h4⟩ := C25_nested dbg est he n h2 hn
  rw [hd] at hd'
  cases hd'
  refine ⟨_, h1, C27_lower_bound n d.rings h4, ?_, nested_rings_le h4⟩
  obtain ⟨rings, h5, h6⟩ := exists_nested_log n h2
  have h7 := proofSize_eq h5.ne_nil
  rcases h3 rings h5 with h | h <;> omega

-- proofs for `0..17`: 3 log₂ 17 ≤ 12.3 ≤ 13 ≤ 20, two rings
example : ∃ d, optimal true exactLowerLenEstimate 17 = some d ∧ d.proofSize true = some 12 ∧ d.rings.length = 2 ∧
    17 ^ 3 ≤ 2 ^ (12 + 1) ∧ 12 + 1 ≤ 5 * Nat.log 2 17 := ⟨⟨[⟨4, 4⟩, ⟨5, 1⟩]⟩, by decide +kernel, rfl, rfl, by norm_num, by
    obtain ⟨s, h1, -, h2, -⟩ := C90_size true _ C27_estimate_exact 17 (by norm_num) (by norm_num)
      ⟨[⟨4, 4⟩, ⟨5, 1⟩]⟩ (by decide +kernel)
    cases h1
    exact h2⟩

-- the largest range: at most 314 scalars and elements
example (d : RangeDecomposition) (hd : optimal true exactLowerLenEstimate (2 ^ 64 - 3) = some d) :
    ∃ s, d.proofSize true = some s ∧ s ≤ 314 := by
  obtain ⟨s, h1, -, h2, -⟩ := C90_size true _ C27_estimate_exact (2 ^ 64 - 3) (by norm_num) le_rfl d hd
  refine ⟨s, h1, ?_⟩
  have : Nat.log 2 (2 ^ 64 - 3) = 63 := Nat.log_eq_of_pow_le_of_lt_pow (by norm_num) (by norm_num)
  omega

variable {F E : Type} [Field F] [AddCommGroup E] [Module F E] (B : Backend F E) [DecidableEq F] [DecidableEq E]

/-- C90: verification with operations computes what verification computes (creation: `C87_results`). -/
theorem C90_results :
    (∀ p K vs cs t, (RingProof.verifyTraced B p K vs cs t).val = RingProof.verify B p K vs cs t) ∧
    (∀ K c p, (PublicKey.verifyBoolTraced B K c p).val = PublicKey.verifyBool B K c p) ∧
    (∀ p K range c t, (RangeProof.verifyTraced B p K range c t).val = RangeProof.verify B p K range c t) ∧
    (∀ K range c p, (PublicKey.verifyRangeTraced B K range c p).val = PublicKey.verifyRange B K range c p) ∧
    (∀ p ks t, (ProofOfPossession.verifyTraced B p ks t).val = ProofOfPossession.verify B p ks t) ∧
    (∀ p cs c K t, (SumOfSquaresProof.verifyTraced B p cs c K t).val = SumOfSquaresProof.verify B p cs c K t) ∧
    (∀ kind, ∀ b : EncryptedChoice F E kind, ∀ params, (b.verifyTraced B params).val = b.verify B params) ∧
    (∀ b params, (QuadraticVotingBallot.verifyTraced B b params).val = QuadraticVotingBallot.verify B b params) :=
  ⟨val_ringVerify B, val_verifyBool B, val_rangeVerify B, val_verifyRange B, val_popVerify B, val_sumSqVerify B,
    fun _ => val_choiceVerify B, val_ballotVerify B⟩

-- a proof of the wrong length is rejected without any product
example : (PublicKey.verifyBoolTraced B101 ⟨[7], 7⟩ ⟨1, 2⟩ ⟨5, [1, 2, 3]⟩).val =
      some (.error (.LenMismatch "items in all rings" 3 2)) ∧
    productCount (PublicKey.verifyBoolTraced B101 ⟨[7], 7⟩ ⟨1, 2⟩ ⟨5, [1, 2, 3]⟩).ops = 0 := ⟨rfl, rfl⟩

/-- C90: products in encryption, decryption and proofs of equality of logarithms. -/
theorem C90_basic (K : PublicKey E) :
    (∀ v rng, productCount (K.encryptTraced B v rng).ops = 3) ∧
    (∀ v rng, productCount (K.encryptElementTraced B v rng).ops = 2) ∧
    (∀ s c, productCount (SecretKey.decryptToElementTraced s c : Traced F E E).ops = 1) ∧
    (∀ s p t rng r, LogEqualityProof.new B K s p t rng = some r →
      productCount (LogEqualityProof.newTraced B K s p t rng).ops = 2) ∧
    (∀ pf p t, productCount (LogEqualityProof.verifyTraced B pf K p t).ops ≤ 4) ∧
    (∀ pf p t r, LogEqualityProof.verify B pf K p t = some r →
      productCount (LogEqualityProof.verifyTraced B pf K p t).ops = 4) :=
  ⟨fun _ _ => rfl, fun _ _ => rfl, fun _ _ => rfl,
    fun s p t rng r h => (uses_logEq B K s p t rng).2 r ((val_logEq B _ _ _ _ _).trans h),
    fun pf p t => (uses_logEqVerify B pf K p t).1,
    fun pf p t r h => (uses_logEqVerify B pf K p t).2 r ((val_logEqVerify B _ _ _ _).trans h)⟩

example : ∃ r r', LogEqualityProof.new B101 ⟨[7], 7⟩ (3 : ZMod 101) (3, 21) (Transcript.new "toy") (5 : ℕ) = some r ∧
    LogEqualityProof.verify B101 r.1 ⟨[7], 7⟩ (3, 21) (Transcript.new "toy") = some r' ∧ r'.1 = .ok () :=
  ⟨_, _, rfl, rfl, by decide⟩

/-- C90: products in a proof of possession, and in its verification. -/
theorem C90_possession :
    (∀ ks t rng r, ProofOfPossession.new B ks t rng = some r →
      productCount (ProofOfPossession.newTraced B ks t rng).ops = ks.length) ∧
    (∀ p ks t, productCount (ProofOfPossession.verifyTraced B p ks t).ops ≤ 2 * ks.length) ∧
    (∀ p ks t t', ProofOfPossession.verify B p ks t = some (.ok (), t') →
      productCount (ProofOfPossession.verifyTraced B p ks t).ops = 2 * ks.length) :=
  ⟨fun ks t rng r h => (uses_pop B ks t rng).2 r ((val_pop B _ _ _).trans h),
    fun p ks t => (pop_uses B p ks t).1,
    fun p ks t _ h => (pop_uses B p ks t).2 _ ((val_popVerify B _ _ _).trans h) rfl⟩

example : ∃ r r', ProofOfPossession.new B101 [⟨3, ⟨[3], 3⟩⟩, ⟨5, ⟨[5], 5⟩⟩] (Transcript.new "toy") (5 : ℕ) = some r ∧
    ProofOfPossession.verify B101 r.1 [⟨[3], 3⟩, ⟨[5], 5⟩] (Transcript.new "toy") = some r' ∧ r'.1 = .ok () :=
  ⟨_, _, rfl, rfl, by decide⟩

/-- C90: products in a proof about a sum of `n` squares, and in its verification. -/
theorem C90_sum_of_squares (K : PublicKey E) :
    (∀ cs c t rng r, SumOfSquaresProof.new B cs c K t rng = some r →
      productCount (SumOfSquaresProof.newTraced B cs c K t rng).ops = 5 * cs.length + 2) ∧
    (∀ p cs c t, productCount (SumOfSquaresProof.verifyTraced B p cs c K t).ops ≤ 7 * cs.length + 4) ∧
    (∀ p cs c t t', SumOfSquaresProof.verify B p cs c K t = some (.ok (), t') →
      productCount (SumOfSquaresProof.verifyTraced B p cs c K t).ops = 7 * cs.length + 4) :=
  ⟨fun cs c t rng r h => (uses_sumSq B cs c K t rng).2 r ((val_sumSq B _ _ _ _ _).trans h),
    fun p cs c t => (sumSq_uses B p cs c K t).1,
    fun p cs c t _ h => (sumSq_uses B p cs c K t).2 _ ((val_sumSqVerify B _ _ _ _ _).trans h) rfl⟩

-- 3² + 4² = 25
example : ∃ r, SumOfSquaresProof.new B101 [⟨⟨⟨2, 17⟩, 2⟩, 3⟩, ⟨⟨⟨5, 39⟩, 5⟩, 4⟩] ⟨⟨⟨6, 67⟩, 6⟩, 25⟩ ⟨[7], 7⟩
      (Transcript.new "toy") (5 : ℕ) = some r ∧
    (SumOfSquaresProof.verify B101 r.1 [⟨2, 17⟩, ⟨5, 39⟩] ⟨6, 67⟩ ⟨[7], 7⟩ (Transcript.new "toy")).map Prod.fst =
      some (.ok ()) := ⟨_, rfl, by decide +kernel⟩

/-- C90: products in the encryption of a boolean (debug builds check the ring), and in its verification. -/
theorem C90_bool (K : PublicKey E) :
    (∀ v rng r, K.encryptBool B v rng = some r →
      productCount (K.encryptBoolTraced B v rng).ops = if B.debug then 9 else 8) ∧
    (∀ c p, productCount (K.verifyBoolTraced B c p).ops ≤ 8) ∧
    (∀ c p, K.verifyBool B c p = some (.ok ()) → productCount (K.verifyBoolTraced B c p).ops = 8) := by
  refine ⟨fun v rng r h => ?_, fun c p => (bool_uses B K c p).1,
    fun c p h => (bool_uses B K c p).2 _ ((val_verifyBool B _ _ _).trans h) rfl⟩
  rw [Owes.uses (owes_encryptBool B K v rng) ((val_encryptBool B _ _ _).trans h), debugCost]
  split <;> rfl

example : ∃ r, (⟨[7], 7⟩ : PublicKey (ZMod 101)).encryptBool B101 true (3 : ℕ) = some r ∧
    (⟨[7], 7⟩ : PublicKey (ZMod 101)).verifyBool B101 r.1.1 r.1.2 = some (.ok ()) := ⟨_, rfl, by decide +kernel⟩

/-- C90: products in a range proof with `S` items in all rings: `4 S + 1` (and one per ring in debug builds) for the
prover, `4 S` for the verifier. -/
theorem C90_range (n : ℕ) (range : PreparedRange E) (hr : PreparedFor B n range) (K : PublicKey E) :
    (∀ v rng r, K.encryptRange B range v rng = some r →
      productCount (K.encryptRangeTraced B range v rng).ops =
        4 * (range.inner.rings.map (·.size)).sum + 1 + if B.debug then range.inner.rings.length else 0) ∧
    (∀ c p, productCount (K.verifyRangeTraced B range c p).ops ≤ 4 * (range.inner.rings.map (·.size)).sum) ∧
    (∀ c p, K.verifyRange B range c p = some (.ok ()) →
      productCount (K.verifyRangeTraced B range c p).ops = 4 * (range.inner.rings.map (·.size)).sum) := by
  have hf := hr.facts
  have hs := hf.sizes
  refine ⟨fun v rng r h => ?_, fun c p => hs ▸ (verifyRange_uses B K range c p).1,
    fun c p h => hs ▸ (verifyRange_uses B K range c p).2 _ ((val_verifyRange B _ _ _ _).trans h) rfl⟩
  rw [Owes.uses (owes_encryptRange B hf K v rng) ((val_encryptRange B _ _ _ _).trans h), rangeCost, itemsIn, debugCost]
  split <;> simp

example : ∃ r, (⟨[7], 7⟩ : PublicKey (ZMod 101)).encryptRange B101 exampleRange 13 (3 : ℕ) = some r ∧
    (⟨[7], 7⟩ : PublicKey (ZMod 101)).verifyRange B101 exampleRange r.1.1 r.1.2 = some (.ok ()) ∧
    (exampleRange.inner.rings.map (·.size)).sum = 9 := ⟨_, rfl, by decide +kernel, rfl⟩

/-- C90 (`src/proofs/range.rs:192-194`): work for range proofs is linear in the size of the proof, and logarithmic in
the upper bound of the range. -/
theorem C90_range_linear (n : ℕ) (range : PreparedRange E) (hr : PreparedFor B n range) (K : PublicKey E) :
    ∃ s, range.inner.proofSize B.debug = some s ∧
    (∀ v rng r, K.encryptRange B range v rng = some r →
      2 * s < productCount (K.encryptRangeTraced B range v rng).ops ∧
      productCount (K.encryptRangeTraced B range v rng).ops ≤ 4 * s ∧
      productCount (K.encryptRangeTraced B range v rng).ops ≤ 20 * Nat.log 2 n) ∧
    (∀ c p, productCount (K.verifyRangeTraced B range c p).ops ≤ 4 * s ∧
      productCount (K.verifyRangeTraced B range c p).ops ≤ 20 * Nat.log 2 n) ∧
    (∀ c p, K.verifyRange B range c p = some (.ok ()) →
      2 * s < productCount (K.verifyRangeTraced B range c p).ops) := by
  have hf := hr.facts
  obtain ⟨h1, h2, h3⟩ := C90_range B n range hr K
  have hne := hf.nested.ne_nil
  have hpos : 0 < range.inner.rings.length := List.length_pos_iff.2 hne
  have h5 : ∀ rings : List RingSpec, (∀ x ∈ rings, 2 ≤ x.size) → 2 * rings.length ≤ (rings.map (·.size)).sum := by
    intro rings h
    induction rings with
    | nil => simp
    | cons x rings ih =>
      have := ih fun y hy => h y (by simp [hy])
      have := h x (by simp)
      simp only [List.length_cons, List.map_cons, List.sum_cons]
      omega
  have h6 := h5 range.inner.rings fun x hx => (hf.nested.size_step x hx).1
  obtain ⟨est, he, hn2, hn, d, hd, hp⟩ := hr
  have hd' : d = range.inner := by
    obtain ⟨d', hd', h4⟩ := C25_nested B.debug est he n hn2 hn
    rw [hd] at hd'
    cases hd'
    rw [PreparedRange.new_nested h4 (by omega)] at hp
    cases hp; rfl
  subst hd'
  obtain ⟨s, hs, -, h7, -⟩ := C90_size B.debug est he n hn2 hn _ hd
  have h8 := (C27_optimal B.debug est he n hn2 hn _ hd).1
  rw [hs] at h8
  have h9 : s = (range.inner.rings.map (·.size)).sum + 1 + 2 * (range.inner.rings.length - 1) := Option.some.inj h8
  refine ⟨s, hs, fun v rng r h => ?_, fun c p => ?_, fun c p h => ?_⟩
  · rw [h1 v rng r h]
    have h10 : (if B.debug then range.inner.rings.length else 0) ≤ range.inner.rings.length := by split <;> omega
    refine ⟨by omega, by omega, by omega⟩
  · have := h2 c p
    exact ⟨by omega, by omega⟩
  · rw [h3 c p h]; omega

example : ∃ s, exampleRange.inner.proofSize B101.debug = some s ∧ s = 12 ∧
    ∃ r, (⟨[7], 7⟩ : PublicKey (ZMod 101)).encryptRange B101 exampleRange 13 (3 : ℕ) = some r ∧
      2 * s < productCount ((⟨[7], 7⟩ : PublicKey (ZMod 101)).encryptRangeTraced B101 exampleRange 13 (3 : ℕ)).ops := by
  obtain ⟨s, h1, h2, -⟩ := C90_range_linear B101 17 exampleRange exampleRange_prepared ⟨[7], 7⟩
  exact ⟨s, h1, (Option.some.inj h1).symm, _, rfl, (h2 13 (3 : ℕ) _ rfl).1⟩

/-- C90: products in ballots with `o` options. -/
theorem C90_choices (params : ChoiceParams E .single) (params' : ChoiceParams E .multi) :
    (∀ c rng r, EncryptedChoice.single B params c rng = some r →
      productCount (EncryptedChoice.singleTraced B params c rng).ops =
        params.optionsCount * (if B.debug then 9 else 8) + 2) ∧
    (∀ flags rng r, EncryptedChoice.new B params' flags rng = some r →
      productCount (EncryptedChoice.newTraced B params' flags rng).ops =
        params'.optionsCount * (if B.debug then 9 else 8)) ∧
    (∀ b : EncryptedChoice F E .single, productCount (b.verifyTraced B params).ops ≤ 8 * params.optionsCount + 4) ∧
    (∀ b : EncryptedChoice F E .multi, productCount (b.verifyTraced B params').ops ≤ 8 * params'.optionsCount) ∧
    (∀ (b : EncryptedChoice F E .single) l, b.verify B params = some (.ok l) →
      productCount (b.verifyTraced B params).ops = 8 * params.optionsCount + 4) ∧
    (∀ (b : EncryptedChoice F E .multi) l, b.verify B params' = some (.ok l) →
      productCount (b.verifyTraced B params').ops = 8 * params'.optionsCount) := by
  have hd : 8 + debugCost B = if B.debug then 9 else 8 := by unfold debugCost; split <;> rfl
  refine ⟨fun c rng r h => ?_, fun flags rng r h => ?_, fun b => (choice_uses B b params).1,
    fun b => (choice_uses B b params').1,
    fun b l h => (choice_uses B b params).2 _ ((val_choiceVerify B _ _).trans h) rfl,
    fun b l h => (choice_uses B b params').2 _ ((val_choiceVerify B _ _).trans h) rfl⟩
  · rw [Owes.uses (owes_single B params c rng) ((val_single B _ _ _).trans h), hd]
  · rw [Owes.uses (owes_choice B params' flags rng) ((val_choice B _ _ _).trans h), hd]; rfl

example : ∃ r l r' l', EncryptedChoice.single B101 ⟨3, ⟨[7], 7⟩⟩ 1 (3 : ℕ) = some r ∧
    r.1.verify B101 ⟨3, ⟨[7], 7⟩⟩ = some (.ok l) ∧
    EncryptedChoice.new B101 (kind := .multi) ⟨3, ⟨[7], 7⟩⟩ [true, false, true] (3 : ℕ) = some r' ∧
    r'.1.verify B101 ⟨3, ⟨[7], 7⟩⟩ = some (.ok l') := ⟨_, _, _, _, rfl, rfl, rfl, rfl⟩

/-- C90: products in ballots of quadratic voting with `o` options, and rings with `S` and `S'` items for numbers of
votes and credits. -/
theorem C90_voting (params : QuadraticVotingParams E) (o credits votes : ℕ)
    (hp : VotingParamsFor B params o credits votes) (S S' R R' : ℕ)
    (hS : (params.voteCountRange.inner.rings.map (·.size)).sum = S) (hR : params.voteCountRange.inner.rings.length = R)
    (hS' : (params.creditRange.inner.rings.map (·.size)).sum = S') (hR' : params.creditRange.inner.rings.length = R') :
    (∀ vs rng r, QuadraticVotingBallot.new B params vs rng = some r →
      productCount (QuadraticVotingBallot.newTraced B params vs rng).ops =
        o * (4 * S + 6) + 4 * S' + 3 + if B.debug then o * R + R' else 0) ∧
    (∀ b : QuadraticVotingBallot F E, productCount (b.verifyTraced B params).ops ≤ o * (4 * S + 7) + 4 * S' + 4) ∧
    (∀ (b : QuadraticVotingBallot F E) l, b.verify B params = some (.ok l) →
      productCount (b.verifyTraced B params).ops = o * (4 * S + 7) + 4 * S' + 4) := by
  obtain ⟨h1, h2, h3⟩ := hp
  have f2 := h2.facts
  have f3 := h3.facts
  have e := ballot_uses B
  have e1 : ∀ b : QuadraticVotingBallot F E, VerifierUses (b.verifyTraced B params) (o * (4 * S + 7) + 4 * S' + 4)
      (fun r => r.map fun _ => ()) := fun b => (e b params).cast (by rw [f2.sizes, f3.sizes, h1, hS, hS']; ring)
  refine ⟨fun vs rng r h => ?_, fun b => (e1 b).1, fun b l h => (e1 b).2 _ ((val_ballotVerify B _ _).trans h) rfl⟩
  rw [Owes.uses (owes_ballot B params f2 f3 vs rng) ((val_ballot B _ _ _).trans h), rangeCost, rangeCost, itemsIn, itemsIn,
    hS, hS', hR, hR', h1, debugCost]
  split <;> ring

-- two options, 16 credits: 95 products to create a ballot in a debug build, 94 to verify it
example : ∃ ballot rng', QuadraticVotingBallot.new B101 exampleVoting [3, 2] (5 : ℕ) = some (ballot, rng') ∧
    productCount (QuadraticVotingBallot.newTraced B101 exampleVoting [3, 2] (5 : ℕ)).ops = 95 ∧
    productCount (ballot.verifyTraced B101 exampleVoting).ops = 94 := by
  obtain ⟨⟨ballot, rng'⟩, h⟩ := (C36_ballot_total B101 B101_total exampleVoting 2 16 4
    exampleVoting_for.1 [3, 2] (.inl rfl) (5 : ℕ)).mpr (by decide)
  obtain ⟨h1, -, -⟩ := C36_ballot_complete B101 exampleVoting 2 16 4 exampleVoting_for.1 42
    (by rw [exampleVoting_for.2]; decide) [3, 2] (.inl rfl) _ _ ballot h
  obtain ⟨h2, -, h3⟩ := C90_voting B101 exampleVoting 2 16 4 exampleVoting_for.1 5 9 1 2 (by decide +kernel)
    (by decide +kernel) (by decide +kernel) (by decide +kernel)
  exact ⟨ballot, rng', h, h2 _ _ _ h, h3 _ _ h1⟩

end ElasticElgamal
