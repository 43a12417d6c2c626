import Verif.Lemmas.PartialGames
import Verif.Props.PartialPrivacy
import Verif.Props.RingPrivacy
import Verif.Props.VotingElectionPrivacy

/-!
# C94 for ring proofs, range proofs and quadratic voting
-/

set_option autoImplicit false
set_option linter.unusedSectionVars false

namespace ElasticElgamal

open Spec

section
variable {F E : Type} [Field F] [Fintype F] [AddCommGroup E] [Module F E] [DecidableEq F] [DecidableEq E]

/-! ### Ring proofs -/

/-- C94 for values encrypted with ring proofs. -/
theorem C94_ring_private (B : Backend F E) (hB : B.Lawful) (spare : Bytes) (hs : SpareEncoding B spare) {n : ℕ}
    (values : Fin n → List E) (t : Transcript) :
    ∃ D₀ : Finset (List Entry), ∀ D, D₀ ⊆ D → ∀ (H₀ : List Entry → F)
      (index index' : PublicKey E → Fin n → ℕ), (∀ K j, index K j < (values j).length) →
      (∀ K j, index' K j < (values j).length) →
      ∀ guess : (List Entry → F) → PublicKey E → Option (List (Ciphertext E) × RingProof F) → ℚ,
      ringGame B D H₀ values t index guess - ringGame B D H₀ values t index' guess =
        ∑ i, (ddhGap B (hybridReduction B (onKey (totalize B spare) (fun _ => 0) fun K => selectedValue values (index K))
            (onKey (totalize B spare) (fun _ => 0) (simulatedRings (totalize B spare) D H₀ values t
              (shownIf B (canVerifyRings B values t) guess))) i) -
          ddhGap B (hybridReduction B (onKey (totalize B spare) (fun _ => 0) fun K => selectedValue values (index' K))
            (onKey (totalize B spare) (fun _ => 0) (simulatedRings (totalize B spare) D H₀ values t
              (shownIf B (canVerifyRings B values t) guess))) i)) := by
  obtain ⟨D₀, h⟩ := C84_ring_private (totalize B spare) (hB.totalize hs) (totalize_total B spare) values t
  refine ⟨D₀, fun D hD H₀ index index' hi hi' guess => ?_⟩
  rw [ringGame_partial B hB hs D H₀ values t index hi, ringGame_partial B hB hs D H₀ values t index' hi',
    h D hD H₀ index index' hi hi']
  rfl

/-- C94 for `PublicKey::encrypt_bool`. -/
theorem C94_bool_private (B : Backend F E) (hB : B.Lawful) (spare : Bytes) (hs : SpareEncoding B spare) :
    ∃ D₀ : Finset (List Entry), ∀ D, D₀ ⊆ D → ∀ (H₀ : List Entry → F) (value value' : PublicKey E → Bool)
      (guess : (List Entry → F) → PublicKey E → Option (Ciphertext E × RingProof F) → ℚ),
      ∃ A A' : E → E → E → ℚ,
        boolGame B D H₀ value guess - boolGame B D H₀ value' guess = ddhGap B A - ddhGap B A' := by
  obtain ⟨D₀, h⟩ := C94_ring_private B hB spare hs (fun _ : Fin 1 => [0, B.gen]) (Transcript.new "bool_encryption")
  refine ⟨D₀, fun D hD H₀ value value' guess => ?_⟩
  have hlt : ∀ v : Bool, (if v then 1 else 0) < [0, B.gen].length := fun v => by cases v <;> simp
  rw [boolGame_eq, boolGame_eq, h D hD H₀ _ _ (fun K _ => hlt _) (fun K _ => hlt _), Fin.sum_univ_one]
  exact ⟨_, _, rfl⟩

/-! ### Range proofs -/

/-- C94 for values encrypted with range proofs. -/
theorem C94_range_private (B : Backend F E) (hB : B.Lawful) (spare : Bytes) (hs : SpareEncoding B spare) (n : ℕ)
    (range : PreparedRange E) (hr : PreparedFor B n range) (t : Transcript) :
    ∃ D₀ : Finset (List Entry), ∀ D, D₀ ⊆ D → ∀ (H₀ : List Entry → F)
      (value value' : PublicKey E → ℕ), (∀ K, value K < n) → (∀ K, value' K < n) →
      ∀ guess : (List Entry → F) → PublicKey E → Option (Ciphertext E × RangeProof F E) → ℚ,
      rangeGame B D H₀ range t value guess - rangeGame B D H₀ range t value' guess =
        ∑ i, (ddhGap B (hybridReduction B (onKey (totalize B spare) (fun _ => 0) fun K => ringMessage B range (value K))
            (onKey (totalize B spare) (fun _ => 0) (simulatedRange (totalize B spare) D H₀ range t
              (shownIf B (canVerifyRange B range t) guess))) i) -
          ddhGap B (hybridReduction B (onKey (totalize B spare) (fun _ => 0) fun K => ringMessage B range (value' K))
            (onKey (totalize B spare) (fun _ => 0) (simulatedRange (totalize B spare) D H₀ range t
              (shownIf B (canVerifyRange B range t) guess))) i)) := by
  obtain ⟨D₀, h⟩ := C73_range_private (totalize B spare) (hB.totalize hs) (totalize_total B spare) n range
    (hr.totalize spare) t
  refine ⟨D₀, fun D hD H₀ value value' hv hv' guess => ?_⟩
  rw [rangeGame_partial B hB hs D H₀ hr t value hv, rangeGame_partial B hB hs D H₀ hr t value' hv',
    h D hD H₀ value value' hv hv']
  rfl

/-- C94 for `PublicKey::encrypt_range`. -/
theorem C94_encrypt_range_private (B : Backend F E) (hB : B.Lawful) (spare : Bytes) (hs : SpareEncoding B spare) (n : ℕ)
    (range : PreparedRange E) (hr : PreparedFor B n range) :
    ∃ D₀ : Finset (List Entry), ∀ D, D₀ ⊆ D → ∀ (H₀ : List Entry → F)
      (value value' : PublicKey E → ℕ), (∀ K, value K < n) → (∀ K, value' K < n) →
      ∀ guess : (List Entry → F) → PublicKey E → Option (Ciphertext E × RangeProof F E) → ℚ,
      ∃ A A' : Fin (rangeRings range) → E → E → E → ℚ,
      encryptRangeGame B D H₀ range value guess - encryptRangeGame B D H₀ range value' guess =
        ∑ i, (ddhGap B (A i) - ddhGap B (A' i)) := by
  simp only [encryptRangeGame_eq]
  obtain ⟨D₀, h⟩ := C94_range_private B hB spare hs n range hr (Transcript.new "ciphertext_range")
  exact ⟨D₀, fun D hD H₀ value value' hv hv' guess => ⟨_, _, h D hD H₀ value value' hv hv' guess⟩⟩

/-! ### Quadratic voting -/

/-- C94 for quadratic voting with several voters. (`totalize` changes encodings only, so gaps are in the Diffie–Hellman
game of the given group.) -/
theorem C94_voters_private (B : Backend F E) (hB : B.Lawful) (spare : Bytes) (hs : SpareEncoding B spare) (o c m : ℕ)
    (params : QuadraticVotingParams E) (hp : VotingParamsFor B params o c m) :
    ∃ D₀ : Finset (List Entry), ∀ D, D₀ ⊆ D → ∀ (H₀ : List Entry → F) (n : ℕ)
      (votes votes' : PublicKey E → Fin n → Fin o → ℕ), (∀ K v i, votes K v i ≤ m) → (∀ K v i, votes' K v i ≤ m) →
      (∀ K v, cost (List.ofFn (votes K v)) ≤ c) → (∀ K v, cost (List.ofFn (votes' K v)) ≤ c) →
      ∀ guess : (List Entry → F) → PublicKey E → (Fin n → Option (QuadraticVotingBallot F E)) → ℚ,
      votersGame B D H₀ params votes guess - votersGame B D H₀ params votes' guess =
        ∑ v, votingGaps (totalize B spare) D H₀ params (fun K => votes K v) (fun K => votes' K v)
          (embedVoter (totalize B spare) params votes votes' (allShownIf B (canVerifyBallot B params) guess) v) := by
  obtain ⟨D₀, h⟩ := C74_voters_private (totalize B spare) (hB.totalize hs) (totalize_total B spare) o c m params
    (hp.totalize spare)
  refine ⟨D₀, fun D hD H₀ n votes votes' hv hv' hc hc' guess => ?_⟩
  rw [votersGame_partial B hB hs D H₀ hp votes hv hc, votersGame_partial B hB hs D H₀ hp votes' hv' hc',
    h D hD H₀ n votes votes' hv hv' hc hc']

/-- C94 for quadratic voting with a bound: if no algorithm of the class has an advantage above `ε` in the Diffie–Hellman
game, then no attacker distinguishes votes with an advantage above `2·n·(o·r + r')·ε`. -/
theorem C94_voters_bound (B : Backend F E) (hB : B.Lawful) (spare : Bytes) (hs : SpareEncoding B spare) (o c m : ℕ)
    (params : QuadraticVotingParams E) (hp : VotingParamsFor B params o c m) :
    ∃ D₀ : Finset (List Entry), ∀ D, D₀ ⊆ D → ∀ (H₀ : List Entry → F) (n : ℕ)
      (votes votes' : PublicKey E → Fin n → Fin o → ℕ), (∀ K v i, votes K v i ≤ m) → (∀ K v i, votes' K v i ≤ m) →
      (∀ K v, cost (List.ofFn (votes K v)) ≤ c) → (∀ K v, cost (List.ofFn (votes' K v)) ≤ c) →
      ∀ (guess : (List Entry → F) → PublicKey E → (Fin n → Option (QuadraticVotingBallot F E)) → ℚ) (ε : ℚ),
      (∀ A ∈ votersReductions (totalize B spare) D H₀ params votes votes'
        (allShownIf B (canVerifyBallot B params) guess), |ddhGap B A| ≤ ε) →
      |votersGame B D H₀ params votes guess - votersGame B D H₀ params votes' guess| ≤
        2 * n * (o * rangeRings params.voteCountRange + rangeRings params.creditRange) * ε := by
  obtain ⟨D₀, h⟩ := C74_voters_bound (totalize B spare) (hB.totalize hs) (totalize_total B spare) o c m params
    (hp.totalize spare)
  refine ⟨D₀, fun D hD H₀ n votes votes' hv hv' hc hc' guess ε hε => ?_⟩
  rw [votersGame_partial B hB hs D H₀ hp votes hv hc, votersGame_partial B hB hs D H₀ hp votes' hv' hc']
  exact h D hD H₀ n votes votes' hv hv' hc hc' _ ε hε

/-- C94 for elections with quadratic voting and published totals, if results are published only if all ballots could be
created. -/
theorem C94_voting_election_private (B : Backend F E) (hB : B.Lawful) (spare : Bytes) (hs : SpareEncoding B spare)
    (o c m : ℕ) (params : QuadraticVotingParams E) (hp : VotingParamsFor B params o c m)
    (t : Fin o → Transcript) (ht : Function.Injective t) :
    ∃ D₀ : Finset (List Entry), ∀ D, D₀ ⊆ D → ∀ (H₀ : List Entry → F) (n : ℕ)
      (votes votes' : PublicKey E → Fin n → Fin o → ℕ), (∀ K v i, votes K v i ≤ m) → (∀ K v i, votes' K v i ≤ m) →
      (∀ K v, cost (List.ofFn (votes K v)) ≤ c) → (∀ K v, cost (List.ofFn (votes' K v)) ≤ c) →
      (∀ K, voteSums (votes K) = voteSums (votes' K)) →
      ∀ (guess : (List Entry → F) → PublicKey E → (Fin n → Option (QuadraticVotingBallot F E)) →
        (Fin o → Option (VerifiableDecryption E × LogEqualityProof F)) → ℚ) (ε : ℚ),
      (∀ A ∈ votersReductions (totalize B spare) D H₀ params votes votes'
        (withCounts (totalize B spare) t votesTotal (fun K => voteSums (votes K))
          (resultsShownIf B t votesTotal (canVerifyBallot B params) guess)), |ddhGap B A| ≤ ε) →
      |fullElectionGame B D H₀ t (votingPoll params votes) guess -
          fullElectionGame B D H₀ t (votingPoll params votes') guess| ≤
        2 * n * (o * rangeRings params.voteCountRange + rangeRings params.creditRange) * ε := by
  obtain ⟨D₀, h⟩ := C75_election_bound (totalize B spare) (hB.totalize hs) (totalize_total B spare) o c m params
    (hp.totalize spare) t ht
  refine ⟨D₀, fun D hD H₀ n votes votes' hv hv' hc hc' hsum guess ε hε => ?_⟩
  have hpoll : ∀ votes : PublicKey E → Fin n → Fin o → ℕ, (∀ K v i, votes K v i ≤ m) →
      (∀ K v, cost (List.ofFn (votes K v)) ≤ c) →
      fullElectionGame B D H₀ t (votingPoll params votes) guess = electionGame (totalize B spare) D H₀ t
        (votingPoll params votes) (resultsShownIf B t votesTotal (canVerifyBallot B params) guess) := by
    intro votes hv hc
    refine fullElectionGame_partial B D H₀ t (votingPoll params votes) (canVerifyBallot B params) (fun H K => ?_) guess
    exact ⟨fun v tape => votingOutput (B.withHash H) { params with receiver := K } (List.ofFn (votes K v))
        (List.ofFn tape),
      fun v tape => votingOutput ((totalize B spare).withHash H) { params with receiver := K } (List.ofFn (votes K v))
        (List.ofFn tape), fun tapes => rfl, fun tapes => rfl, fun v =>
      voting_partial (B.withHash H) (hB.withHash H) (spare := spare) hs (hp.change H K) (votes K v) (hv K v) (hc K v)⟩
  rw [hpoll votes hv hc, hpoll votes' hv' hc']
  exact h D hD H₀ n votes votes' hv hv' hc hc' hsum _ ε hε

end

namespace Toy

theorem exampleRange_sec1 : PreparedFor S101 17 exampleRange := exampleRange_prepared

theorem exampleVoting_sec1 : VotingParamsFor S101 exampleVoting 2 16 4 :=
  ⟨exampleVoting_for.1.options, exampleVoting_for.1.votes, exampleVoting_for.1.credits⟩

example : ∃ D₀ : Finset (List Entry), ∀ D, D₀ ⊆ D → ∀ H₀ : List Entry → ZMod 101,
    ∃ A A' : Fin 2 → ZMod 101 → ZMod 101 → ZMod 101 → ℚ,
    ringGame S101 D H₀ exampleRings (Transcript.new "toy") (fun _ => ![1, 2]) exampleRingsGuess -
      ringGame S101 D H₀ exampleRings (Transcript.new "toy") (fun _ => ![1, 0]) exampleRingsGuess =
      ∑ i, (ddhGap S101 (A i) - ddhGap S101 (A' i)) := by
  obtain ⟨D₀, h⟩ := C94_ring_private S101 S101_lawful [0, 0] S101_spare exampleRings (Transcript.new "toy")
  exact ⟨D₀, fun D hD H₀ => ⟨_, _, h D hD H₀ (fun _ => ![1, 2]) (fun _ => ![1, 0]) (fun _ => by decide)
    (fun _ => by decide) exampleRingsGuess⟩⟩

-- an attacker that looks for panics
example : ∃ D₀ : Finset (List Entry), ∀ D, D₀ ⊆ D → ∀ H₀ : List Entry → ZMod 101,
    ∃ A A' : ZMod 101 → ZMod 101 → ZMod 101 → ℚ,
    boolGame S101 D H₀ (fun _ => true) (fun _ _ out => if out.isSome then 0 else 1) -
      boolGame S101 D H₀ (fun _ => false) (fun _ _ out => if out.isSome then 0 else 1) =
      ddhGap S101 A - ddhGap S101 A' := by
  obtain ⟨D₀, h⟩ := C94_bool_private S101 S101_lawful [0, 0] S101_spare
  exact ⟨D₀, fun D hD H₀ => h D hD H₀ _ _ _⟩

example : ∃ D₀ : Finset (List Entry), ∀ D, D₀ ⊆ D → ∀ H₀ : List Entry → ZMod 101,
    ∃ A A' : Fin (rangeRings exampleRange) → ZMod 101 → ZMod 101 → ZMod 101 → ℚ,
    rangeGame S101 D H₀ exampleRange (Transcript.new "toy") (fun _ => 16) exampleRangeGuess -
      rangeGame S101 D H₀ exampleRange (Transcript.new "toy") (fun _ => 3) exampleRangeGuess =
      ∑ i, (ddhGap S101 (A i) - ddhGap S101 (A' i)) := by
  obtain ⟨D₀, h⟩ := C94_range_private S101 S101_lawful [0, 0] S101_spare 17 exampleRange exampleRange_sec1
    (Transcript.new "toy")
  exact ⟨D₀, fun D hD H₀ => ⟨_, _, h D hD H₀ (fun _ => 16) (fun _ => 3) (fun _ => by decide)
    (fun _ => by decide) exampleRangeGuess⟩⟩

example : ∃ D₀ : Finset (List Entry), ∀ D, D₀ ⊆ D → ∀ H₀ : List Entry → ZMod 101,
    ∃ A A' : Fin (rangeRings exampleRange) → ZMod 101 → ZMod 101 → ZMod 101 → ℚ,
    encryptRangeGame S101 D H₀ exampleRange (fun _ => 16) exampleRangeGuess -
      encryptRangeGame S101 D H₀ exampleRange (fun _ => 3) exampleRangeGuess =
      ∑ i, (ddhGap S101 (A i) - ddhGap S101 (A' i)) := by
  obtain ⟨D₀, h⟩ := C94_encrypt_range_private S101 S101_lawful [0, 0] S101_spare 17 exampleRange exampleRange_sec1
  exact ⟨D₀, fun D hD H₀ => h D hD H₀ _ _ (fun _ => by decide) (fun _ => by decide) _⟩

-- two voters exchange their votes
example : ∃ D₀ : Finset (List Entry), ∀ D, D₀ ⊆ D → ∀ (H₀ : List Entry → ZMod 101)
    (guess : (List Entry → ZMod 101) → PublicKey (ZMod 101) →
      (Fin 2 → Option (QuadraticVotingBallot (ZMod 101) (ZMod 101))) → ℚ), ∃ gaps : Fin 2 → ℚ,
    votersGame S101 D H₀ exampleVoting (fun _ => ![![0, 4], ![3, 2]]) guess -
      votersGame S101 D H₀ exampleVoting (fun _ => ![![3, 2], ![0, 4]]) guess = ∑ v, gaps v := by
  obtain ⟨D₀, h⟩ := C94_voters_private S101 S101_lawful [0, 0] S101_spare 2 16 4 exampleVoting exampleVoting_sec1
  exact ⟨D₀, fun D hD H₀ guess => ⟨_, h D hD H₀ 2 _ _ (fun _ => by decide) (fun _ => by decide) (fun _ => by decide)
    (fun _ => by decide) guess⟩⟩

example : ∃ D₀ : Finset (List Entry), ∀ D, D₀ ⊆ D → ∀ (H₀ : List Entry → ZMod 101)
    (guess : (List Entry → ZMod 101) → PublicKey (ZMod 101) →
      (Fin 2 → Option (QuadraticVotingBallot (ZMod 101) (ZMod 101))) → ℚ),
    (∀ A ∈ votersReductions (totalize S101 [0, 0]) D H₀ exampleVoting (fun _ => ![![0, 4], ![3, 2]])
      (fun _ => ![![3, 2], ![0, 4]]) (allShownIf S101 (canVerifyBallot S101 exampleVoting) guess), |ddhGap S101 A| ≤ 0) →
    votersGame S101 D H₀ exampleVoting (fun _ => ![![0, 4], ![3, 2]]) guess =
      votersGame S101 D H₀ exampleVoting (fun _ => ![![3, 2], ![0, 4]]) guess := by
  obtain ⟨D₀, h⟩ := C94_voters_bound S101 S101_lawful [0, 0] S101_spare 2 16 4 exampleVoting exampleVoting_sec1
  refine ⟨D₀, fun D hD H₀ guess hA => ?_⟩
  have := h D hD H₀ 2 _ _ (fun _ => by decide) (fun _ => by decide) (fun _ => by decide)
    (fun _ => by decide) guess 0 hA
  rw [mul_zero, abs_nonpos_iff, sub_eq_zero] at this
  exact this

example : ∃ D₀ : Finset (List Entry), ∀ D, D₀ ⊆ D → ∀ (H₀ : List Entry → ZMod 101)
    (guess : (List Entry → ZMod 101) → PublicKey (ZMod 101) →
      (Fin 2 → Option (QuadraticVotingBallot (ZMod 101) (ZMod 101))) →
      (Fin 2 → Option (VerifiableDecryption (ZMod 101) × LogEqualityProof (ZMod 101))) → ℚ),
    ∃ reductions : Set (ZMod 101 → ZMod 101 → ZMod 101 → ℚ),
    ∀ ε : ℚ, (∀ A ∈ reductions, |ddhGap S101 A| ≤ ε) →
    |fullElectionGame S101 D H₀ exampleContexts (votingPoll exampleVoting fun _ => ![![0, 4], ![3, 2]]) guess -
      fullElectionGame S101 D H₀ exampleContexts (votingPoll exampleVoting fun _ => ![![3, 2], ![0, 4]]) guess| ≤
      2 * 2 * (2 * rangeRings exampleVoting.voteCountRange + rangeRings exampleVoting.creditRange) * ε := by
  obtain ⟨D₀, h⟩ := C94_voting_election_private S101 S101_lawful [0, 0] S101_spare 2 16 4 exampleVoting exampleVoting_sec1
    exampleContexts exampleContexts_injective
  exact ⟨D₀, fun D hD H₀ guess => ⟨_, fun ε hε => by
    have := h D hD H₀ 2 (fun _ => ![![0, 4], ![3, 2]]) (fun _ => ![![3, 2], ![0, 4]]) (fun _ => by decide)
      (fun _ => by decide) (fun _ => by decide) (fun _ => by decide) (fun _ => by decide) guess ε hε
    exact_mod_cast this⟩⟩

end Toy

end ElasticElgamal
