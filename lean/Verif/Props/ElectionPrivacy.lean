import Verif.Lemmas.TallyPrivacy
import Verif.Props.Privacy

/-!
# C68: elections with published results hide votes
-/

set_option autoImplicit false
set_option linter.unusedSectionVars false

namespace ElasticElgamal

open Spec

variable {F E : Type} [Field F] [Fintype F] [AddCommGroup E] [Module F E] [DecidableEq F] [DecidableEq E]

/-- C68: publishing decryptions of the totals with their proofs reveals nothing but the numbers of votes: the ballots,
the decryptions and the random hash function are distributed as if decryptions and proofs were made from the numbers of
votes without the secret key. The distributions are the same, without any error. Transcripts of the decryption proofs
need to be different. -/
theorem C68_decryption_simulation (B : Backend F E) (hB : B.Lawful) (hT : B.TotalSer) (o : ℕ) (ho : 0 < o)
    (t : Fin o → Transcript) (ht : Function.Injective t) :
    ∃ D₀ : Finset (List Entry), ∀ D, D₀ ⊆ D → ∀ (H₀ : List Entry → F) (kind : ChoiceKind) (n : ℕ)
      (votes : PublicKey E → Fin n → Fin o → Bool),
      (∀ K v, kind = .single → (List.ofFn (votes K v)).count true = 1) →
      ∀ guess : (List Entry → F) → PublicKey E → (Fin n → Option (EncryptedChoice F E kind)) →
        (Fin o → Option (VerifiableDecryption E × LogEqualityProof F)) → ℚ,
      electionGame B D H₀ t (choicePoll kind votes) guess =
        choicesGame B D H₀ kind votes (withCounts B t optionTotal (fun K => voteCounts (votes K)) guess) := by
  have := hB.finite
  refine ⟨(decData_finite B t).toFinset, fun D hD H₀ kind n votes hone guess => ?_⟩
  rw [electionGame, choicesGame]
  congr 1
  funext k
  simp only [(generate_tape B hT k).1]
  exact tally_simulation B hB hT ho.ne' _ k rfl t ht D hD H₀ _ (hone _) guess

/-- C68: elections with published results hide everything but the numbers of votes if the decisional Diffie–Hellman
problem is hard, for a random hash function: if voters select options according to `votes` or `votes'`, and both give
the same numbers of votes, the difference of the probabilities that the attacker outputs 1 is a sum of advantages of
explicit algorithms in the Diffie–Hellman game. The attacker sees all ballots, and the decryptions of all totals with
their proofs. (All voters follow the protocol: with voters that copy ballots of others this does not hold.) -/
theorem C68_election_private (B : Backend F E) (hB : B.Lawful) (hT : B.TotalSer) (o : ℕ) (ho : 0 < o)
    (t : Fin o → Transcript) (ht : Function.Injective t) :
    ∃ D₀ : Finset (List Entry), ∀ D, D₀ ⊆ D → ∀ (H₀ : List Entry → F) (kind : ChoiceKind) (n : ℕ)
      (votes votes' : PublicKey E → Fin n → Fin o → Bool),
      (∀ K v, kind = .single → (List.ofFn (votes K v)).count true = 1) →
      (∀ K v, kind = .single → (List.ofFn (votes' K v)).count true = 1) →
      (∀ K, voteCounts (votes K) = voteCounts (votes' K)) →
      ∀ guess : (List Entry → F) → PublicKey E → (Fin n → Option (EncryptedChoice F E kind)) →
        (Fin o → Option (VerifiableDecryption E × LogEqualityProof F)) → ℚ,
      electionGame B D H₀ t (choicePoll kind votes) guess - electionGame B D H₀ t (choicePoll kind votes') guess =
        ∑ v, ∑ i, (ddhGap B (hybridReduction B (onKey B (fun _ => 0) fun K j => if votes K v j then B.gen else 0)
            (onKey B (fun _ => 0) (simulatedGuess B D H₀ (embedBallot B votes votes'
              (withCounts B t optionTotal (fun K => voteCounts (votes K)) guess) v))) i) -
          ddhGap B (hybridReduction B (onKey B (fun _ => 0) fun K j => if votes' K v j then B.gen else 0)
            (onKey B (fun _ => 0) (simulatedGuess B D H₀ (embedBallot B votes votes'
              (withCounts B t optionTotal (fun K => voteCounts (votes K)) guess) v))) i)) := by
  obtain ⟨D₁, h1⟩ := C68_decryption_simulation B hB hT o ho t ht
  obtain ⟨D₂, h2⟩ := C67_choices_private B hB hT o ho
  classical
  refine ⟨D₁ ∪ D₂, fun D hD H₀ kind n votes votes' hone hone' hc guess => ?_⟩
  rw [h1 D (Finset.union_subset_left hD) H₀ kind n votes hone guess,
    h1 D (Finset.union_subset_left hD) H₀ kind n votes' hone' guess, ← funext hc,
    h2 D (Finset.union_subset_right hD) H₀ kind n votes votes' hone hone']

namespace Toy

/-- Transcripts of decryption proofs: one per option. -/
def exampleContexts (j : Fin 2) : Transcript := (Transcript.new "election_results").appendU64 "option" j

theorem exampleContexts_injective : Function.Injective exampleContexts := by
  have : ∀ i j, exampleContexts i = exampleContexts j → i = j := by decide
  exact fun i j => this i j

/-- Three voters in a single-choice poll; the one with number `a` selects the first option. -/
def exampleVotes (a v : Fin 3) : Fin 2 → Bool := if v = a then ![true, false] else ![false, true]

/-- An attacker in the toy group that decrypts the first ballot. -/
def exampleElectionGuess (H : List Entry → ZMod 101) (K : PublicKey (ZMod 101))
    (ballots : Fin 3 → Option (EncryptedChoice (ZMod 101) (ZMod 101) .single))
    (_ : Fin 2 → Option (VerifiableDecryption (ZMod 101) × LogEqualityProof (ZMod 101))) : ℚ :=
  exampleChoiceGuess H K (ballots 0)

theorem exampleElection_wins (D : Finset (List Entry)) (H₀ : List Entry → ZMod 101) (a : Fin 3) :
    electionGame B101 D H₀ exampleContexts (choicePoll .single (fun _ => exampleVotes a)) exampleElectionGuess =
      if a = 0 then 1 else 0 := by
  rw [electionGame]
  have h : (List.ofFn (exampleVotes a 0)).count true = 1 := by revert a; decide
  simp only [(generate_tape B101 B101_total _).1, exampleElectionGuess, choicePoll, exampleChoice_key _ h, mean_const,
    meanHash_const]
  revert a
  decide

-- results are the same for all `a`, the advantage of this attacker is that of the reductions
example : ∃ D₀ : Finset (List Entry), ∀ D, D₀ ⊆ D → ∀ (H₀ : List Entry → ZMod 101),
    ∃ gaps : Fin 3 → Fin 2 → ℚ, ∑ v, ∑ i, gaps v i = 1 ∧
      electionGame B101 D H₀ exampleContexts (choicePoll .single (fun _ => exampleVotes 0)) exampleElectionGuess -
        electionGame B101 D H₀ exampleContexts (choicePoll .single (fun _ => exampleVotes 2)) exampleElectionGuess =
      ∑ v, ∑ i, gaps v i := by
  obtain ⟨D₀, h⟩ := C68_election_private B101 B101_lawful B101_total 2 (by norm_num) exampleContexts
    exampleContexts_injective
  refine ⟨D₀, fun D hD H₀ => ?_⟩
  have := h D hD H₀ .single 3 (fun _ => exampleVotes 0) (fun _ => exampleVotes 2) (fun _ v _ => by revert v; decide)
    (fun _ v _ => by revert v; decide) (fun _ => by decide) exampleElectionGuess
  refine ⟨_, ?_, this⟩
  rw [← this, exampleElection_wins, exampleElection_wins, if_pos rfl, if_neg (by decide)]
  norm_num

example : ∃ D₀ : Finset (List Entry), ∀ D, D₀ ⊆ D → ∀ (H₀ : List Entry → ZMod 101),
    choicesGame B101 D H₀ .single (fun _ => exampleVotes 0)
      (withCounts B101 exampleContexts optionTotal (fun _ => ![1, 2]) exampleElectionGuess) = 1 := by
  obtain ⟨D₀, h⟩ := C68_decryption_simulation B101 B101_lawful B101_total 2 (by norm_num) exampleContexts
    exampleContexts_injective
  refine ⟨D₀, fun D hD H₀ => ?_⟩
  have := h D hD H₀ .single 3 (fun _ => exampleVotes 0) (fun _ v _ => by revert v; decide) exampleElectionGuess
  rw [show voteCounts (exampleVotes 0) = ![1, 2] by decide] at this
  rw [← this, exampleElection_wins, if_pos rfl]

end Toy

/-! ### Ballots can be copied -/

/-- C68: it is necessary that voters follow the protocol: a ballot does not contain an identity of the voter, so
that a copy of an accepted ballot is accepted. If somebody copies the first of two ballots, the totals
reveal both selections. -/
theorem C68_copied_ballot (B : Backend F E) (hB : B.Lawful) {kind : ChoiceKind}
    (params : ChoiceParams E kind) (k : F) (hk : params.receiver.element = k • B.gen) (flags flags' : List Bool)
    (hone : kind = .single → flags.count true = 1) (hone' : kind = .single → flags'.count true = 1)
    (r1 r2 r3 r4 : B.Rng) (ballot ballot' : EncryptedChoice F E kind)
    (h : EncryptedChoice.new B params flags r1 = some (ballot, r2))
    (h' : EncryptedChoice.new B params flags' r3 = some (ballot', r4)) :
    (∀ b ∈ [ballot, ballot', ballot], b.verify B params = some (.ok b.choices)) ∧
    ∀ (j : ℕ) (ct : Ciphertext E),
      (tally params.optionsCount ([ballot, ballot', ballot].map (·.choices)))[j]? = some ct →
      ∃ f f', flags[j]? = some f ∧ flags'[j]? = some f' ∧
      SecretKey.decryptToElement k ct = (match f, f' with
        | false, false => 0
        | false, true => B.gen
        | true, false => (2 : F) • B.gen
        | true, true => (3 : F) • B.gen) := by
  obtain ⟨hv, hl, hd, -⟩ := C32_choice_complete B params k hk flags hone _ _ _ h
  obtain ⟨hv', hl', hd', -⟩ := C32_choice_complete B params k hk flags' hone' _ _ _ h'
  have hl : ballot.choices.length = params.optionsCount := hl
  have hl' : ballot'.choices.length = params.optionsCount := hl'
  refine ⟨by simp [hv, hv'], fun j ct hct => ?_⟩
  have hj : j < params.optionsCount := by
    by_contra hj
    rw [tally, List.getElem?_map, List.getElem?_eq_none (by simpa using hj)] at hct
    cases hct
  have hfl : flags.length = params.optionsCount := by
    have := congrArg List.length hd
    simp only [List.length_map] at this
    omega
  have hfl' : flags'.length = params.optionsCount := by
    have := congrArg List.length hd'
    simp only [List.length_map] at this
    omega
  have hb : ∀ l : List Bool, (l.map fun f : Bool => if f then B.gen else (0 : E)) =
      (l.map fun f : Bool => if f then 1 else 0).map fun x : ℕ => (x : F) • B.gen := by
    intro l
    rw [List.map_map]
    refine List.map_congr_left fun f _ => ?_
    cases f <;> simp
  have := tally_decrypts B hB k params.optionsCount _ [flags.map fun f => if f then 1 else 0,
    flags'.map fun f => if f then 1 else 0, flags.map fun f => if f then 1 else 0]
    (.cons ⟨hl, by rw [hd, hb]⟩ (.cons ⟨hl', by rw [hd', hb]⟩ (.cons ⟨hl, by rw [hd, hb]⟩ .nil))) j ct hct
  refine ⟨flags[j], flags'[j], by simp, by simp, ?_⟩
  rw [this]
  simp only [List.map_cons, List.map_nil, List.getElem?_map, List.getElem?_eq_getElem (show j < flags.length by omega),
    List.getElem?_eq_getElem (show j < flags'.length by omega), Option.map_some, Option.getD_some, List.sum_cons,
    List.sum_nil]
  cases flags[j] <;> cases flags'[j] <;> norm_num

open Toy in
example : ∃ ballot ballot' : EncryptedChoice (ZMod 101) (ZMod 101) .single,
    (∀ b ∈ [ballot, ballot', ballot], b.verify B101 ⟨2, ⟨[42], 42⟩⟩ = some (.ok b.choices)) ∧
    (tally 2 ([ballot, ballot', ballot].map (·.choices))).map (SecretKey.decryptToElement (42 : ZMod 101)) = [2, 1] := by
  obtain ⟨⟨b, r2⟩, h⟩ := (C32_choice_total B101 B101_total (kind := .single) ⟨2, ⟨[42], 42⟩⟩ [true, false] (0 : ℕ)).mpr
    ⟨by simp, rfl⟩
  obtain ⟨⟨b', r4⟩, h'⟩ := (C32_choice_total B101 B101_total (kind := .single) ⟨2, ⟨[42], 42⟩⟩ [false, true] (0 : ℕ)).mpr
    ⟨by simp, rfl⟩
  obtain ⟨h1, h2⟩ := C68_copied_ballot B101 B101_lawful ⟨2, ⟨[42], 42⟩⟩ 42 (by decide) _ _ (fun _ => by decide)
    (fun _ => by decide) _ _ _ _ _ _ h h'
  refine ⟨b, b', h1, List.ext_getElem (by simp [tally]) fun j hj hj' => ?_⟩
  rw [List.getElem_map]
  have hj2 : j < 2 := hj'
  obtain ⟨f, f', hf, hf', hd⟩ := h2 j _ (List.getElem?_eq_getElem (by simpa [tally] using hj2))
  rw [hd]
  interval_cases j
  · obtain rfl : true = f := by simpa using hf
    obtain rfl : false = f' := by simpa using hf'
    rfl
  · obtain rfl : false = f := by simpa using hf
    obtain rfl : true = f' := by simpa using hf'
    rfl

end ElasticElgamal
