import Verif.Lemmas.PartialPrivacy
import Verif.Props.ElectionPrivacy
import Verif.Props.Concrete

/-!
# C94: privacy in groups that cannot encode the identity
-/

set_option autoImplicit false
set_option linter.unusedSectionVars false

namespace ElasticElgamal

open Spec

/-- C94: the string of zero bytes encodes no element of a curve with compressed SEC1 encodings. So there is a spare
encoding for secp256k1. -/
theorem C94_spare {p n : ℕ} [Fact p.Prime] [Fact n.Prime] (C : Generic.Curve p n) (hC : 0 < C.size) :
    SpareEncoding (Generic.backend C) (List.replicate (C.size + 1) 0) := by
  refine ⟨List.length_replicate, fun e h => ?_⟩
  change Generic.copyFromSlice (C.size + 1) (Generic.toSec1 C e) = _ at h
  simp only [Generic.copyFromSlice] at h
  split at h
  · rename_i hl
    cases e with
    | zero =>
      have : 1 = C.size + 1 := hl
      omega
    | some x y hxy =>
      have h := congrArg List.head? (Option.some.inj h)
      simp only [Generic.toSec1, List.head?_cons, List.replicate_succ, Option.some.injEq] at h
      split at h <;> exact absurd h (by decide)
  · cases h

theorem C94_spare_secp256k1 (debug : Bool) :
    SpareEncoding (Secp256k1.concrete debug) (List.replicate 33 0) :=
  C94_spare (Secp256k1.concreteParams debug) (by cases debug <;> decide)

-- the identity has no encoding in this group
example : (Secp256k1.concrete true).serElem 0 = none ∧ SpareEncoding (Secp256k1.concrete true) (List.replicate 33 0) :=
  ⟨by rfl, C94_spare_secp256k1 true⟩

section
variable {F E : Type} [Field F] [Fintype F] [AddCommGroup E] [Module F E] [DecidableEq F] [DecidableEq E]

/-- C94: ballots hide the selection also in groups that cannot encode the identity (secp256k1), where creation of a ballot
may panic and the attacker sees that it does: the difference of the probabilities that the attacker outputs 1 is the sum
of the advantages of explicit algorithms in the Diffie–Hellman game. There is no error term: panics reveal nothing but
what can be seen from the ballot. -/
theorem C94_choice_private (B : Backend F E) (hB : B.Lawful) (spare : Bytes) (hs : SpareEncoding B spare) (o : ℕ)
    (ho : 0 < o) :
    ∃ D₀ : Finset (List Entry), ∀ D, D₀ ⊆ D → ∀ (H₀ : List Entry → F) (kind : ChoiceKind)
      (votes votes' : PublicKey E → Fin o → Bool),
      (∀ K, kind = .single → (List.ofFn (votes K)).count true = 1) →
      (∀ K, kind = .single → (List.ofFn (votes' K)).count true = 1) →
      ∀ guess : (List Entry → F) → PublicKey E → Option (EncryptedChoice F E kind) → ℚ,
      choiceGame B D H₀ kind votes guess - choiceGame B D H₀ kind votes' guess =
        ∑ i, (ddhGap B (hybridReduction B (onKey (totalize B spare) (fun _ => 0) fun K j => if votes K j then B.gen else 0)
            (onKey (totalize B spare) (fun _ => 0)
              (simulatedGuess (totalize B spare) D H₀ (shownIf B (canVerify B o) guess))) i) -
          ddhGap B (hybridReduction B (onKey (totalize B spare) (fun _ => 0) fun K j => if votes' K j then B.gen else 0)
            (onKey (totalize B spare) (fun _ => 0)
              (simulatedGuess (totalize B spare) D H₀ (shownIf B (canVerify B o) guess))) i)) := by
  obtain ⟨D₀, h⟩ := C67_choice_private (totalize B spare) (hB.totalize hs) (totalize_total B spare) o ho
  refine ⟨D₀, fun D hD H₀ kind votes votes' hone hone' guess => ?_⟩
  rw [choiceGame_partial B hB hs D H₀ ho votes hone, choiceGame_partial B hB hs D H₀ ho votes' hone',
    h D hD H₀ kind votes votes' hone hone']
  rfl

/-- C94 for several voters. -/
theorem C94_choices_private (B : Backend F E) (hB : B.Lawful) (spare : Bytes) (hs : SpareEncoding B spare) (o : ℕ)
    (ho : 0 < o) :
    ∃ D₀ : Finset (List Entry), ∀ D, D₀ ⊆ D → ∀ (H₀ : List Entry → F) (kind : ChoiceKind) (n : ℕ)
      (votes votes' : PublicKey E → Fin n → Fin o → Bool),
      (∀ K v, kind = .single → (List.ofFn (votes K v)).count true = 1) →
      (∀ K v, kind = .single → (List.ofFn (votes' K v)).count true = 1) →
      ∀ guess : (List Entry → F) → PublicKey E → (Fin n → Option (EncryptedChoice F E kind)) → ℚ,
      choicesGame B D H₀ kind votes guess - choicesGame B D H₀ kind votes' guess =
        ∑ v, ∑ i, (ddhGap B (hybridReduction B
            (onKey (totalize B spare) (fun _ => 0) fun K j => if votes K v j then B.gen else 0)
            (onKey (totalize B spare) (fun _ => 0) (simulatedGuess (totalize B spare) D H₀
              (embedBallot (totalize B spare) votes votes' (allShownIf B (canVerify B o) guess) v))) i) -
          ddhGap B (hybridReduction B
            (onKey (totalize B spare) (fun _ => 0) fun K j => if votes' K v j then B.gen else 0)
            (onKey (totalize B spare) (fun _ => 0) (simulatedGuess (totalize B spare) D H₀
              (embedBallot (totalize B spare) votes votes' (allShownIf B (canVerify B o) guess) v))) i)) := by
  obtain ⟨D₀, h⟩ := C67_choices_private (totalize B spare) (hB.totalize hs) (totalize_total B spare) o ho
  refine ⟨D₀, fun D hD H₀ kind n votes votes' hone hone' guess => ?_⟩
  rw [choicesGame_partial B hB hs D H₀ ho votes hone, choicesGame_partial B hB hs D H₀ ho votes' hone',
    h D hD H₀ kind n votes votes' hone hone']
  rfl

/-- C94: the same for elections with published results, if results are published only if all ballots could be created.
(If a ballot is missing, the results reveal whether it is one for the first option.) -/
theorem C94_election_private (B : Backend F E) (hB : B.Lawful) (spare : Bytes) (hs : SpareEncoding B spare) (o : ℕ)
    (ho : 0 < o) (t : Fin o → Transcript) (ht : Function.Injective t) :
    ∃ D₀ : Finset (List Entry), ∀ D, D₀ ⊆ D → ∀ (H₀ : List Entry → F) (kind : ChoiceKind) (n : ℕ)
      (votes votes' : PublicKey E → Fin n → Fin o → Bool),
      (∀ K v, kind = .single → (List.ofFn (votes K v)).count true = 1) →
      (∀ K v, kind = .single → (List.ofFn (votes' K v)).count true = 1) →
      (∀ K, voteCounts (votes K) = voteCounts (votes' K)) →
      ∀ guess : (List Entry → F) → PublicKey E → (Fin n → Option (EncryptedChoice F E kind)) →
        (Fin o → Option (VerifiableDecryption E × LogEqualityProof F)) → ℚ,
      fullElectionGame B D H₀ t (choicePoll kind votes) guess -
          fullElectionGame B D H₀ t (choicePoll kind votes') guess =
        ∑ v, ∑ i, (ddhGap B (hybridReduction B
            (onKey (totalize B spare) (fun _ => 0) fun K j => if votes K v j then B.gen else 0)
            (onKey (totalize B spare) (fun _ => 0) (simulatedGuess (totalize B spare) D H₀
              (embedBallot (totalize B spare) votes votes' (withCounts (totalize B spare) t optionTotal
                (fun K => voteCounts (votes K)) (resultsShownIf B t optionTotal (canVerify B o) guess)) v))) i) -
          ddhGap B (hybridReduction B
            (onKey (totalize B spare) (fun _ => 0) fun K j => if votes' K v j then B.gen else 0)
            (onKey (totalize B spare) (fun _ => 0) (simulatedGuess (totalize B spare) D H₀
              (embedBallot (totalize B spare) votes votes' (withCounts (totalize B spare) t optionTotal
                (fun K => voteCounts (votes K)) (resultsShownIf B t optionTotal (canVerify B o) guess)) v))) i)) := by
  obtain ⟨D₀, h⟩ := C68_election_private (totalize B spare) (hB.totalize hs) (totalize_total B spare) o ho t ht
  refine ⟨D₀, fun D hD H₀ kind n votes votes' hone hone' hc guess => ?_⟩
  have hpoll : ∀ votes : PublicKey E → Fin n → Fin o → Bool,
      (∀ K v, kind = .single → (List.ofFn (votes K v)).count true = 1) →
      fullElectionGame B D H₀ t (choicePoll kind votes) guess = electionGame (totalize B spare) D H₀ t
        (choicePoll kind votes) (resultsShownIf B t optionTotal (canVerify B o) guess) := by
    intro votes hone
    refine fullElectionGame_partial B D H₀ t (choicePoll kind votes) (canVerify B o) (fun H K => ?_) guess
    exact ⟨fun v tape => (EncryptedChoice.new (B.withHash H).withTape ⟨o, K⟩ (List.ofFn (votes K v))
        (List.ofFn tape)).map Prod.fst,
      fun v tape => (EncryptedChoice.new ((totalize B spare).withHash H).withTape ⟨o, K⟩ (List.ofFn (votes K v))
        (List.ofFn tape)).map Prod.fst, fun tapes => rfl, fun tapes => rfl, fun v =>
      choice_partial (B.withHash H) (hB.withHash H) (spare := spare) hs ho.ne' K (votes K v) (hone K v)⟩
  rw [hpoll votes hone, hpoll votes' hone', h D hD H₀ kind n votes votes' hone hone' hc]
  rfl

end

namespace Toy

theorem S101_spare : SpareEncoding S101 [0, 0] := by
  refine ⟨rfl, fun e h => ?_⟩
  have : ∀ e : ZMod 101, S101.serElem e ≠ some [0, 0] := by decide +kernel
  exact this e h

-- in this group some ballots cannot be created
example : (EncryptedChoice.new S101.withTape (kind := .multi) ⟨1, ⟨[2, 5], 5⟩⟩ [true] [0, 1, 2]) = none ∧
    (EncryptedChoice.new S101.withTape (kind := .multi) ⟨1, ⟨[2, 5], 5⟩⟩ [true] [3, 1, 2]).isSome = true := by
  decide +kernel

/-- An attacker that looks for panics. -/
def panicGuess (_ : List Entry → ZMod 101) (_ : PublicKey (ZMod 101))
    (ballot : Option (EncryptedChoice (ZMod 101) (ZMod 101) .single)) : ℚ := if ballot.isSome then 0 else 1

example : ∃ D₀ : Finset (List Entry), ∀ D, D₀ ⊆ D → ∀ H₀ : List Entry → ZMod 101, ∃ A A' : Fin 2 → ZMod 101 → ZMod 101 → ZMod 101 → ℚ,
    choiceGame S101 D H₀ .single (fun _ => ![true, false]) panicGuess -
      choiceGame S101 D H₀ .single (fun _ => ![false, true]) panicGuess = ∑ i, (ddhGap S101 (A i) - ddhGap S101 (A' i)) := by
  obtain ⟨D₀, h⟩ := C94_choice_private S101 S101_lawful [0, 0] S101_spare 2 (by norm_num)
  exact ⟨D₀, fun D hD H₀ => ⟨_, _, h D hD H₀ .single (fun _ => ![true, false]) (fun _ => ![false, true])
    (fun _ _ => by decide) (fun _ _ => by decide) panicGuess⟩⟩

example : ∃ D₀ : Finset (List Entry), ∀ D, D₀ ⊆ D → ∀ H₀ : List Entry → ZMod 101,
    ∃ A A' : Fin 3 → Fin 2 → ZMod 101 → ZMod 101 → ZMod 101 → ℚ,
    choicesGame S101 D H₀ .single (fun _ => exampleVotes 0) (fun H K ballots => panicGuess H K (ballots 0)) -
      choicesGame S101 D H₀ .single (fun _ => exampleVotes 2) (fun H K ballots => panicGuess H K (ballots 0)) =
      ∑ v, ∑ i, (ddhGap S101 (A v i) - ddhGap S101 (A' v i)) := by
  obtain ⟨D₀, h⟩ := C94_choices_private S101 S101_lawful [0, 0] S101_spare 2 (by norm_num)
  exact ⟨D₀, fun D hD H₀ => ⟨_, _, h D hD H₀ .single 3 (fun _ => exampleVotes 0) (fun _ => exampleVotes 2)
    (fun _ v _ => by revert v; decide) (fun _ v _ => by revert v; decide) _⟩⟩

example : ∃ D₀ : Finset (List Entry), ∀ D, D₀ ⊆ D → ∀ H₀ : List Entry → ZMod 101,
    ∃ A A' : Fin 3 → Fin 2 → ZMod 101 → ZMod 101 → ZMod 101 → ℚ,
    fullElectionGame S101 D H₀ exampleContexts (choicePoll .single fun _ => exampleVotes 0)
        (fun H K ballots results => panicGuess H K (ballots 0) * if (results 1).isSome then 1 else 2) -
      fullElectionGame S101 D H₀ exampleContexts (choicePoll .single fun _ => exampleVotes 2)
        (fun H K ballots results => panicGuess H K (ballots 0) * if (results 1).isSome then 1 else 2) =
      ∑ v, ∑ i, (ddhGap S101 (A v i) - ddhGap S101 (A' v i)) := by
  obtain ⟨D₀, h⟩ := C94_election_private S101 S101_lawful [0, 0] S101_spare 2 (by norm_num) exampleContexts
    exampleContexts_injective
  exact ⟨D₀, fun D hD H₀ => ⟨_, _, h D hD H₀ .single 3 (fun _ => exampleVotes 0) (fun _ => exampleVotes 2)
    (fun _ v _ => by revert v; decide) (fun _ v _ => by revert v; decide) (fun _ => by decide) _⟩⟩

end Toy

end ElasticElgamal
