import Verif.Spec.DkgElection
import Verif.Spec.VotingPrivacy

/-!
# Specifications: quadratic voting with a key made by distributed key generation
-/

set_option autoImplicit false

namespace ElasticElgamal.Spec

variable {F E : Type} [Field F] [Fintype F] [AddCommGroup E] [Module F E] [DecidableEq F] [DecidableEq E]

/-- A reduction from the decisional Diffie–Hellman problem `X`, `Y`, `Z` to attacks on values encrypted with range
proofs: `X` is the key of the honest participant in key generation, and the ciphertext of ring number `i` is made of
`Y` and `Z`. The attack may depend on the results of key generation. -/
noncomputable def dkgRangeReduction (B : Backend F E) (D : Finset (List Entry)) (H₀ : List Entry → F) {c : ℕ}
    (key : Params) (honest : Fin key.shares) (bad : Fin c → ℕ) (others : DkgStrategy F E key c)
    (range : PreparedRange E) (t : Transcript) (value : PublicKey E → ℕ)
    (attack : (Fin c → F) → KeyGen F E → (List Entry → F) → PublicKey E → Option (Ciphertext E × RangeProof F E) → ℚ)
    (i : Fin (rangeRings range)) (X Y Z : E) : ℚ :=
  mean fun shares : Fin c → F => mean fun proof : F × (Fin key.threshold → F) =>
  meanHash (D.filter fun q => ¬ ElectionData q) H₀ fun H =>
    let gen := simulatedKeyGen B key honest bad others shares proof H
    hybridReduction B (fun X => ringMessage B range (value ((gen X).key B X)))
      (fun X cts => simulatedRange B (D.filter ElectionData) (gen X).hash range t (attack shares (gen X))
        ((gen X).key B X) fun j => shiftCiphertext ((gen X).offset 0) (cts j)) i X Y Z

/-- Advantages of these reductions in the decisional Diffie–Hellman game, with the signs of the hybrid argument. -/
noncomputable def dkgRangeGaps (B : Backend F E) (D : Finset (List Entry)) (H₀ : List Entry → F) {c : ℕ}
    (key : Params) (honest : Fin key.shares) (bad : Fin c → ℕ) (others : DkgStrategy F E key c)
    (range : PreparedRange E) (t : Transcript) (value value' : PublicKey E → ℕ)
    (attack : (Fin c → F) → KeyGen F E → (List Entry → F) → PublicKey E → Option (Ciphertext E × RangeProof F E) → ℚ) : ℚ :=
  ∑ i, (ddhGap B (dkgRangeReduction B D H₀ key honest bad others range t value attack i) -
    ddhGap B (dkgRangeReduction B D H₀ key honest bad others range t value' attack i))

/-- The same for the ballot of voter `v`: votes one after the other, then the credit. Other ballots are created from
`votes'` (voters before `v`) and `votes`; proofs of possession and decryptions are simulated. -/
noncomputable def dkgVotingGaps (B : Backend F E) (D : Finset (List Entry)) (H₀ : List Entry → F) {n o c : ℕ}
    (key : Params) (honest : Fin key.shares) (bad : Fin c → ℕ) (others : DkgStrategy F E key c)
    (params : QuadraticVotingParams E) (votes votes' : PublicKey E → Fin n → Fin o → ℕ)
    (guess : (List Entry → F) → ThresholdView F E (QuadraticVotingBallot F E) n o c key.shares → ℚ) (v : Fin n) : ℚ :=
  let attack := fun (shares : Fin c → F) (gen : KeyGen F E) => embedVoter B params votes votes'
    (withDkg B key bad votesTotal (fun K => voteSums (votes K)) guess shares gen) v
  ∑ i, dkgRangeGaps B D H₀ key honest bad others params.voteCountRange (Transcript.new "quadratic_voting_variant")
      (fun K => votes K v i) (fun K => votes' K v i)
      (fun shares gen => embedRange B params.voteCountRange (Transcript.new "quadratic_voting_variant")
        (fun K => votes K v) (fun K => votes' K v)
        (votesAttack B params (costOf fun K => votes K v) (attack shares gen)) i) +
    dkgRangeGaps B D H₀ key honest bad others params.creditRange (Transcript.new "quadratic_voting_credit_range")
      (costOf fun K => votes K v) (costOf fun K => votes' K v)
      (fun shares gen => creditAttack B params (fun K => votes' K v) (attack shares gen))

/-- The algorithms for the Diffie–Hellman game used for voter `v`. -/
def dkgVotingReductions (B : Backend F E) (D : Finset (List Entry)) (H₀ : List Entry → F) {n o c : ℕ}
    (key : Params) (honest : Fin key.shares) (bad : Fin c → ℕ) (others : DkgStrategy F E key c)
    (params : QuadraticVotingParams E) (votes votes' : PublicKey E → Fin n → Fin o → ℕ)
    (guess : (List Entry → F) → ThresholdView F E (QuadraticVotingBallot F E) n o c key.shares → ℚ) (v : Fin n) :
    Set (E → E → E → ℚ) :=
  let attack := fun (shares : Fin c → F) (gen : KeyGen F E) => embedVoter B params votes votes'
    (withDkg B key bad votesTotal (fun K => voteSums (votes K)) guess shares gen) v
  { A | (∃ i r, ∃ w ∈ [votes, votes'], A = dkgRangeReduction B D H₀ key honest bad others params.voteCountRange
        (Transcript.new "quadratic_voting_variant") (fun K => w K v i)
        (fun shares gen => embedRange B params.voteCountRange (Transcript.new "quadratic_voting_variant")
          (fun K => votes K v) (fun K => votes' K v)
          (votesAttack B params (costOf fun K => votes K v) (attack shares gen)) i) r) ∨
      ∃ r, ∃ w ∈ [votes, votes'], A = dkgRangeReduction B D H₀ key honest bad others params.creditRange
        (Transcript.new "quadratic_voting_credit_range") (costOf fun K => w K v)
        (fun shares gen => creditAttack B params (fun K => votes' K v) (attack shares gen)) r }

/-- An attacker that knows the shares of the honest participant for `threshold` participants: it computes the secret of the
honest participant, adds its own ones, and decrypts the votes of voter `v`. -/
noncomputable def dkgVotesDecryptingGuess (B : Backend F E) {n o c : ℕ} {key : Params} (honest : Fin key.shares)
    (bad : Fin c → ℕ) (others : DkgStrategy F E key c) (v : Fin n) (votes : List ℕ) (H : List Entry → F)
    (view : ThresholdView F E (QuadraticVotingBallot F E) n o c key.shares) : ℚ :=
  let k := polyAt (0 : F) (interpolating (Finset.univ : Finset (Fin c)) (fun a => (bad a : F) + 1) view.corrupted) +
    offsetAt honest (others H view.publicInfo view.corrupted) 0
  if (view.ballots v).map (fun ballot => ballot.votes.map fun w => SecretKey.decryptToElement k w.ciphertext) =
    some (votes.map fun x : ℕ => (x : F) • B.gen) then 1 else 0

end ElasticElgamal.Spec
