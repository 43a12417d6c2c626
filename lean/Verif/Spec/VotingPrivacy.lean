import Verif.Spec.RangePrivacy
import Verif.Spec.Voting
import Verif.Spec.Threshold

/-!
# Specifications for the privacy of quadratic voting
-/

set_option autoImplicit false

namespace ElasticElgamal.Spec

variable {F E : Type} [Field F] [Fintype F] [AddCommGroup E] [Module F E]

/-- Number of random scalars used to create a ballot with `o` options. -/
def ballotDraws (params : QuadraticVotingParams E) (o : ℕ) : ℕ :=
  o * rangeDraws params.voteCountRange + (rangeDraws params.creditRange + (o * 2 + 1))

/-- The ballot created with the given random scalars. -/
def votingOutput [DecidableEq F] [DecidableEq E] (B : Backend F E) (params : QuadraticVotingParams E) (votes : List ℕ)
    (tape : List F) : Option (QuadraticVotingBallot F E) :=
  (QuadraticVotingBallot.new B.withTape params votes tape).map Prod.fst

/-- Probability that the attacker outputs 1 for a random key and a random hash function, if the ballot is created from the
votes. Votes may depend on the public key; the attacker sees the public key, the ballot and the hash function. -/
noncomputable def votingGame [DecidableEq F] [DecidableEq E] (B : Backend F E) (D : Finset (List Entry))
    (H₀ : List Entry → F) (params : QuadraticVotingParams E) {o : ℕ} (votes : PublicKey E → Fin o → ℕ)
    (guess : (List Entry → F) → PublicKey E → Option (QuadraticVotingBallot F E) → ℚ) : ℚ :=
  mean fun k : F =>
    match Keypair.generate B.withTape [k] with
    | none => 0
    | some (keypair, _) => meanHash D H₀ fun H => mean fun tape : Fin (ballotDraws params o) → F =>
      guess H keypair.publicKey (votingOutput (B.withHash H) { params with receiver := keypair.publicKey }
        (List.ofFn (votes keypair.publicKey)) (List.ofFn tape))

/-- The scalars in a sum-of-squares proof. -/
abbrev SumSqScalars (F : Type) (o : ℕ) : Type := F × (Fin o → F × F) × F

/-- The proof made of given scalars. -/
def makeSumSq {o : ℕ} (p : SumSqScalars F o) : SumOfSquaresProof F :=
  ⟨p.1, (List.ofFn p.2.1).flatMap fun q => [q.1, q.2], p.2.2⟩

/-- The value of the hash function that makes the proof valid. -/
def sumSqPoint [DecidableEq F] (B : Backend F E) (K : PublicKey E) (cts : List (Ciphertext E)) (sum : Ciphertext E)
    (t : Transcript) (proof : SumOfSquaresProof F) : List (List Entry × F) :=
  match proof.verify B cts sum K t with
  | none => []
  | some (_, t') => [(t'.log, proof.challenge)]

/-- Ballot made of its parts, if all of them were created. -/
def makeBallot {o : ℕ} (votes : Fin o → Option (Ciphertext E × RangeProof F E))
    (credit : Option (Ciphertext E × RangeProof F E)) (proof : Option (SumOfSquaresProof F)) :
    Option (QuadraticVotingBallot F E) := do
  let votes ← (List.ofFn votes).mapM id
  let credit ← credit
  let proof ← proof
  return ⟨votes.map fun v => ⟨v.1, v.2⟩, ⟨credit.1, credit.2⟩, proof⟩

/-- The ciphertext in the output of range encryption. -/
def ciphertextOf (out : Option (Ciphertext E × RangeProof F E)) : Ciphertext E :=
  (out.map Prod.fst).getD Ciphertext.zero

/-- The attacker with a simulated sum-of-squares proof: its scalars are chosen at random, then the hash function is changed
such that the proof is valid. -/
noncomputable def simulatedSum [DecidableEq F] (B : Backend F E) {o : ℕ}
    (guess : (List Entry → F) → PublicKey E → Option (QuadraticVotingBallot F E) → ℚ) (H : List Entry → F)
    (K : PublicKey E) (votes : Fin o → Option (Ciphertext E × RangeProof F E))
    (credit : Option (Ciphertext E × RangeProof F E)) : ℚ :=
  mean fun p : SumSqScalars F o =>
    guess (program H (sumSqPoint (B.withHash H) K (List.ofFn fun i => ciphertextOf (votes i)) (ciphertextOf credit)
      (Transcript.new "quadratic_voting_credit_equiv") (makeSumSq p))) K (makeBallot votes credit (some (makeSumSq p)))

/-- An attacker against the encrypted votes, who creates the other parts of the ballot. -/
noncomputable def votesAttack [DecidableEq F] [DecidableEq E] (B : Backend F E) (params : QuadraticVotingParams E)
    {o : ℕ} (credit : PublicKey E → ℕ)
    (guess : (List Entry → F) → PublicKey E → Option (QuadraticVotingBallot F E) → ℚ) (H : List Entry → F)
    (K : PublicKey E) (outs : Fin o → Option (Ciphertext E × RangeProof F E)) : ℚ :=
  mean fun tape : Fin (rangeDraws params.creditRange) → F => simulatedSum B guess H K outs
    (rangeOutput (B.withHash H) K params.creditRange (Transcript.new "quadratic_voting_credit_range") (credit K)
      (List.ofFn tape))

/-- An attacker against the encrypted credit, who creates the other parts of the ballot. -/
noncomputable def creditAttack [DecidableEq F] [DecidableEq E] (B : Backend F E) (params : QuadraticVotingParams E)
    {o : ℕ} (votes : PublicKey E → Fin o → ℕ)
    (guess : (List Entry → F) → PublicKey E → Option (QuadraticVotingBallot F E) → ℚ) (H : List Entry → F)
    (K : PublicKey E) (out : Option (Ciphertext E × RangeProof F E)) : ℚ :=
  mean fun tapes : Fin o → Fin (rangeDraws params.voteCountRange) → F => simulatedSum B guess H K
    (fun i => rangeOutput (B.withHash H) K params.voteCountRange (Transcript.new "quadratic_voting_variant") (votes K i)
      (List.ofFn (tapes i))) out

/-- The credit used by votes. -/
def costOf {o : ℕ} (votes : PublicKey E → Fin o → ℕ) (K : PublicKey E) : ℕ := cost (List.ofFn (votes K))

/-- Advantages in the decisional Diffie–Hellman game of the algorithms made of an attacker against range encryption, with
the signs of the hybrid argument. -/
noncomputable def rangeGaps [DecidableEq F] [DecidableEq E] (B : Backend F E) (D : Finset (List Entry))
    (H₀ : List Entry → F) (range : PreparedRange E) (t : Transcript) (value value' : PublicKey E → ℕ)
    (guess : (List Entry → F) → PublicKey E → Option (Ciphertext E × RangeProof F E) → ℚ) : ℚ :=
  ∑ i, (ddhGap B (hybridReduction B (onKey B (fun _ => 0) fun K => ringMessage B range (value K))
      (onKey B (fun _ => 0) (simulatedRange B D H₀ range t guess)) i) -
    ddhGap B (hybridReduction B (onKey B (fun _ => 0) fun K => ringMessage B range (value' K))
      (onKey B (fun _ => 0) (simulatedRange B D H₀ range t guess)) i))

/-- The same for a ballot: votes one after the other, then the credit. -/
noncomputable def votingGaps [DecidableEq F] [DecidableEq E] (B : Backend F E) (D : Finset (List Entry))
    (H₀ : List Entry → F) (params : QuadraticVotingParams E) {o : ℕ} (votes votes' : PublicKey E → Fin o → ℕ)
    (guess : (List Entry → F) → PublicKey E → Option (QuadraticVotingBallot F E) → ℚ) : ℚ :=
  ∑ v, rangeGaps B D H₀ params.voteCountRange (Transcript.new "quadratic_voting_variant")
      (fun K => votes K v) (fun K => votes' K v)
      (embedRange B params.voteCountRange (Transcript.new "quadratic_voting_variant") votes votes'
        (votesAttack B params (costOf votes) guess) v) +
    rangeGaps B D H₀ params.creditRange (Transcript.new "quadratic_voting_credit_range") (costOf votes) (costOf votes')
      (creditAttack B params votes' guess)

/-- The game with several voters. -/
noncomputable def votersGame [DecidableEq F] [DecidableEq E] (B : Backend F E) (D : Finset (List Entry))
    (H₀ : List Entry → F) (params : QuadraticVotingParams E) {n o : ℕ} (votes : PublicKey E → Fin n → Fin o → ℕ)
    (guess : (List Entry → F) → PublicKey E → (Fin n → Option (QuadraticVotingBallot F E)) → ℚ) : ℚ :=
  mean fun k : F =>
    match Keypair.generate B.withTape [k] with
    | none => 0
    | some (keypair, _) => meanHash D H₀ fun H => mean fun tapes : Fin n → Fin (ballotDraws params o) → F =>
      guess H keypair.publicKey fun v => votingOutput (B.withHash H) { params with receiver := keypair.publicKey }
        (List.ofFn (votes keypair.publicKey v)) (List.ofFn (tapes v))

/-- An attacker against one voter, made of an attacker against `n` voters: the given ballot is number `v`, those
before and after are created from `votes'` and `votes`. -/
noncomputable def embedVoter [DecidableEq F] [DecidableEq E] (B : Backend F E) (params : QuadraticVotingParams E)
    {n o : ℕ} (votes votes' : PublicKey E → Fin n → Fin o → ℕ)
    (guess : (List Entry → F) → PublicKey E → (Fin n → Option (QuadraticVotingBallot F E)) → ℚ) (v : Fin n)
    (H : List Entry → F) (K : PublicKey E) (out : Option (QuadraticVotingBallot F E)) : ℚ :=
  mean fun tapes : Fin n → Fin (ballotDraws params o) → F => guess H K fun i =>
    if i = v then out
    else votingOutput (B.withHash H) { params with receiver := K }
      (List.ofFn (if i < v then votes' K i else votes K i)) (List.ofFn (tapes i))

/-- The algorithms for the Diffie–Hellman game made of an attacker against range encryption. -/
def rangeReductions [DecidableEq F] [DecidableEq E] (B : Backend F E) (D : Finset (List Entry))
    (H₀ : List Entry → F) (range : PreparedRange E) (t : Transcript) (value value' : PublicKey E → ℕ)
    (guess : (List Entry → F) → PublicKey E → Option (Ciphertext E × RangeProof F E) → ℚ) :
    Set (E → E → E → ℚ) :=
  { A | (∃ i, A = hybridReduction B (onKey B (fun _ => 0) fun K => ringMessage B range (value K))
        (onKey B (fun _ => 0) (simulatedRange B D H₀ range t guess)) i) ∨
      ∃ i, A = hybridReduction B (onKey B (fun _ => 0) fun K => ringMessage B range (value' K))
        (onKey B (fun _ => 0) (simulatedRange B D H₀ range t guess)) i }

/-- The algorithms for the Diffie–Hellman game made of an attacker against the ballots of several voters. -/
def votersReductions [DecidableEq F] [DecidableEq E] (B : Backend F E) (D : Finset (List Entry))
    (H₀ : List Entry → F) (params : QuadraticVotingParams E) {n o : ℕ} (votes votes' : PublicKey E → Fin n → Fin o → ℕ)
    (guess : (List Entry → F) → PublicKey E → (Fin n → Option (QuadraticVotingBallot F E)) → ℚ) :
    Set (E → E → E → ℚ) :=
  { A | ∃ v, (∃ i, A ∈ rangeReductions B D H₀ params.voteCountRange (Transcript.new "quadratic_voting_variant")
        (fun K => votes K v i) (fun K => votes' K v i)
        (embedRange B params.voteCountRange (Transcript.new "quadratic_voting_variant") (fun K => votes K v)
          (fun K => votes' K v)
          (votesAttack B params (costOf fun K => votes K v) (embedVoter B params votes votes' guess v)) i)) ∨
      A ∈ rangeReductions B D H₀ params.creditRange (Transcript.new "quadratic_voting_credit_range")
        (costOf fun K => votes K v) (costOf fun K => votes' K v)
        (creditAttack B params (fun K => votes' K v) (embedVoter B params votes votes' guess v)) }

/-- The sum of encrypted votes for an option over all ballots. -/
def votesTotal {n o : ℕ} (ballots : Fin n → Option (QuadraticVotingBallot F E)) (j : Fin o) : Ciphertext E :=
  ((tally o (List.ofFn fun v => ((ballots v).map fun ballot => ballot.votes.map (·.ciphertext)).getD []))[j.1]?).getD
    Ciphertext.zero

/-- A poll with quadratic voting. -/
def votingPoll [DecidableEq F] [DecidableEq E] {n o : ℕ} (params : QuadraticVotingParams E)
    (votes : PublicKey E → Fin n → Fin o → ℕ) : Poll F E (QuadraticVotingBallot F E) n o (ballotDraws params o) where
  ballots B K tapes v := votingOutput B { params with receiver := K } (List.ofFn (votes K v)) (List.ofFn (tapes v))
  totals := votesTotal

/-- Totals of votes for every option. -/
def voteSums {n o : ℕ} (votes : Fin n → Fin o → ℕ) (j : Fin o) : ℕ := (List.ofFn fun v => votes v j).sum

/-- An attacker that knows the shares of `threshold` participants: it computes the secret key and decrypts the votes of
voter `v`. -/
noncomputable def votesDecryptingGuess [DecidableEq E] (B : Backend F E) {n o c shares : ℕ} (bad : Fin c → ℕ) (v : Fin n)
    (votes : List ℕ) (_ : List Entry → F) (view : ThresholdView F E (QuadraticVotingBallot F E) n o c shares) : ℚ :=
  let k := polyAt (0 : F) (interpolating (Finset.univ : Finset (Fin c)) (fun a => (bad a : F) + 1) view.corrupted)
  if (view.ballots v).map (fun ballot => ballot.votes.map fun w => SecretKey.decryptToElement k w.ciphertext) =
    some (votes.map fun x : ℕ => (x : F) • B.gen) then 1 else 0

end ElasticElgamal.Spec
