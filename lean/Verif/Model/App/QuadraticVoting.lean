import Verif.Model.Proofs.Range
import Verif.Model.Proofs.SumOfSquares

/-!
# Quadratic voting

Models `src/app/quadratic_voting.rs`.
-/

set_option autoImplicit false

namespace ElasticElgamal

variable {F E : Type}

/-- `src/app/quadratic_voting.rs:130-132`: first loop of `isqrt`. -/
def isqrtStart (x powerOf4 : Nat) : Nat :=
  if powerOf4 > x then isqrtStart x (powerOf4 / 4) else powerOf4
termination_by powerOf4
decreasing_by omega

/-- `src/app/quadratic_voting.rs:133-141`: second loop of `isqrt`; `u64` operations follow the build
profile (`none` = overflow panic). -/
def isqrtLoop (dbg : Bool) (x root powerOf4 : Nat) : Option Nat :=
  if powerOf4 > 0 then
    match addU64 dbg root powerOf4 with
    | none => none
    | some sum =>
      if x ≥ sum then
        match addU64 dbg (root / 2) powerOf4 with
        | none => none
        | some root => isqrtLoop dbg (x - sum) root (powerOf4 / 4)
      else isqrtLoop dbg x (root / 2) (powerOf4 / 4)
  else some root
termination_by powerOf4
decreasing_by all_goals omega

/-- `src/app/quadratic_voting.rs:127-143` `isqrt`. -/
def isqrt (dbg : Bool) (x : Nat) : Option Nat := isqrtLoop dbg x 0 (isqrtStart x (2 ^ 62))

/-- `src/app/quadratic_voting.rs:335-354` `QuadraticVotingError`. -/
inductive QuadraticVotingError where
  | Variant (index : Nat) (error : VerificationError)
  | CreditRange (error : VerificationError)
  | CreditEquivalence (error : VerificationError)
  | OptionsLenMismatch (expected actual : Nat)
  deriving DecidableEq

/-- `src/app/quadratic_voting.rs:47-52` `QuadraticVotingParams`. -/
structure QuadraticVotingParams (E : Type) where
  voteCountRange : PreparedRange E
  creditRange : PreparedRange E
  optionsCount : Nat
  receiver : PublicKey E

namespace QuadraticVotingParams

/-- `src/app/quadratic_voting.rs:63-76` `QuadraticVotingParams::new`; `est` is `lower_len_estimate`. -/
def new [Field F] [AddCommGroup E] [Module F E] (B : Backend F E) (est : Nat → Nat)
    (receiver : PublicKey E) (options credits : Nat) : Option (QuadraticVotingParams E) := do
  guard (options > 0)
  guard (credits > 0)
  let maxVotes ← isqrt B.debug credits
  let voteCountRange ← RangeDecomposition.optimal B.debug est (← addU64 B.debug maxVotes 1)
  let creditRange ← RangeDecomposition.optimal B.debug est (← addU64 B.debug credits 1)
  let voteCountRange ← PreparedRange.new B voteCountRange
  let creditRange ← PreparedRange.new B creditRange
  return { voteCountRange, creditRange, optionsCount := options, receiver }

/-- `src/app/quadratic_voting.rs:89-91` `credits`. -/
def credits (dbg : Bool) (params : QuadraticVotingParams E) : Option Nat := do
  subU64 dbg (← params.creditRange.inner.upperBound dbg) 1

/-- `src/app/quadratic_voting.rs:94-96` `max_votes`. -/
def maxVotes (dbg : Bool) (params : QuadraticVotingParams E) : Option Nat := do
  subU64 dbg (← params.voteCountRange.inner.upperBound dbg) 1

/-- `src/app/quadratic_voting.rs:104-111` `set_max_votes`; returns the updated parameters. -/
def setMaxVotes [Field F] [AddCommGroup E] [Module F E] (B : Backend F E) (est : Nat → Nat)
    (params : QuadraticVotingParams E) (maxVotes : Nat) : Option (QuadraticVotingParams E) := do
  let square ← mulU64 B.debug maxVotes maxVotes
  let credits ← params.credits B.debug
  guard (square ≤ credits)
  let decomposition ← RangeDecomposition.optimal B.debug est (← addU64 B.debug maxVotes 1)
  let voteCountRange ← PreparedRange.new B decomposition
  return { params with voteCountRange }

/-- `src/app/quadratic_voting.rs:113-122` `check_options_count`. -/
def checkOptionsCount (params : QuadraticVotingParams E) (actualCount : Nat) :
    Except QuadraticVotingError Unit :=
  if params.optionsCount = actualCount then .ok ()
  else .error (.OptionsLenMismatch params.optionsCount actualCount)

end QuadraticVotingParams

/-- `src/app/quadratic_voting.rs:214-217` `CiphertextWithRangeProof`. -/
structure CiphertextWithRangeProof (F E : Type) where
  ciphertext : Ciphertext E
  rangeProof : RangeProof F E
  deriving DecidableEq

/-- `src/app/quadratic_voting.rs:205-209` `QuadraticVotingBallot`. -/
structure QuadraticVotingBallot (F E : Type) where
  votes : List (CiphertextWithRangeProof F E)
  credit : CiphertextWithRangeProof F E
  creditEquivalenceProof : SumOfSquaresProof F
  deriving DecidableEq

namespace QuadraticVotingBallot

/-- `src/app/quadratic_voting.rs:244`: `votes.iter().map(|&x| x * x).sum::<u64>()`. -/
def creditOf (dbg : Bool) (votes : List Nat) : Option Nat :=
  votes.foldlM (fun acc x => do addU64 dbg acc (← mulU64 dbg x x)) 0

variable [Field F] [AddCommGroup E] [Module F E] (B : Backend F E)

/-- `src/app/quadratic_voting.rs:246-258`: encrypt all votes. -/
def encryptVotes [DecidableEq F] [DecidableEq E] (receiver : PublicKey E)
    (voteCountRange : PreparedRange E) : List Nat → B.Rng →
    Option (List (CiphertextWithValue F E × RangeProof F E) × B.Rng)
  | [], rng => some ([], rng)
  | voteCount :: rest, rng => do
    let ((ciphertext, proof), _, rng) ← RangeProof.new B receiver voteCountRange voteCount
      (Transcript.new "quadratic_voting_variant") rng
    let (encrypted, rng) ← encryptVotes receiver voteCountRange rest rng
    return ((ciphertext.generalize, proof) :: encrypted, rng)

/-- `src/app/quadratic_voting.rs:234-284` `QuadraticVotingBallot::new`. -/
def new [DecidableEq F] [DecidableEq E] (params : QuadraticVotingParams E) (votes : List Nat)
    (rng : B.Rng) : Option (QuadraticVotingBallot F E × B.Rng) := do
  guard (votes.length = params.optionsCount)
  let credit ← creditOf B.debug votes
  let (votes, rng) ← encryptVotes B params.receiver params.voteCountRange votes rng
  let ((credit, creditRangeProof), _, rng) ← RangeProof.new B params.receiver params.creditRange
    credit (Transcript.new "quadratic_voting_credit_range") rng
  let credit := credit.generalize
  let (creditEquivalenceProof, _, rng) ← SumOfSquaresProof.new B (votes.map Prod.fst) credit
    params.receiver (Transcript.new "quadratic_voting_credit_equiv") rng
  return ({ votes := votes.map fun (ciphertext, proof) => ⟨ciphertext.ciphertext, proof⟩,
            credit := ⟨credit.ciphertext, creditRangeProof⟩,
            creditEquivalenceProof }, rng)

/-- `src/app/quadratic_voting.rs:297-307`: verify range proofs of all votes; `i` is the index of the
head. -/
def verifyVotes [DecidableEq F] (receiver : PublicKey E) (voteCountRange : PreparedRange E) :
    Nat → List (CiphertextWithRangeProof F E) → Option (Except QuadraticVotingError Unit)
  | _, [] => some (.ok ())
  | i, voteCount :: rest => do
    let (result, _) ← voteCount.rangeProof.verify B receiver voteCountRange voteCount.ciphertext
      (Transcript.new "quadratic_voting_variant")
    match result with
    | .error error => return .error (.Variant i error)
    | .ok () => verifyVotes receiver voteCountRange (i + 1) rest

/-- `src/app/quadratic_voting.rs:291-329` `QuadraticVotingBallot::verify`. -/
def verify [DecidableEq F] (self : QuadraticVotingBallot F E) (params : QuadraticVotingParams E) :
    Option (Except QuadraticVotingError (List (Ciphertext E))) :=
  match params.checkOptionsCount self.votes.length with
  | .error e => some (.error e)
  | .ok () => do
    match ← verifyVotes B params.receiver params.voteCountRange 0 self.votes with
    | .error e => return .error e
    | .ok () =>
      let (result, _) ← self.credit.rangeProof.verify B params.receiver params.creditRange
        self.credit.ciphertext (Transcript.new "quadratic_voting_credit_range")
      match result with
      | .error e => return .error (.CreditRange e)
      | .ok () =>
        let (result, _) ← self.creditEquivalenceProof.verify B
          (self.votes.map (·.ciphertext)) self.credit.ciphertext params.receiver
          (Transcript.new "quadratic_voting_credit_equiv")
        match result with
        | .error e => return .error (.CreditEquivalence e)
        | .ok () => return .ok (self.votes.map (·.ciphertext))

end QuadraticVotingBallot

end ElasticElgamal
