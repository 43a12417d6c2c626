import Verif.Model.App.Choice
import Verif.Model.App.QuadraticVoting
import Verif.Model.Sharing.Basic

/-!
# The example programs

Models `examples/voting.rs` and `examples/range.rs`.

Simplifications: printing (`println!`, `serde_json`) is not modelled, except that the programs return what they
print about votes and tallies; `clap` is modelled only through `Args::parse_talliers`; the handle `rand::rng()` of
the thread-local generator is one state threaded through the program.
-/

set_option autoImplicit false

namespace ElasticElgamal.Examples

open ElasticElgamal

variable {F E : Type}

/-- Functions of the external crate `rand` used by the examples: `random_range(0..n)` for `n > 0`, `random_bool`,
the index picked by `choose_mut` in a non-empty slice of the given length, and the indexes picked by
`IteratorRandom::sample` (length of the iterator, requested amount). -/
structure RandExt (R : Type) where
  randomRange : Nat → R → Nat × R
  randomBool : R → Bool × R
  chooseIndex : Nat → R → Nat × R
  sample : Nat → Nat → R → List Nat × R

/-- `rng.random_range(0..n)`, which panics for the empty range. -/
def RandExt.randomRange? {R : Type} (ext : RandExt R) (n : Nat) (rng : R) : Option (Nat × R) := do
  guard (n > 0)
  return ext.randomRange n rng

/-- `examples/voting.rs:29-53` `Args`, without `quadratic_voting` and `group`, which select the function to run. -/
structure Args where
  optionsCount : Nat
  votesCount : Nat
  talliers : Params
  creditAmount : Nat
  deriving DecidableEq

/-- `usize::from_str` after the sign: decimal digits without overflow. -/
def parseDigits : Nat → List Char → Option Nat
  | acc, [] => some acc
  | acc, c :: rest => do
    guard c.isDigit
    let acc := acc * 10 + (c.toNat - '0'.toNat)
    guard (acc < 2 ^ 64)
    parseDigits acc rest

/-- `usize::from_str` (Rust's standard library): an optional `+` and at least one digit. -/
def parseUsize : List Char → Option Nat
  | [] => none
  | '+' :: rest => do
    guard (rest ≠ [])
    parseDigits 0 rest
  | s => parseDigits 0 s

/-- `str::split_once('/')`. -/
def splitOnce : List Char → Option (List Char × List Char)
  | [] => none
  | c :: rest =>
    if c = '/' then some ([], rest)
    else do
      let (head, tail) ← splitOnce rest
      return (c :: head, tail)

/-- `examples/voting.rs:75-83` `parse_talliers`; here `none` is the returned error. -/
def parseTalliers (s : List Char) : Option Params := do
  let (threshold, count) ← splitOnce s
  let threshold ← parseUsize threshold
  let shares ← parseUsize count
  return { shares, threshold }

section
variable [Field F] [AddCommGroup E] [Module F E] [DecidableEq F] [DecidableEq E]
variable (B : Backend F E) (ext : RandExt B.Rng)

/-- `examples/voting.rs:105-120` `initialize_talliers`. -/
def initializeTalliers (args : Args) (rng : B.Rng) :
    Option ((PublicKeySet E × List (ActiveParticipant F E)) × B.Rng) := do
  let (dealer, rng) ← Dealer.new B args.talliers rng
  let (publicPoly, publicPolyProof) := dealer.publicInfo
  match ← PublicKeySet.new B args.talliers publicPoly publicPolyProof with
  | .error _ => none
  | .ok keySet =>
    let talliers ← (List.range args.talliers.shares).mapM fun i => do
      match ← ActiveParticipant.new B keySet i (← dealer.secretShareForParticipant i) with
      | .error _ => none
      | .ok tallier => some tallier
    return ((keySet, talliers), rng)

/-- `examples/voting.rs:142-167`: shares of the sampled talliers, transferred as bytes and verified. -/
def decryptionShares (keySet : PublicKeySet E) (talliers : List (ActiveParticipant F E))
    (optionTotals : Ciphertext E) : List Nat → B.Rng → Option (List (Nat × VerifiableDecryption E) × B.Rng)
  | [], rng => some ([], rng)
  | j :: rest, rng => do
    let tallier ← talliers[j]?
    let ((share, proof), rng) ← tallier.decryptShare B optionTotals rng
    let bytes ← share.toBytes B
    let candidateShare ← CandidateDecryption.fromBytes B bytes
    match ← keySet.verifyShare B candidateShare optionTotals j proof with
    | .error _ => none
    | .ok share =>
      let (shares, rng) ← decryptionShares keySet talliers optionTotals rest rng
      return ((j, share) :: shares, rng)

/-- `examples/voting.rs:137-176`: the loop over options; returns the printed tallies. -/
def tallyLoop (keySet : PublicKeySet E) (talliers : List (ActiveParticipant F E)) (table : DiscreteLogTable) :
    List (Ciphertext E × Nat) → B.Rng → Option (List Nat × B.Rng)
  | [], rng => some ([], rng)
  | (optionTotals, expected) :: rest, rng => do
    let (indexes, rng) := ext.sample talliers.length keySet.params.threshold rng
    let (shares, rng) ← decryptionShares B keySet talliers optionTotals indexes rng
    let combined ← (← keySet.params.combineShares F shares)
    let optionTally ← (← combined.decrypt B optionTotals table)
    guard (optionTally = expected)
    let (tallies, rng) ← tallyLoop keySet talliers table rest rng
    return (optionTally :: tallies, rng)

/-- `examples/voting.rs:122-177` `tally`; returns the printed tallies. -/
def tallyAll (talliers : List (ActiveParticipant F E)) (keySet : PublicKeySet E)
    (encryptedTotals : List (Ciphertext E)) (expectedTotals : List Nat) (maxVotes : Nat) (rng : B.Rng) :
    Option (List Nat × B.Rng) := do
  let lookupTable ← DiscreteLogTable.new B (List.range (maxVotes + 1))
  tallyLoop B ext keySet talliers lookupTable (encryptedTotals.zip expectedTotals) rng

/-- `examples/voting.rs:201-203, 256-258`: `for (total, vote) in encrypted_totals.iter_mut().zip(votes)`. -/
def addCiphertexts : List (Ciphertext E) → List (Ciphertext E) → List (Ciphertext E)
  | total :: totals, vote :: votes => (total.add vote) :: addCiphertexts totals votes
  | totals, _ => totals

/-- `examples/voting.rs:189-204`: the loop over voters; returns the printed choices. -/
def voteLoop (params : ChoiceParams E .single) (optionsCount : Nat) : Nat → List Nat → List (Ciphertext E) → B.Rng →
    Option ((List Nat × List Nat × List (Ciphertext E)) × B.Rng)
  | 0, expected, encrypted, rng => some (([], expected, encrypted), rng)
  | n + 1, expected, encrypted, rng => do
    let (choice, rng) ← ext.randomRange? optionsCount rng
    let expected := expected.set choice (← addU64 B.debug (← expected[choice]?) 1)
    let (ballot, rng) ← EncryptedChoice.single B params choice rng
    match ← ballot.verify B params with
    | .error _ => none
    | .ok votes =>
      let ((choices, expected, encrypted), rng) ←
        voteLoop params optionsCount n expected (addCiphertexts encrypted votes) rng
      return ((choice :: choices, expected, encrypted), rng)

/-- `examples/voting.rs:179-213` `vote`; returns the printed choices and the printed tallies. -/
def vote (args : Args) (rng : B.Rng) : Option (List Nat × List Nat) := do
  let ((keySet, talliers), rng) ← initializeTalliers B args rng
  let choiceParams ← ChoiceParams.single keySet.sharedKey args.optionsCount
  let ((choices, expected, encrypted), rng) ← voteLoop B ext choiceParams args.optionsCount args.votesCount
    (List.replicate args.optionsCount 0) (List.replicate args.optionsCount Ciphertext.zero) rng
  let (tallies, _) ← tallyAll B ext talliers keySet encrypted expected args.votesCount rng
  return (choices, tallies)

/-- `examples/voting.rs:235-243`: the votes of one voter; `credit` (lines 215-217) is the same sum of squares as in
`QuadraticVotingBallot::new`. The first argument bounds the number of iterations (`none` when exceeded); `castVotes`
below passes a bound that is never exceeded. -/
def castLoop (dbg : Bool) {R : Type} (ext : RandExt R) (creditAmount : Nat) : Nat → List Nat → R →
    Option (List Nat × R)
  | 0, _, _ => none
  | fuel + 1, votes, rng =>
    let (more, rng) := ext.randomBool rng
    if more then do
      guard (votes ≠ [])
      let (i, rng) := ext.chooseIndex votes.length rng
      let newVotes := votes.set i (← addU64 dbg (← votes[i]?) 1)
      let credit ← QuadraticVotingBallot.creditOf dbg newVotes
      if credit > creditAmount then return (votes, rng)
      else castLoop dbg ext creditAmount fuel newVotes rng
    else return (votes, rng)

/-- `examples/voting.rs:234-243`. -/
def castVotes (dbg : Bool) {R : Type} (ext : RandExt R) (optionsCount creditAmount : Nat) (rng : R) :
    Option (List Nat × R) :=
  castLoop dbg ext creditAmount (creditAmount + 1) (List.replicate optionsCount 0) rng

/-- `examples/voting.rs:246-248`: `for (exp_total, &vote) in expected_totals.iter_mut().zip(&votes)`. -/
def addTotals (dbg : Bool) : List Nat → List Nat → Option (List Nat)
  | total :: totals, vote :: votes => do
    let total ← addU64 dbg total vote
    let totals ← addTotals dbg totals votes
    return total :: totals
  | totals, _ => some totals

/-- `examples/voting.rs:233-259`: the loop over voters; returns the printed votes. -/
def quadraticVoteLoop (params : QuadraticVotingParams E) (optionsCount creditAmount : Nat) : Nat → List Nat →
    List (Ciphertext E) → B.Rng → Option ((List (List Nat) × List Nat × List (Ciphertext E)) × B.Rng)
  | 0, expected, encrypted, rng => some (([], expected, encrypted), rng)
  | n + 1, expected, encrypted, rng => do
    let (votes, rng) ← castVotes B.debug ext optionsCount creditAmount rng
    let expected ← addTotals B.debug expected votes
    let (ballot, rng) ← QuadraticVotingBallot.new B params votes rng
    match ← ballot.verify B params with
    | .error _ => none
    | .ok cts =>
      let ((cast, expected, encrypted), rng) ←
        quadraticVoteLoop params optionsCount creditAmount n expected (addCiphertexts encrypted cts) rng
      return ((votes :: cast, expected, encrypted), rng)

/-- `examples/voting.rs:219-269` `quadratic_vote`; returns the printed votes and the printed tallies. `est` is the
estimate used by `RangeDecomposition::optimal`. -/
def quadraticVote (est : Nat → Nat) (args : Args) (rng : B.Rng) : Option (List (List Nat) × List Nat) := do
  let ((keySet, talliers), rng) ← initializeTalliers B args rng
  let voteParams ← QuadraticVotingParams.new B est keySet.sharedKey args.optionsCount args.creditAmount
  let ((cast, expected, encrypted), rng) ← quadraticVoteLoop B ext voteParams args.optionsCount args.creditAmount
    args.votesCount (List.replicate args.optionsCount 0) (List.replicate args.optionsCount Ciphertext.zero) rng
  let maxVotes ← mulU64 B.debug args.votesCount (← voteParams.maxVotes B.debug)
  let (tallies, _) ← tallyAll B ext talliers keySet encrypted expected maxVotes rng
  return (cast, tallies)

/-- `examples/range.rs:7` `UPPER_BOUND`. -/
def upperBound : Nat := 100

/-- `examples/range.rs:18-43`: the loop; returns the printed secret values and the decrypted ones. -/
def rangeLoop (receiver : Keypair F E) (range : PreparedRange E) (table : DiscreteLogTable) : Nat → B.Rng →
    Option (List (Nat × Nat) × B.Rng)
  | 0, rng => some ([], rng)
  | n + 1, rng => do
    let (secretValue, rng) ← ext.randomRange? upperBound rng
    let ((ciphertext, proof), rng) ← receiver.publicKey.encryptRange B range secretValue rng
    match ← receiver.publicKey.verifyRange B range ciphertext proof with
    | .error _ => none
    | .ok () =>
      let decrypted ← (← SecretKey.decrypt B receiver.secret ciphertext table)
      guard (decrypted = secretValue)
      let (values, rng) ← rangeLoop receiver range table n rng
      return ((secretValue, decrypted) :: values, rng)

/-- `examples/range.rs:9-44` `main`. -/
def rangeMain (est : Nat → Nat) (rng : B.Rng) : Option (List (Nat × Nat)) := do
  let range ← RangeDecomposition.optimal B.debug est upperBound
  let _ ← range.upperBound B.debug
  let (receiver, rng) ← Keypair.generate B rng
  let range ← PreparedRange.new B range
  let lookupTable ← DiscreteLogTable.new B (List.range upperBound)
  let (values, _) ← rangeLoop B ext receiver range lookupTable 5 rng
  return values

end

end ElasticElgamal.Examples
