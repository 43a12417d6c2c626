import Verif.Spec.Oracle
import Verif.Model.App.Choice
import Verif.Model.Decryption
import Verif.Spec.Choice
import Mathlib.Data.Fintype.Prod
import Mathlib.Algebra.BigOperators.Group.Finset.Basic
import Mathlib.Algebra.Module.Basic
import Mathlib.Algebra.Field.Rat

/-!
# Specifications: means, programmed hash functions, the decisional Diffie–Hellman game
-/

set_option autoImplicit false

namespace ElasticElgamal.Spec

/-- The expected value of `f` for a uniformly random argument. -/
def mean {α : Type} [Fintype α] (f : α → ℚ) : ℚ := (∑ a, f a) / Fintype.card α

/-- The expected value of `f` for a hash function whose values in `D` are uniformly random, and equal to those of `H₀`
elsewhere. -/
noncomputable def meanHash {Q A : Type} [Finite A] (D : Finset Q) (H₀ : Q → A) (f : (Q → A) → ℚ) : ℚ :=
  (∑ H ∈ hashFamily D H₀, f H) / (hashFamily D H₀).card

/-- The hash function `H` with some values replaced. -/
def program {Q A : Type} [DecidableEq Q] (H : Q → A) (values : List (Q × A)) : Q → A :=
  values.foldl (fun H qa => Function.update H qa.1 qa.2) H

variable {F E : Type} [Field F] [Fintype F] [AddCommGroup E] [Module F E]

/-- Advantage of a randomized algorithm in the decisional Diffie–Hellman game: `guess X Y Z` is the probability that it
outputs 1 for the elements `X`, `Y`, `Z`. Either `Z` is the Diffie–Hellman element of `X` and `Y`, or it is random. -/
def ddhGap (B : Backend F E) (guess : E → E → E → ℚ) : ℚ :=
  mean (fun ab : F × F => guess (ab.1 • B.gen) (ab.2 • B.gen) ((ab.1 * ab.2) • B.gen)) -
  mean (fun abc : F × F × F => guess (abc.1 • B.gen) (abc.2.1 • B.gen) (abc.2.2 • B.gen))

/-- A reduction from the decisional Diffie–Hellman problem `X`, `Y`, `Z` to distinguishing encryptions of the messages
`m`: `X` is the public key, the ciphertext number `i` is built from `Y` and `Z`, the ciphertexts before it are random
and those after it are encryptions with known randomness. -/
def hybridReduction (B : Backend F E) {n : ℕ} (m : E → Fin n → E) (guess : E → (Fin n → Ciphertext E) → ℚ)
    (i : Fin n) (X Y Z : E) : ℚ :=
  mean fun rs : (Fin n → F) × (Fin n → F) => guess X fun j =>
    if j < i then ⟨rs.1 j • B.gen, rs.2 j • B.gen⟩
    else if j = i then ⟨Y, m X j + Z⟩
    else ⟨rs.1 j • B.gen, m X j + rs.1 j • X⟩

/-- Encryptions of some messages, made one after another with the same generator. -/
def encryptAll (B : Backend F E) (K : PublicKey E) : List F → B.Rng → List (Ciphertext E)
  | [], _ => []
  | m :: ms, rng => (K.encrypt B m rng).1 :: encryptAll B K ms (K.encrypt B m rng).2

/-- The game of chosen-plaintext attacks: a key is generated, the attacker chooses `n` messages from the public key
and gets their encryptions, made one after another. `guess` is the probability that it outputs 1. -/
def cpaGame (B : Backend F E) {n : ℕ} (messages : PublicKey E → Fin n → F)
    (guess : PublicKey E → (Fin n → Ciphertext E) → ℚ) : ℚ :=
  mean fun krs : F × (Fin n → F) =>
    match Keypair.generate B.withTape [krs.1] with
    | none => 0
    | some (keypair, _) => guess keypair.publicKey fun j =>
      ((encryptAll B.withTape keypair.publicKey (List.ofFn (messages keypair.publicKey)) (List.ofFn krs.2))[j.1]?).getD
        Ciphertext.zero

/-- A function of the public key as a function of its group element; `none` if the element has no encoding. -/
def onKey (B : Backend F E) {α : Type} (default : α) (f : PublicKey E → α) (X : E) : α :=
  match PublicKey.fromElement B X with
  | none => default
  | some K => f K

/-! ## Ballots with choices -/

/-- The hash value with which verification of a log equality proof succeeds: the data hashed last by the verifier, and
the challenge in the proof. -/
def logEqPoint [DecidableEq F] (B : Backend F E) (K : PublicKey E) (powers : E × E) (t : Transcript)
    (proof : LogEqualityProof F) : List (List Entry × F) :=
  match proof.verify B K powers t with
  | none => []
  | some (_, t') => [(t'.log, proof.challenge)]

/-- The same for a ring proof. -/
def ringPoint [DecidableEq F] (B : Backend F E) (K : PublicKey E) (values : List (List E)) (cts : List (Ciphertext E))
    (t : Transcript) (proof : RingProof F) : List (List Entry × F) :=
  match proof.verify B K values cts t with
  | none => []
  | some (_, t') => [(t'.log, proof.commonChallenge)]

/-- The same for all proofs in a ballot. -/
def choicePoints [DecidableEq F] (B : Backend F E) (K : PublicKey E) : {kind : ChoiceKind} →
    EncryptedChoice F E kind → List (List Entry × F)
  | .multi, ballot => ringPoint B K (List.replicate ballot.choices.length [0, B.gen]) ballot.choices
      (Transcript.new "encrypted_choice_ranges") ballot.rangeProof
  | .single, ballot => ringPoint B K (List.replicate ballot.choices.length [0, B.gen]) ballot.choices
      (Transcript.new "encrypted_choice_ranges") ballot.rangeProof ++
    logEqPoint B K ((ballot.choices.map (·.random)).sum, (ballot.choices.map (·.blinded)).sum - B.gen)
      (Transcript.new "choice_encryption_sum") ballot.sumProof

/-- Number of proofs about the sum of choices. -/
def sumProofs : ChoiceKind → ℕ
  | .single => 1
  | .multi => 0

/-- Number of random scalars read by `EncryptedChoice::new`: three per option and one for the sum proof. -/
def choiceDraws (o : ℕ) (kind : ChoiceKind) : ℕ := 3 * o + sumProofs kind

/-- The scalars in the proofs of a ballot. -/
abbrev ChoiceProofs (F : Type) (o : ℕ) (kind : ChoiceKind) : Type := (F × (Fin (2 * o) → F)) × SumProof F kind

instance : Fintype (LogEqualityProof F) :=
  Fintype.ofEquiv (F × F) ⟨fun p => ⟨p.1, p.2⟩, fun p => (p.challenge, p.response), fun _ => rfl, fun _ => rfl⟩

instance : (kind : ChoiceKind) → Fintype (SumProof F kind)
  | .single => inferInstanceAs (Fintype (LogEqualityProof F))
  | .multi => inferInstanceAs (Fintype Unit)

/-- The ballot with given ciphertexts and proofs. -/
def makeChoice {o : ℕ} {kind : ChoiceKind} (cts : Fin o → Ciphertext E) (proofs : ChoiceProofs F o kind) :
    EncryptedChoice F E kind :=
  ⟨List.ofFn cts, ⟨proofs.1.1, List.ofFn proofs.1.2⟩, proofs.2⟩

/-- The ballot privacy game: a key is generated, the selection is chosen from the public key, and the attacker sees
the ballot and all of the random hash function. -/
noncomputable def choiceGame [DecidableEq F] [DecidableEq E] (B : Backend F E) (D : Finset (List Entry))
    (H₀ : List Entry → F) {o : ℕ} (kind : ChoiceKind) (votes : PublicKey E → Fin o → Bool)
    (guess : (List Entry → F) → PublicKey E → Option (EncryptedChoice F E kind) → ℚ) : ℚ :=
  mean fun k : F =>
    match Keypair.generate B.withTape [k] with
    | none => 0
    | some (keypair, _) => meanHash D H₀ fun H => mean fun tape : Fin (choiceDraws o kind) → F =>
      guess H keypair.publicKey ((EncryptedChoice.new (B.withHash H).withTape ⟨o, keypair.publicKey⟩
        (List.ofFn (votes keypair.publicKey)) (List.ofFn tape)).map Prod.fst)

/-- The attacker with a simulated ballot for given ciphertexts: the scalars of the proofs are chosen at random, then the
hash function is changed such that the proofs are valid. -/
noncomputable def simulatedGuess [DecidableEq F] (B : Backend F E) (D : Finset (List Entry))
    (H₀ : List Entry → F) {o : ℕ} {kind : ChoiceKind}
    (guess : (List Entry → F) → PublicKey E → Option (EncryptedChoice F E kind) → ℚ)
    (K : PublicKey E) (cts : Fin o → Ciphertext E) : ℚ :=
  mean fun proofs : ChoiceProofs F o kind => meanHash D H₀ fun H =>
    guess (program H (choicePoints (B.withHash H) K (makeChoice cts proofs))) K (some (makeChoice cts proofs))

/-- The ballot privacy game with several voters: the attacker sees the ballots of all of them. -/
noncomputable def choicesGame [DecidableEq F] [DecidableEq E] (B : Backend F E) (D : Finset (List Entry))
    (H₀ : List Entry → F) {n o : ℕ} (kind : ChoiceKind) (votes : PublicKey E → Fin n → Fin o → Bool)
    (guess : (List Entry → F) → PublicKey E → (Fin n → Option (EncryptedChoice F E kind)) → ℚ) : ℚ :=
  mean fun k : F =>
    match Keypair.generate B.withTape [k] with
    | none => 0
    | some (keypair, _) => meanHash D H₀ fun H => mean fun tapes : Fin n → Fin (choiceDraws o kind) → F =>
      guess H keypair.publicKey fun v => (EncryptedChoice.new (B.withHash H).withTape ⟨o, keypair.publicKey⟩
        (List.ofFn (votes keypair.publicKey v)) (List.ofFn (tapes v))).map Prod.fst

/-- An attacker against one ballot, made of an attacker against `n` ballots: the given ballot is that of voter `v`,
those of the voters before and after are created from `votes'` and `votes`. -/
def embedBallot [DecidableEq F] [DecidableEq E] (B : Backend F E) {n o : ℕ} {kind : ChoiceKind}
    (votes votes' : PublicKey E → Fin n → Fin o → Bool)
    (guess : (List Entry → F) → PublicKey E → (Fin n → Option (EncryptedChoice F E kind)) → ℚ) (v : Fin n)
    (H : List Entry → F) (K : PublicKey E) (ballot : Option (EncryptedChoice F E kind)) : ℚ :=
  mean fun tapes : Fin n → Fin (choiceDraws o kind) → F => guess H K fun i =>
    if i = v then ballot
    else (EncryptedChoice.new (B.withHash H).withTape ⟨o, K⟩
      (List.ofFn (if i < v then votes' K i else votes K i)) (List.ofFn (tapes i))).map Prod.fst

/-! ## Elections with published results -/

/-- The sum of all ciphertexts for one option. -/
def optionTotal {n o : ℕ} {kind : ChoiceKind} (ballots : Fin n → Option (EncryptedChoice F E kind)) (j : Fin o) :
    Ciphertext E :=
  ((tally o (List.ofFn fun v => ((ballots v).map (·.choices)).getD []))[j.1]?).getD Ciphertext.zero

/-- How the `n` ballots of a poll with `o` options are created, each from `d` random scalars, and how they are counted. -/
structure Poll (F E β : Type) [Field F] [AddCommGroup E] [Module F E] (n o d : ℕ) where
  ballots : Backend F E → PublicKey E → (Fin n → Fin d → F) → Fin n → Option β
  totals : (Fin n → Option β) → Fin o → Ciphertext E

/-- A poll with single or multiple choice. Votes may depend on the public key. -/
def choicePoll [DecidableEq F] [DecidableEq E] {n o : ℕ} (kind : ChoiceKind)
    (votes : PublicKey E → Fin n → Fin o → Bool) : Poll F E (EncryptedChoice F E kind) n o (choiceDraws o kind) where
  ballots B K tapes v := (EncryptedChoice.new B.withTape ⟨o, K⟩ (List.ofFn (votes K v)) (List.ofFn (tapes v))).map Prod.fst
  totals := optionTotal

/-- The game in which the attacker sees the ballots of all voters. -/
noncomputable def ballotsGame (B : Backend F E) (D : Finset (List Entry)) (H₀ : List Entry → F) {β : Type} {n o d : ℕ}
    (poll : Poll F E β n o d) (guess : (List Entry → F) → PublicKey E → (Fin n → Option β) → ℚ) : ℚ :=
  mean fun k : F =>
    match Keypair.generate B.withTape [k] with
    | none => 0
    | some (keypair, _) => meanHash D H₀ fun H => mean fun tapes : Fin n → Fin d → F =>
      guess H keypair.publicKey (poll.ballots (B.withHash H) keypair.publicKey tapes)

/-- The election game: the attacker sees the ballots of all voters, the decryptions of the totals of all options with
their proofs, made by the key holder with transcripts `t`, and the hash function. -/
noncomputable def electionGame [DecidableEq F] [DecidableEq E] (B : Backend F E) (D : Finset (List Entry))
    (H₀ : List Entry → F) {β : Type} {n o d : ℕ} (t : Fin o → Transcript) (poll : Poll F E β n o d)
    (guess : (List Entry → F) → PublicKey E → (Fin n → Option β) →
      (Fin o → Option (VerifiableDecryption E × LogEqualityProof F)) → ℚ) : ℚ :=
  mean fun k : F =>
    match Keypair.generate B.withTape [k] with
    | none => 0
    | some (keypair, _) => meanHash D H₀ fun H => mean fun tapes : Fin n → Fin d → F =>
      let ballots := poll.ballots (B.withHash H) keypair.publicKey tapes
      mean fun xs : Fin o → F => guess H keypair.publicKey ballots fun j =>
        (VerifiableDecryption.new (B.withHash H).withTape (poll.totals ballots j) keypair (t j) [xs j]).map Prod.fst

/-- The hash value with which verification of a decryption succeeds. -/
def decryptionPoint [DecidableEq F] (B : Backend F E) (K : PublicKey E) (ct : Ciphertext E) (t : Transcript)
    (d : VerifiableDecryption E × LogEqualityProof F) : List (List Entry × F) :=
  match (CandidateDecryption.ofVerifiable d.1).verify B ct K d.2 t with
  | none => []
  | some (_, t') => [(t'.log, d.2.challenge)]

/-- Decryptions made from the numbers of votes, without the secret key. -/
def decryptionsOf (B : Backend F E) {o : ℕ} (totals : Fin o → Ciphertext E) (counts : Fin o → ℕ)
    (proofs : Fin o → LogEqualityProof F) (j : Fin o) : VerifiableDecryption E × LogEqualityProof F :=
  (⟨(totals j).blinded - (counts j : F) • B.gen⟩, proofs j)

/-- An attacker against ballots, made of an attacker against the election: decryptions are made from the numbers of
votes, their proofs are random, and the hash function is changed such that these are valid. -/
def withCounts [DecidableEq F] (B : Backend F E) {β : Type} {n o : ℕ} (t : Fin o → Transcript)
    (totals : (Fin n → Option β) → Fin o → Ciphertext E) (counts : PublicKey E → Fin o → ℕ)
    (guess : (List Entry → F) → PublicKey E → (Fin n → Option β) →
      (Fin o → Option (VerifiableDecryption E × LogEqualityProof F)) → ℚ)
    (H : List Entry → F) (K : PublicKey E) (ballots : Fin n → Option β) : ℚ :=
  mean fun proofs : Fin o → LogEqualityProof F =>
    guess (program H (List.ofFn fun j => decryptionPoint (B.withHash H) K (totals ballots j) (t j)
        (decryptionsOf B (totals ballots) (counts K) proofs j)).flatten)
      K ballots fun j => some (decryptionsOf B (totals ballots) (counts K) proofs j)

/-- Numbers of votes for every option. -/
def voteCounts {n o : ℕ} (votes : Fin n → Fin o → Bool) (j : Fin o) : ℕ :=
  (List.ofFn fun v => votes v j).count true

end ElasticElgamal.Spec
