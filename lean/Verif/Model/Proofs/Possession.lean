import Verif.Model.Proofs.Common

/-!
# Proofs of possession

Models `src/proofs/possession.rs`.
-/

set_option autoImplicit false

namespace ElasticElgamal

variable {F E : Type}

/-- `src/proofs/possession.rs:71-76` `ProofOfPossession`. -/
@[ext] structure ProofOfPossession (F : Type) where
  challenge : F
  responses : List F
  deriving DecidableEq

namespace ProofOfPossession

variable [Field F] [AddCommGroup E] [Module F E] (B : Backend F E)

/-- `src/proofs/possession.rs:106-113`: `(0..key_count).map(..)`, drawing a random scalar and
appending its commitment at each step. -/
def drawRandomScalars : Nat → Transcript → B.Rng → Option (List F × Transcript × B.Rng)
  | 0, t, rng => some ([], t, rng)
  | keyCount + 1, t, rng => do
    let (randomness, rng) := SecretKey.generate B rng
    let randomElement := B.mulGen randomness
    let t ← B.appendElement t "R" randomElement
    let (rest, t, rng) ← drawRandomScalars keyCount t rng
    return (randomness :: rest, t, rng)

/-- `src/proofs/possession.rs:100-104` and `142-145`: append all keys. -/
def appendKeys (t : Transcript) (publicKeys : List (PublicKey E)) : Transcript :=
  publicKeys.foldl (fun t publicKey => t.appendElementBytes "K" publicKey.bytes) t

/-- `src/proofs/possession.rs:93-128` `ProofOfPossession::from_keys`. -/
def fromKeys (secrets : List (SecretKey F)) (publicKeys : List (PublicKey E)) (t : Transcript)
    (rng : B.Rng) : Option (ProofOfPossession F × Transcript × B.Rng) := do
  let t := t.startProof "multi_pop"
  let t := appendKeys t publicKeys
  let keyCount := publicKeys.length
  let (randomScalars, t, rng) ← drawRandomScalars B keyCount t rng
  let (challenge, t) := B.challengeScalar t "c"
  let responses := (secrets.zip randomScalars).map fun (log, randomness) =>
    SecretKey.add randomness (SecretKey.mul log challenge)
  return ({ challenge, responses }, t, rng)

/-- `src/proofs/possession.rs:80-91` `ProofOfPossession::new`. -/
def new (keypairs : List (Keypair F E)) (t : Transcript) (rng : B.Rng) :
    Option (ProofOfPossession F × Transcript × B.Rng) :=
  fromKeys B (keypairs.map (·.secret)) (keypairs.map (·.publicKey)) t rng

/-- `src/proofs/possession.rs:148-155`: recompute and append the commitments. -/
def appendCommitments (challenge : F) : List (PublicKey E × F) → Transcript → Option Transcript
  | [], t => some t
  | (publicKey, response) :: rest, t => do
    let randomElement := B.doubleMulGen (-challenge) publicKey.element response
    let t ← B.appendElement t "R" randomElement
    appendCommitments challenge rest t

/-- `src/proofs/possession.rs:135-163` `ProofOfPossession::verify`. -/
def verify [DecidableEq F] (proof : ProofOfPossession F) (publicKeys : List (PublicKey E))
    (t : Transcript) : Option (Except VerificationError Unit × Transcript) :=
  let t := t.startProof "multi_pop"
  let t := appendKeys t publicKeys
  let keyCount := publicKeys.length
  match VerificationError.checkLengths "public keys" proof.responses.length keyCount with
  | .error e => some (.error e, t)
  | .ok () => do
    let t ← appendCommitments B proof.challenge (publicKeys.zip proof.responses) t
    let (expectedChallenge, t) := B.challengeScalar t "c"
    return (checkChallenge expectedChallenge proof.challenge, t)

end ProofOfPossession

end ElasticElgamal
