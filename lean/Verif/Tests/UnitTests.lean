import Verif.Tests.Snapshots
import Verif.Model.Dkg
import Verif.Model.Group.Overrides

/-!
# Unit tests

The unit tests and doc tests of the crate run on the model, over the real groups; random values come from
`ChaChaRng::seed_from_u64(12345)`. These are tests of the model (evaluated, not proved); no theorem depends on this
file.
-/

set_option autoImplicit false

namespace ElasticElgamal

open Serde

namespace Test

/-! ## `src/proofs/range.rs` -/

/-- `RangeDecomposition::optimal` of the crate with `std`, where the estimate is at least the integer one. -/
def optimal (upperBound : Nat) : Option RangeDecomposition := RangeDecomposition.optimal true estimate upperBound

/-- `to_string()`. -/
def shown (upperBound : Nat) : Option String := (optimal upperBound).map fun d => text d.display

-- `optimal_value_small`
#guard (optimal 5).map (·.rings) = some [⟨5, 1⟩]
#guard (optimal 16).map (·.rings) = some [⟨4, 4⟩, ⟨4, 1⟩]
#guard (optimal 60).map (·.rings) = some [⟨5, 12⟩, ⟨4, 3⟩, ⟨3, 1⟩]
#guard shown 1000 = some "125 * 0..8 + 25 * 0..5 + 5 * 0..5 + 0..5"
-- `optimal_values_with_additives`
#guard (optimal 17).map (·.rings) = some [⟨4, 4⟩, ⟨5, 1⟩]
#guard (optimal 101).map (·.rings) = some [⟨5, 20⟩, ⟨5, 4⟩, ⟨5, 1⟩]
-- `large_optimal_values`
#guard shown 12345 = some "2880 * 0..4 + 720 * 0..5 + 90 * 0..9 + 15 * 0..7 + 3 * 0..5 + 0..3"
#guard ((optimal 12345).bind fun d => d.upperBound true) = some 12345
-- `decomposing_for_small_range`, `decomposing_for_range`
#guard shown 17 = some "4 * 0..4 + 0..5"
#guard ((optimal 17).bind fun d => d.decompose true 16) = some [3, 4]
#guard ((optimal 1000).bind fun d => d.decompose true 567) = some [4, 2, 3, 2]

section
variable {F E : Type} [Field F] [AddCommGroup E] [Module F E] [DecidableEq F] [DecidableEq E]
variable (B : Backend F E) (rng : B.Rng)

/-- Whether the verifier returned without a panic and accepted. -/
def accepts {ε α τ : Type} (r : Option (Except ε α × τ)) : Option Bool := r.map fun r => r.1.toBool

/-- `range_proof_basics`: verdicts for the right context and for other transcripts, receivers, ciphertexts and
decompositions. -/
def rangeProofBasics (upperBound : Nat) : Option (List Bool) := do
  let range ← PreparedRange.new B (← optimal upperBound)
  let (receiver, rng) ← Keypair.generate B rng
  let ((c, proof), _, rng) ← RangeProof.new B receiver.publicKey range 10 (Transcript.new "test") rng
  let c := c.ciphertext
  let (other, rng) ← Keypair.generate B rng
  let (otherCiphertext, _) := PublicKey.encrypt B receiver.publicKey (10 : F) rng
  let otherRange ← PreparedRange.new B (RangeDecomposition.just 15)
  [accepts (proof.verify B receiver.publicKey range c (Transcript.new "test")),
   accepts (proof.verify B receiver.publicKey range c (Transcript.new "other")),
   accepts (proof.verify B other.publicKey range c (Transcript.new "test")),
   accepts (proof.verify B receiver.publicKey range otherCiphertext (Transcript.new "test")),
   accepts (proof.verify B receiver.publicKey range { c with blinded := c.blinded + B.gen } (Transcript.new "test")),
   accepts (proof.verify B receiver.publicKey otherRange c (Transcript.new "test"))].mapM id

/-! ## `src/app/choice.rs` -/

/-- `test_bogus_encrypted_choice_does_not_work`, after a choice which does work. -/
def bogusEncryptedChoice : Option (List Bool) := do
  let (kp, rng) ← Keypair.generate B rng
  let receiver := kp.publicKey
  let params ← ChoiceParams.single receiver 5
  let (choice, rng) ← EncryptedChoice.single B params 2 rng
  let ((one, _), rng) ← PublicKey.encryptBool B receiver true rng
  let bogus := { choice with choices := choice.choices.set 0 one }
  let (choice', rng) ← EncryptedChoice.single B params 4 rng
  let ((zero, _), rng) ← PublicKey.encryptBool B receiver false rng
  let bogus' := { choice' with choices := choice'.choices.set 4 zero }
  let (choice'', _) ← EncryptedChoice.single B params 4 rng
  let shift := B.mulGen (10 : F)
  let bogus'' := { choice'' with choices := choice''.choices.zipIdx.map fun (c, i) =>
    { c with blinded := if i = 4 then c.blinded + shift else if i = 3 then c.blinded - shift else c.blinded } }
  [choice, bogus, bogus', bogus''].mapM fun c => (c.verify B params).map (·.toBool)

/-! ## `src/app/quadratic_voting.rs` -/

/-- `quadratic_voting`: the decrypted votes and the errors for the bogus ballots. -/
def quadraticVoting : Option (List (Option Nat) × List QuadraticVotingError) := do
  let (kp, rng) ← Keypair.generate B rng
  let params ← QuadraticVotingParams.new B estimate kp.publicKey 5 25
  let (ballot, rng) ← QuadraticVotingBallot.new B params [1, 3, 0, 3, 2] rng
  let table ← DiscreteLogTable.new B (List.range 6)
  let votes ← match ← ballot.verify B params with
    | .ok choices => choices.mapM fun c => SecretKey.decrypt B kp.secret c table
    | .error _ => none
  let bogus := { ballot with votes := ballot.votes.zipIdx.map fun (v, i) =>
    if i = 0 then { v with ciphertext := { v.ciphertext with blinded := v.ciphertext.blinded + B.gen } } else v }
  let bogus' := { ballot with credit := { ballot.credit with ciphertext :=
    { ballot.credit.ciphertext with blinded := ballot.credit.ciphertext.blinded - B.gen } } }
  let ((c, proof), _, _) ← RangeProof.new B kp.publicKey params.voteCountRange 3
    (Transcript.new "quadratic_voting_variant") rng
  let bogus'' := { ballot with votes := ballot.votes.set 0 { ciphertext := c.ciphertext, rangeProof := proof } }
  let errors ← [bogus, bogus', bogus''].mapM fun b => do
    match ← b.verify B params with
    | .ok _ => none
    | .error e => some e
  return (votes, errors)

/-! ## `src/sharing/mod.rs`, `src/dkg.rs` (doc tests) -/

/-- Decrypts a ciphertext of 15 by the shares of the given participants, with verified shares. -/
def decryptJointly (participants : List (ActiveParticipant F E)) (rng : B.Rng) : Option (Option Nat) := do
  let first ← participants[0]?
  let (ciphertext, rng) := PublicKey.encrypt B first.keySet.sharedKey (15 : F) rng
  let shares ← participants.mapM fun p => do
    let ((share, proof), _) ← p.decryptShare B ciphertext rng
    match ← first.keySet.verifyShare B (CandidateDecryption.ofVerifiable share) ciphertext p.index proof with
    | .ok share => some (p.index, share)
    | .error _ => none
  let combined ← (← Params.combineShares F first.keySet.params shares)
  combined.decrypt B ciphertext (← DiscreteLogTable.new B (List.range 20))

/-- The example of the module `sharing`: a dealer and 2-of-3 encryption, decrypted by participants 2 and 0. -/
def sharing : Option (Option Nat) := do
  let params ← Params.new 3 2
  let (dealer, rng) ← Dealer.new B params rng
  let (polynomial, proof) := dealer.publicInfo
  let .ok keySet ← PublicKeySet.new B params polynomial proof | none
  let participants ← [2, 0].mapM fun i => do
    match ← ActiveParticipant.new B keySet i (← dealer.secretShareForParticipant i) with
    | .ok p => some p
    | .error _ => none
  decryptJointly B participants rng

/-- The example of the module `dkg`: the shared keys of the three participants and a decryption by two of them. -/
def dkg : Option (Bool × Option Nat) := do
  let params ← Params.new 3 2
  let indexes := List.range 3
  let (participants, rng) ← indexes.foldlM (fun (acc, rng) i => do
    let (p, rng) ← CollectingCommitments.new B params i rng
    return (acc ++ [p], rng)) ([], rng)
  let commitments ← participants.mapM fun p => p.commitment
  let participants ← participants.zipIdx.mapM fun (p, i) => do
    let p ← commitments.zipIdx.foldlM (fun p (c, j) => if i = j then some p else p.insertCommitment j c) p
    p.finishCommitmentPhase
  let infos := participants.map fun p => p.publicInfo
  let participants ← participants.zipIdx.mapM fun (p, i) => do
    let p ← infos.zipIdx.foldlM (fun p (info, j) => if i = j then some p else do
      let (.ok (), p) ← p.insertPublicPolynomial B j info | none
      return p) p
    p.finishPolynomialsPhase
  let participants ← participants.zipIdx.mapM fun (p, i) => do
    let p ← participants.zipIdx.foldlM (fun p (q, j) => if i = j then some p else do
      let (.ok (), p) ← p.insertSecretShare B j (← q.secretShareForParticipant i) | none
      return p) p
    let .ok p ← p.complete B | none
    return p
  let first ← participants[0]?
  let same := participants.all fun p => PublicKey.eq p.keySet.sharedKey first.keySet.sharedKey
  return (same, ← decryptJointly B (participants.drop 1) rng)

end

#guard [12, 15, 20, 50].map (rangeProofBasics ristretto rng) =
  List.replicate 4 (some [true, false, false, false, false, false])
#guard bogusEncryptedChoice ristretto rng = some [true, false, false, false]
#guard bogusEncryptedChoice k256 rng = some [true, false, false, false]
#guard quadraticVoting ristretto rng = some ([1, 3, 0, 3, 2].map some,
  [.Variant 0 .ChallengeMismatch, .CreditRange .ChallengeMismatch, .CreditEquivalence .ChallengeMismatch])
#guard sharing ristretto rng = some (some 15)
#guard sharing k256 rng = some (some 15)
#guard dkg ristretto rng = some (true, some 15)
#guard dkg k256 rng = some (true, some 15)

-- `isqrt_is_correct`
#guard (List.range 1000 ++ (List.range 1000).map (· * 1000) ++ [2 ^ 64 - 1, 2 ^ 64 - 2, 2 ^ 63, 2 ^ 62, 2 ^ 62 - 1]).all
  fun x => isqrt true x == some x.sqrt

-- `src/sharing/mod.rs`, `lagrange_coeffs_are_computed_correctly`
#guard lagrangeCoefficients (ZMod Ed25519.ℓ) [0, 1] = some ([1, -2⁻¹], 2)
#guard lagrangeCoefficients (ZMod Ed25519.ℓ) [0, 2] = some ([2⁻¹, -6⁻¹], 3)
#guard lagrangeCoefficients (ZMod Ed25519.ℓ) [0, 3, 4] = some ([12⁻¹, -12⁻¹, 20⁻¹], 20)

/-! ## `src/group/curve25519.rs` -/

/-- `Curve25519Subgroup`. -/
def edwards := Ed25519.concrete true

/-- `CompressedEdwardsY::decompress`, for all points of the curve. -/
def decompress : Bytes → Option Ed25519.Point := Curve25519.decompress (Ed25519.params (concreteExt true))

/-- `EdwardsPoint::compress`. -/
def compress : Ed25519.Point → Bytes := Curve25519.compress (Ed25519.params (concreteExt true))

/-- Bytes from hexadecimal digits. -/
def unhex (s : String) : Bytes :=
  let digit (c : Char) : Nat := if c.isDigit then c.toNat - 48 else c.toNat - 87
  let rec pairs : List Char → Bytes
    | a :: b :: rest => UInt8.ofNat (16 * digit a + digit b) :: pairs rest
    | _ => []
  pairs s.toList

/-- Encodings of the points of `EIGHT_TORSION` (the identity comes first). -/
def eightTorsion : List Bytes := [
  "0100000000000000000000000000000000000000000000000000000000000000",
  "c7176a703d4dd84fba3c0b760d10670f2a2053fa2c39ccc64ec7fd7792ac037a",
  "0000000000000000000000000000000000000000000000000000000000000080",
  "26e8958fc2b227b045c3f489f2ef98f0d5dfac05d3c63339b13802886d53fc05",
  "ecffffffffffffffffffffffffffffffffffffffffffffffffffffffffffff7f",
  "26e8958fc2b227b045c3f489f2ef98f0d5dfac05d3c63339b13802886d53fc85",
  "0000000000000000000000000000000000000000000000000000000000000000",
  "c7176a703d4dd84fba3c0b760d10670f2a2053fa2c39ccc64ec7fd7792ac03fa"].map unhex

/-- The error of `PublicKey::from_bytes`. -/
def keyError {F E : Type} [Zero E] [DecidableEq E] (B : Backend F E) (b : Bytes) : Option PublicKeyConversionError :=
  match PublicKey.fromBytes B b with
  | .ok _ => none
  | .error e => some e

end Test

open Test

-- `small_order_points_are_invalid_public_keys`; the identity is rejected for another reason
#guard eightTorsion.tail.all fun b => keyError edwards b == some .InvalidGroupElement
#guard keyError edwards (eightTorsion.headD []) = some .IdentityKey
#guard eightTorsion.all fun b => match decompress b with
  | some e => decide (8 • e = 0) && compress e == b
  | none => false
-- `mangled_point_is_invalid_public_key`
#guard (decompress (eightTorsion.getD 1 [])).all fun e =>
  (List.range 20).all fun k =>
    keyError edwards (compress ((edwards.mulGen (k + 1 : ℕ)).1 + e)) ==
      some .InvalidGroupElement

/-! ## `src/serde.rs` -/

/-- A JSON string. -/
def Test.str (s : String) : Data := .str (asciiBytes s)

/-- `serde_json`: the length of an array is known when it comes from a `Value`. -/
def Test.jsonFormat : Format := Base64.textFormat some

/-- The error of a deserializer. -/
def Test.error {α : Type} : Except DeError α → Option DeError
  | .ok _ => none
  | .error e => some e

-- `opening_roundtrip`
#guard match deserializeOpening format (serializeOpening format (List.replicate 32 6)) with
  | .ok b => b = List.replicate 32 6
  | .error _ => false
-- `key_roundtrip`
#guard ((Keypair.generate ristretto rng).map fun (kp, _) =>
  match deserializeKeypair ristretto format (serializeKeypair ristretto format kp) with
  | some (.ok copy) => decide (copy = kp)
  | _ => false) = some true
-- keys: incorrect length, not an element, invalid scalar
#guard error (deserializePublicKey ristretto format (str "dGVzdA")) = some .custom
#guard error (deserializePublicKey ristretto format (str "tNDkeYUVQWgh34d-RqaElOk7yFB8d2qCh5f4Vi2euT0")) = some .custom
#guard (Base64.decode (asciiBytes "dGVzdA")).bind (keyError ristretto) = some .InvalidByteSize
#guard (Base64.decode (asciiBytes "tNDkeYUVQWgh34d-RqaElOk7yFB8d2qCh5f4Vi2euT0")).bind (keyError ristretto) =
  some .InvalidGroupElement
#guard error (deserializeSecretKey ristretto format (str "dGVzdA")) = some .custom
#guard error (deserializeSecretKey ristretto format (str "nN3xf7lSOX0_zs6QPBwWHYi0Dkx2Ln_z1MPwnbzaM_8")) = some .custom
-- helpers: the same for scalars and elements; too few items in an array
#guard error (deserializeScalar ristretto format (str "dGVzdA")) = some (.invalidLength 4)
#guard error (deserializeScalar ristretto format (str "nN3xf7lSOX0_zs6QPBwWHYi0Dkx2Ln_z1MPwnbzaM_8")) = some .custom
#guard error (deserializeElement ristretto format (str "dGVzdA")) = some (.invalidLength 4)
#guard error (deserializeElement ristretto format (str "nN3xf7lSOX0_zs6QPBwWHYi0Dkx2Ln_z1MPwnbzaM_8")) = some .custom
#guard error (deserializeVec jsonFormat 2 (deserializeScalar ristretto jsonFormat)
  (.seq [serializeScalar ristretto jsonFormat (7 : ZMod Ed25519.ℓ)])) = some (.invalidLength 1)

end ElasticElgamal
