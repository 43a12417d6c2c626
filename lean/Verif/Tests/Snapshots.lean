import Verif.Model.Serde
import Verif.Model.Base64
import Verif.Model.Group.Concrete
import Verif.Model.App.QuadraticVoting

/-!
# Snapshots

`tests/snapshots.rs` run on the model: the model over the real groups, with `ChaChaRng::seed_from_u64(12345)` as the
RNG, produces the contents of the files in `tests/snapshots`, byte for byte. These are tests of the model (evaluated,
not proved); no theorem depends on this file.

A snapshot is compared as the list of its leaves with their paths, in the order of the file.
-/

set_option autoImplicit false

namespace ElasticElgamal

open Serde

namespace Test

/-- A text format; hints of sizes do not matter for serialization. -/
def format : Format := Base64.textFormat fun _ => none

/-- The order of keys in `serde_json::Map`. Applied to the top level and to the levels below (`fuel`). -/
def sortKeys : Nat → Data → Data
  | fuel + 1, .seq items => .seq (items.map (sortKeys fuel))
  | fuel + 1, .map fields =>
    .map ((fields.map fun (k, d) => (k, sortKeys fuel d)).mergeSort fun a b => decide (a.1 ≤ b.1))
  | _, d => d

/-- `serde_json::json!`. -/
def json (fields : List (String × Data)) : Data := sortKeys 8 (.map fields)

/-- The text of a base64 string. -/
def text (b : Bytes) : String := String.ofList (b.map fun c => Char.ofNat c.toNat)

/-- The leaves of a tree (until the depth `fuel`) with their paths. -/
def leaves : Nat → String → Data → List String
  | _, path, .str s => [path ++ " = " ++ text s]
  | _, path, .bytes b => [path ++ " = " ++ text (Base64.encode b)]
  | _, path, .uint n => [path ++ " = " ++ toString n]
  | _, path, .bool b => [path ++ " = " ++ toString b]
  | _, path, .null => [path ++ " = ~"]
  | _, path, .seq [] => [path ++ " = []"]
  | fuel + 1, path, .seq items =>
    (items.zipIdx.map fun (d, i) => leaves fuel (path ++ "/" ++ toString i) d).flatten
  | fuel + 1, path, .map fields =>
    (fields.map fun (k, d) => leaves fuel (if path = "" then k else path ++ "/" ++ k) d).flatten
  | 0, path, _ => [path ++ " = …"]

section
variable {F E : Type} [Field F] [AddCommGroup E] [Module F E] [DecidableEq F] [DecidableEq E]
variable (B : Backend F E) (rng : B.Rng)

/-- `lower_len_estimate`. -/
def estimate : Nat → Nat := RangeDecomposition.intLowerLenEstimate

/-- `tests/snapshots.rs:31-38` `test_ciphertext_snapshot`. -/
def ciphertext : Option Data := do
  let (kp, rng) ← Keypair.generate B rng
  serializeCiphertext B format (PublicKey.encrypt B kp.publicKey (42 : F) rng).1

/-- `tests/snapshots.rs:40-47` `test_ciphertext_binary_snapshot`. -/
def ciphertextBinary : Option Bytes := do
  let (kp, rng) ← Keypair.generate B rng
  (PublicKey.encrypt B kp.publicKey (42 : F) rng).1.toBytes B

/-- `tests/snapshots.rs:49-60` `test_zero_encryption_snapshot`. -/
def zeroEncryption : Option Data := do
  let (kp, rng) ← Keypair.generate B rng
  let ((ciphertext, proof), _) ← PublicKey.encryptZero B kp.publicKey rng
  return json [("ciphertext", ← serializeCiphertext B format ciphertext), ("proof", serializeLogEq B format proof)]

/-- `tests/snapshots.rs:62-69` `test_zero_encryption_binary_snapshot`. -/
def zeroEncryptionBinary : Option Bytes := do
  let (kp, rng) ← Keypair.generate B rng
  let ((_, proof), _) ← PublicKey.encryptZero B kp.publicKey rng
  return proof.toBytes B

/-- `tests/snapshots.rs:71-82` `test_bool_encryption_snapshot`. -/
def boolEncryption : Option Data := do
  let (kp, rng) ← Keypair.generate B rng
  let ((ciphertext, proof), _) ← PublicKey.encryptBool B kp.publicKey true rng
  return json [("ciphertext", ← serializeCiphertext B format ciphertext), ("proof", ← serializeRing B format proof)]

/-- `tests/snapshots.rs:84-91` `test_bool_encryption_binary_snapshot`. -/
def boolEncryptionBinary : Option Bytes := do
  let (kp, rng) ← Keypair.generate B rng
  let ((_, proof), _) ← PublicKey.encryptBool B kp.publicKey true rng
  return proof.toBytes B

/-- `tests/snapshots.rs:93-105` `test_range_encryption_snapshot`. -/
def rangeEncryption : Option Data := do
  let (kp, rng) ← Keypair.generate B rng
  let range ← PreparedRange.new B (← RangeDecomposition.optimal true estimate 100)
  let ((ciphertext, proof), _) ← PublicKey.encryptRange B kp.publicKey range 42 rng
  return json [("ciphertext", ← serializeCiphertext B format ciphertext), ("proof", ← serializeRange B format proof)]

/-- `tests/snapshots.rs:107-115` `test_encrypted_choice_snapshot`. -/
def encryptedChoice : Option Data := do
  let (kp, rng) ← Keypair.generate B rng
  let (choice, _) ← EncryptedChoice.single B (← ChoiceParams.single kp.publicKey 5) 3 rng
  serializeChoice B format choice

/-- `tests/snapshots.rs:117-126` `test_encrypted_multi_choice_snapshot`. -/
def encryptedMultiChoice : Option Data := do
  let (kp, rng) ← Keypair.generate B rng
  let choices := [false, true, true, false, true]
  let (choices, _) ← EncryptedChoice.new B (← ChoiceParams.multi kp.publicKey 5) choices rng
  serializeChoice B format choices

/-- `tests/snapshots.rs:128-151` `test_sum_of_squares_proof_snapshot`. -/
def sumOfSquaresProof : Option Data := do
  let (kp, rng) ← Keypair.generate B rng
  let values := [1, 3, 3, 7, 5]
  let (sumOfSquares, rng) := CiphertextWithValue.newU64 B (values.map fun x => x * x).sum kp.publicKey rng
  let (values, rng) := values.foldl (fun (acc, rng) x =>
    let (c, rng) := CiphertextWithValue.newU64 B x kp.publicKey rng
    (acc ++ [c.generalize], rng)) (([] : List (CiphertextWithValue F E)), rng)
  let (proof, _) ← SumOfSquaresProof.new B values sumOfSquares.generalize kp.publicKey (Transcript.new "test") rng
  serializeSumOfSquares B format proof

/-- `tests/snapshots.rs:153-162` `test_qv_ballot_snapshot`. -/
def qvBallot : Option Data := do
  let (kp, rng) ← Keypair.generate B rng
  let params ← QuadraticVotingParams.new B estimate kp.publicKey 5 15
  let (ballot, _) ← QuadraticVotingBallot.new B params [3, 0, 1, 0, 2] rng
  serializeBallot B format ballot

/-- `tests/snapshots.rs:164-190` `test_commitment_equivalence_snapshot`. -/
def commitmentEquivalence (blindingBase : E) : Option Data := do
  let (kp, rng) ← Keypair.generate B rng
  let (ciphertext, rng) := CiphertextWithValue.newU64 B 123 kp.publicKey rng
  let (blinding, rng) := SecretKey.generate B rng
  let ((proof, commitment), _) ← CommitmentEquivalenceProof.new B ciphertext.generalize kp.publicKey blinding
    blindingBase (Transcript.new "test") rng
  return json [("ciphertext", ← serializeCiphertext B format ciphertext.ciphertext),
    ("commitment", .bytes (← B.serElem commitment)), ("proof", serializeCommitmentEq B format proof)]

end

end Test

/-- The leaves of a snapshot. -/
class Snapshot (α : Type) where
  snapshot : α → List String

instance : Snapshot Data := ⟨Test.leaves 8 ""⟩

/-- `tests/snapshots.rs:27-29` `stringify_bytes`. -/
instance : Snapshot Bytes := ⟨fun b => [Test.text (Base64.encode b)]⟩

/-- `assert_yaml_snapshot!`, `assert_snapshot!`; `none` if the code panics. -/
def snapshot {α : Type} [Snapshot α] (x : Option α) : Option (List String) := x.map Snapshot.snapshot

namespace Test

/-- `ChaChaRng::seed_from_u64(12345)`. -/
def rng : ChaCha.Rng := .seedFromU64 12345

/-- `Ristretto`. -/
def ristretto := Ristretto255.concrete true

/-- `Generic<Secp256k1>`. -/
def k256 := Secp256k1.concrete true

/-- `tests/snapshots.rs:252-259`: the blinding base used in Bulletproofs. -/
def ristrettoBlindingBase : Ristretto255.Representative :=
  (ristretto.deElem [
    140, 146, 64, 180, 86, 169, 230, 220, 101, 195, 119, 161, 4, 141, 116, 95, 148, 160,
    140, 219, 127, 68, 203, 205, 123, 70, 243, 64, 72, 135, 17, 52]).getD 0

/-- `tests/snapshots.rs:328-339`: the first point on the curve in the stream of random bytes. -/
def findPoint : Nat → ChaCha.Rng → Secp256k1.Element
  | 0, _ => 0
  | attempts + 1, rng =>
    let (bytes, rng) := rng.fill 32
    match k256.deElem (2 :: bytes) with
    | some e => e
    | none => findPoint attempts rng

/-- The blinding base for `Generic<Secp256k1>`. -/
def k256BlindingBase : Secp256k1.Element := findPoint 64 rng

end Test

open Test

/-! ## Published test vectors -/

/-- Hexadecimal digits. -/
def Test.hex (b : Bytes) : String := String.join (b.map fun x => String.ofList (Nat.toDigits 16 (256 + x.toNat)).tail)

-- FIPS 180-4, SHA-256 of "abc" and of a message of two blocks
#guard hex (Sha256.digest (asciiBytes "abc")) = "ba7816bf8f01cfea414140de5dae2223b00361a396177a9cb410ff61f20015ad"
#guard hex (Sha256.digest (asciiBytes "abcdbcdecdefdefgefghfghighijhijkijkljklmklmnlmnomnopnopq")) =
  "248d6a61d20638b8e5c026930c3e6039a33ce45964ff2167f6ecedd419db06c1"

-- the first block of ChaCha20 for the zero key
#guard hex (ChaCha.block (List.replicate 32 0) 0) =
  "76b8e0ada0f13d90405d6ae55386bd28bdd219b8a08ded1aa836efcc8b770dc7" ++
  "da41597c5157488d7724e03fb8d84a376a43b8f41518a11cc387b669b2ee6586"

-- the beginning of Keccak-f[1600] of zeros
#guard hex ((Keccak.permuteBytes fun _ => 0).toList.take 24) = "e7dde140798f25f18a47c033f9ccd584eea95aa61e2698d5"

-- a test vector for Merlin
#guard hex (Merlin.challengeBytesOf (((Transcript.new "test protocol").appendMessage "some label"
    (asciiBytes "some data")).log ++ [.chal "challenge"]) 32) =
  "d5a21972d0d5fe320c0d263fac7fffb8145aa640af6e9bca177c03c7efcf0615"

-- RFC 9496, appendix A.1: the multiples of the generator
#guard (ristretto.serElem (2 • ristretto.gen)).map hex = some
  "6a493210f7499cd17fecb510ae0cea23a110e8d5b901f8acadd3095c73a3b919"
#guard (ristretto.serElem (15 • ristretto.gen)).map hex = some
  "e0c418f7c8d9c4cdd7395b93ea124f3ad99021bb681dfc3302a9d99a2e53e64e"

/-! ## `mod ristretto` -/

-- `tests/snapshots/snapshots__ciphertext-ristretto.snap`
#guard snapshot (Test.ciphertext ristretto rng) = some
  ["random_element = gugt6pqWT9lwtV7WdEdZsVSYTUe0VyNh2w_CzDMKHXQ",
   "blinded_element = -iuJKFPKh-yQijAEz5yqaTA0b0gq45r3QABfdfF5HVg"]

-- `tests/snapshots/snapshots__ciphertext-bin-ristretto.snap`
#guard snapshot (Test.ciphertextBinary ristretto rng) = some
  ["gugt6pqWT9lwtV7WdEdZsVSYTUe0VyNh2w_CzDMKHXT6K4koU8qH7JCKMATPnKppMDRvSCrjmvdAAF918XkdWA"]

-- `tests/snapshots/snapshots__zero-encryption-ristretto.snap`
#guard snapshot (Test.zeroEncryption ristretto rng) = some
  ["ciphertext/blinded_element = tExVM936V6m9VXTOFajptSiHhVXsac5ZKPMXE6V7vE8",
   "ciphertext/random_element = gugt6pqWT9lwtV7WdEdZsVSYTUe0VyNh2w_CzDMKHXQ",
   "proof/challenge = Hp0IXFKkKoK-GiCLRKdMvbv5d3xKc3mHoMK5SLnXOAE",
   "proof/response = -gvay6Ov_nZCId06jbJxyrRWqzfZHJfe-8yBZf0gWQ0"]

-- `tests/snapshots/snapshots__zero-encryption-bin-ristretto.snap`
#guard snapshot (Test.zeroEncryptionBinary ristretto rng) = some
  ["Hp0IXFKkKoK-GiCLRKdMvbv5d3xKc3mHoMK5SLnXOAH6C9rLo6_-dkIh3TqNsnHKtFarN9kcl977zIFl_SBZDQ"]

-- `tests/snapshots/snapshots__bool-encryption-ristretto.snap`
#guard snapshot (Test.boolEncryption ristretto rng) = some
  ["ciphertext/blinded_element = fkX6k7wvG6IgNQDLVlrxV5ynHNgYcnN9CPBI3JzHrzA",
   "ciphertext/random_element = gugt6pqWT9lwtV7WdEdZsVSYTUe0VyNh2w_CzDMKHXQ",
   "proof/common_challenge = yC9Ii8Yy8x6XyuNJBek1UI_2130XU95jGEESt6V1jQA",
   "proof/ring_responses/0 = CoNRRFG5wnN2eagD-EIlsKjTU-bcPvJxao51kp6b2Qk",
   "proof/ring_responses/1 = 89SoDPkpJnG2-hZed2uAvvPa0S6UmVhBaKEECzpaEwg"]

-- `tests/snapshots/snapshots__bool-encryption-bin-ristretto.snap`
#guard snapshot (Test.boolEncryptionBinary ristretto rng) = some
  ["yC9Ii8Yy8x6XyuNJBek1UI_2130XU95jGEESt6V1jQAKg1FEUbnCc3Z5qAP4QiWwqNNT5tw-8nFqjnWSnpvZCfPUqAz5KSZxtvoWXndrgL7z2tEulJlYQWihBAs6WhMI"]

-- `tests/snapshots/snapshots__range-encryption-ristretto.snap`
#guard snapshot (Test.rangeEncryption ristretto rng) = some
  ["ciphertext/blinded_element = -iuJKFPKh-yQijAEz5yqaTA0b0gq45r3QABfdfF5HVg",
   "ciphertext/random_element = gugt6pqWT9lwtV7WdEdZsVSYTUe0VyNh2w_CzDMKHXQ",
   "proof/common_challenge = C2AVJmyDSfOOY9Uj5mfXL1uJCIGukDKYqJzrFLeViQs",
   "proof/partial_ciphertexts/0/blinded_element = wJha60YbAaVG54tHliwnryUKxoNV2cs0ZJB6nHFCUVM",
   "proof/partial_ciphertexts/0/random_element = 5HgwjTtoDjiv7IbW6nPaiMfD98umRrbt0Vtrnvk62EE",
   "proof/partial_ciphertexts/1/blinded_element = gNyhWrCLLQ0w5UszNkk4CCS9hFMIMZb00BSSKuSsxXo",
   "proof/partial_ciphertexts/1/random_element = Mmg8vsLhioDg4QxKtuGWXU-FWVTM0OIw9a2DPCi4kw0",
   "proof/ring_responses/0 = OVQmzJrszYnIb0oUFteCjWKpMx_Y2Ew9KFyEAeFejQg",
   "proof/ring_responses/1 = EIfmWQ_74uv-AbLAn2ifW1sTu2BiaiqYYb4N6az2XAA",
   "proof/ring_responses/2 = 3zu_5NWtom332ya4fHvO4JZkR6eEMhvbzFaDIpjcSAU",
   "proof/ring_responses/3 = EWICmTsD9AiJ0cAhSLmzM70sMZRWZtWs8UUPJQ2EKwI",
   "proof/ring_responses/4 = fu7Ftmh4yEzcntFAqgpKhKSA6DtZfh1no4S4iLr_Awc",
   "proof/ring_responses/5 = V8zCFv--ixm6u5TGZ96Ejnl26kbo-0h4KWHrAGjCjAs",
   "proof/ring_responses/6 = sGf7fGoa-4sdoAqXhM_SmaRpGBHmkazRXmYpHlf0kwY",
   "proof/ring_responses/7 = 7wu7Jci5S1Ppz2uIytwiVJ4jj_3WSI8SRRBA0hLsGQQ",
   "proof/ring_responses/8 = HY3H4TRY_Xt5nn1KGaYmoHWfFgmQuMl7TgMwMQj7Agw",
   "proof/ring_responses/9 = cMgA1oCveJq4SSGOFG0RXaw3GGtvK2aBo2pAQWxLCwY",
   "proof/ring_responses/10 = IZvQK70YQ9yiUjqdAX7NBfkPa0dq1hkts97xXrDw9Qg",
   "proof/ring_responses/11 = yAUVqN1tPa_JxChHFLFXQsL-jt5frA7GJsj4D3Gs6gQ",
   "proof/ring_responses/12 = z-xZF1DZ3wl-LHDRbLa6ltnnQ6Z4GK5hv4RMEwjWvgM",
   "proof/ring_responses/13 = Je2UfVEXzwRNj435C7RLleqRj55GHWtUQENhu5UeswE"]

-- `tests/snapshots/snapshots__encrypted-choice-ristretto.snap`
#guard snapshot (Test.encryptedChoice ristretto rng) = some
  ["choices/0/random_element = gugt6pqWT9lwtV7WdEdZsVSYTUe0VyNh2w_CzDMKHXQ",
   "choices/0/blinded_element = tExVM936V6m9VXTOFajptSiHhVXsac5ZKPMXE6V7vE8",
   "choices/1/random_element = MH-LpdrtV4wiXOhpdvyUnyfwRmCev3ggAcaPzjziZUM",
   "choices/1/blinded_element = JuMk1OO70GsOBi0MhkZlGRFSsqI_ZFJFWYPGOTYnMFc",
   "choices/2/random_element = DoC7TMf3wHn1hAIJp7jMKmEPJ82HAe0zH81-19EmTzI",
   "choices/2/blinded_element = bEl8d_Zc_Omjs3uh4cmiHxQv35AWjvGATRsoMYwEgiA",
   "choices/3/random_element = 2jmew5jMxQCxZu5AT9vs0Wu57kvk02DX9QhaVOOVcAY",
   "choices/3/blinded_element = zPOBWBOG3e3i0JfZ8aLogcplYL524x3cyzCWMwoNEWk",
   "choices/4/random_element = uuyUjeIYhQr0k8UWm2tC26blex90gvJMh398ORbY21o",
   "choices/4/blinded_element = CMHNzwOalszXwEvLQyH0x2s8vNeujl0KuS-lvLe2yD8",
   "range_proof/common_challenge = VOaNeds2oRm3gYD_plo1OJmKCgpJKsn6iSh_cJULBwI",
   "range_proof/ring_responses/0 = n2Hh1J--wq6v518ePQoXLEMZR9uVH0T63m1VrJ-x-g8",
   "range_proof/ring_responses/1 = CoNRRFG5wnN2eagD-EIlsKjTU-bcPvJxao51kp6b2Qk",
   "range_proof/ring_responses/2 = FqJ-TBppAhdtrtYH9Fv7D-3FbF2nh1xdwOvaTI2tyAM",
   "range_proof/ring_responses/3 = IIDSehrJU_TcRDMQzYCmWxcnaRNyf9ArDdmQjgBngQo",
   "range_proof/ring_responses/4 = M6RvuJ3lj8VleOyw9C14-ABsHbA0D0Zrwd_4lg9Rdwk",
   "range_proof/ring_responses/5 = 7wu7Jci5S1Ppz2uIytwiVJ4jj_3WSI8SRRBA0hLsGQQ",
   "range_proof/ring_responses/6 = EIfmWQ_74uv-AbLAn2ifW1sTu2BiaiqYYb4N6az2XAA",
   "range_proof/ring_responses/7 = 928-6b3UMgh99udgp7XhuWmffD4LvYdff4-QlaHRZQ0",
   "range_proof/ring_responses/8 = y-mBVUuKQPTjPwMtWPe4gWwaKPE5cBYn0Af4tglFmgQ",
   "range_proof/ring_responses/9 = OVQmzJrszYnIb0oUFteCjWKpMx_Y2Ew9KFyEAeFejQg",
   "sum_proof/challenge = k4MaB59on0AcbS3H89NdPcyAYnmzussAG7B1MlHrVg4",
   "sum_proof/response = _e300z9DCxQam2AzF3wTfcS-8Qh9xIbAlxuc1IWeDAM"]

-- `tests/snapshots/snapshots__encrypted-multi-choice-ristretto.snap`
#guard snapshot (Test.encryptedMultiChoice ristretto rng) = some
  ["choices/0/random_element = gugt6pqWT9lwtV7WdEdZsVSYTUe0VyNh2w_CzDMKHXQ",
   "choices/0/blinded_element = tExVM936V6m9VXTOFajptSiHhVXsac5ZKPMXE6V7vE8",
   "choices/1/random_element = MH-LpdrtV4wiXOhpdvyUnyfwRmCev3ggAcaPzjziZUM",
   "choices/1/blinded_element = 5ng8pQx6FK8xJ3Uk7ZrRbsPjxLlejuT_V0Uai0MjGz8",
   "choices/2/random_element = Mmg8vsLhioDg4QxKtuGWXU-FWVTM0OIw9a2DPCi4kw0",
   "choices/2/blinded_element = DJFTNS_w8gqyGhpyDhrEtSSmjhI36q9UW6abyJq2n0Q",
   "choices/3/random_element = qOAkbAowCYWYzs-ZQ5r28iXCqk8KOZa2WmwFugs9dGM",
   "choices/3/blinded_element = WJKQG1pmYHMkTqA2PmdwgjVZX_S2od0Un4Q63WNqb1M",
   "choices/4/random_element = 3hlVaLYWpp2TqMsOw9QxJpp-KOxYUPX1-X9ZlBdnWms",
   "choices/4/blinded_element = rD4ZKNjrlvJy-4SA1xIuRPyjzWkLcdaLZgGKiCmI1y8",
   "range_proof/common_challenge = 9W2OaNmOZ4Y9FlqPMcmaKZ46-lvdhHY6OmKyZLk46QM",
   "range_proof/ring_responses/0 = QA34-TqArd3cZ4tZ2jJscTb78qkf_3ELvlXx1b8g_g4",
   "range_proof/ring_responses/1 = CoNRRFG5wnN2eagD-EIlsKjTU-bcPvJxao51kp6b2Qk",
   "range_proof/ring_responses/2 = Je2UfVEXzwRNj435C7RLleqRj55GHWtUQENhu5UeswE",
   "range_proof/ring_responses/3 = TfwRWAo3V_tGDR9bUT8qZ9jXHVEABxsn2WfATszReAg",
   "range_proof/ring_responses/4 = OVQmzJrszYnIb0oUFteCjWKpMx_Y2Ew9KFyEAeFejQg",
   "range_proof/ring_responses/5 = uRE_hbZ_G_5PleYKZbo-SmwztlNkbBbNCrXSrN3utg4",
   "range_proof/ring_responses/6 = km21fHo-MMgYXqKjbAvnTuX_jIP-nRMh-syGJD2EHwE",
   "range_proof/ring_responses/7 = HY3H4TRY_Xt5nn1KGaYmoHWfFgmQuMl7TgMwMQj7Agw",
   "range_proof/ring_responses/8 = EIfmWQ_74uv-AbLAn2ifW1sTu2BiaiqYYb4N6az2XAA",
   "range_proof/ring_responses/9 = QH0Q3bMKQ5tek-RB1xf7R7iMe9nJj_Pe_lmMv44igQg",
   "sum_proof = ~"]

-- `tests/snapshots/snapshots__sum-sq-proof-ristretto.snap`
#guard snapshot (Test.sumOfSquaresProof ristretto rng) = some
  ["challenge = hVfuguvzZ52rQ4jruked4fq5aayUc8nNCMUCqr-7TQ8",
   "ciphertext_responses/0 = up02z0PM3DEX2Nl9TVuzBhbMXmI3u91zTeDGz_h2Pgo",
   "ciphertext_responses/1 = h4-zS5lKoZi-dvzQpirhIJnd-KlrvFjgTdVCfNKnZwM",
   "ciphertext_responses/2 = QxSQCDjN621_joW8pXRb2sfTNumzlv6Fbd4y_prvlw4",
   "ciphertext_responses/3 = OFPqR_RheWo4PtNnqVZMw5xlVXAthsLqvblIP6t-9AM",
   "ciphertext_responses/4 = BppAfzP-f7LleWvQPr9UQFiFNsDTNR55IjhR6Jyl5AA",
   "ciphertext_responses/5 = 2kt0TN8s4iyjIDd2f5dlENu_zKMEeMe9WpJpudRRnA8",
   "ciphertext_responses/6 = c0QglkQckHT4CIt4rU8a07lHRBB5HyObDPp0AGLYEQo",
   "ciphertext_responses/7 = JfSnwOFTTCmqLp5fhIOyCTcpnxdzk6w4nyEhj-oYfQs",
   "ciphertext_responses/8 = sFA2lCR_H8QEwJalmWCHyCZv04pLQ8z6Y1EUu1k4lgQ",
   "ciphertext_responses/9 = wJfvZfNB6Qn0BvyxYTYPQqignzxH7v3KUqEGYi9XbwE",
   "sum_response = 9RQpKeEhwdmH7m1jWLKGmOdAIrKRi1QNpkSdBGNTwAE"]

-- `tests/snapshots/snapshots__qv-ballot-ristretto.snap`
#guard snapshot (Test.qvBallot ristretto rng) = some
  ["votes/0/ciphertext/random_element = gugt6pqWT9lwtV7WdEdZsVSYTUe0VyNh2w_CzDMKHXQ",
   "votes/0/ciphertext/blinded_element = 6Nc6VnCrbgr2nZU5HdfZlJItnLEN6oEn-wBPw6EAkWo",
   "votes/0/range_proof/partial_ciphertexts = []",
   "votes/0/range_proof/common_challenge = ACE6fSkgfvIPet4o5gwDG7kByubXr4XcdTbXv4_WCgs",
   "votes/0/range_proof/ring_responses/0 = CoNRRFG5wnN2eagD-EIlsKjTU-bcPvJxao51kp6b2Qk",
   "votes/0/range_proof/ring_responses/1 = EWICmTsD9AiJ0cAhSLmzM70sMZRWZtWs8UUPJQ2EKwI",
   "votes/0/range_proof/ring_responses/2 = fu7Ftmh4yEzcntFAqgpKhKSA6DtZfh1no4S4iLr_Awc",
   "votes/0/range_proof/ring_responses/3 = U_s0QuYqwQBo7aKsLxVIM7FuukkRaO_fP2m27WJu3gQ",
   "votes/1/ciphertext/random_element = Mmg8vsLhioDg4QxKtuGWXU-FWVTM0OIw9a2DPCi4kw0",
   "votes/1/ciphertext/blinded_element = gNyhWrCLLQ0w5UszNkk4CCS9hFMIMZb00BSSKuSsxXo",
   "votes/1/range_proof/partial_ciphertexts = []",
   "votes/1/range_proof/common_challenge = r2_7vmHqd40gCf702mcL6S-KVe5gTDYCZf1yARATRAs",
   "votes/1/range_proof/ring_responses/0 = odFVzxVgA1Xt0My1S1YxV1sX0Glwc34kM7NheiH_IwU",
   "votes/1/range_proof/ring_responses/1 = sGf7fGoa-4sdoAqXhM_SmaRpGBHmkazRXmYpHlf0kwY",
   "votes/1/range_proof/ring_responses/2 = 7wu7Jci5S1Ppz2uIytwiVJ4jj_3WSI8SRRBA0hLsGQQ",
   "votes/1/range_proof/ring_responses/3 = HY3H4TRY_Xt5nn1KGaYmoHWfFgmQuMl7TgMwMQj7Agw",
   "votes/2/ciphertext/random_element = 3hlVaLYWpp2TqMsOw9QxJpp-KOxYUPX1-X9ZlBdnWms",
   "votes/2/ciphertext/blinded_element = rD4ZKNjrlvJy-4SA1xIuRPyjzWkLcdaLZgGKiCmI1y8",
   "votes/2/range_proof/partial_ciphertexts = []",
   "votes/2/range_proof/common_challenge = _8RAGsTxpnnb65Rt9VeNsdMjyj2MQ3S3OEmBHQqsrQk",
   "votes/2/range_proof/ring_responses/0 = EIfmWQ_74uv-AbLAn2ifW1sTu2BiaiqYYb4N6az2XAA",
   "votes/2/range_proof/ring_responses/1 = o1TqzN7eVI9D5WgNh5JQR1G7pC3zPVE8uaXy7Up4kQY",
   "votes/2/range_proof/ring_responses/2 = Je2UfVEXzwRNj435C7RLleqRj55GHWtUQENhu5UeswE",
   "votes/2/range_proof/ring_responses/3 = OVQmzJrszYnIb0oUFteCjWKpMx_Y2Ew9KFyEAeFejQg",
   "votes/3/ciphertext/random_element = UhcI6cuLwWTH1t2yTGu6oghKrZzFZ0dvESLqvMoLDFk",
   "votes/3/ciphertext/blinded_element = CJXzBR-s0VkNGvnU_W7CVw1ViF-8MsR6NSmHNgQVdWc",
   "votes/3/range_proof/partial_ciphertexts = []",
   "votes/3/range_proof/common_challenge = _ea2UONo_SR_uHvVwvRvQECZMpNxc5XkRgHpqNnlRQA",
   "votes/3/range_proof/ring_responses/0 = RJ-mbdx382fzGqwxdQOjsqLd0azUGvLNGhsoJbuyRwo",
   "votes/3/range_proof/ring_responses/1 = m7qIpdOweydzmuduUU_V72HjnwGXA6YtCcVBKxrY_Q0",
   "votes/3/range_proof/ring_responses/2 = Fh2ujh7eGF1504s0cbJj00v5EpMRHLIT8n6gLpBUygc",
   "votes/3/range_proof/ring_responses/3 = 1DEk6ShNj5UGnPH2NDUvSC1WtnWmQPCMw45QT1SASwo",
   "votes/4/ciphertext/random_element = ylA0AnPopw_Kc34-iX1EJ4gkFmwORjeJtNmy-Pi8U20",
   "votes/4/ciphertext/blinded_element = Ct4sUq51Ww0RqCZYi7cfcQXyAw1xPJOSo8zF-UzgjF4",
   "votes/4/range_proof/partial_ciphertexts = []",
   "votes/4/range_proof/common_challenge = JxNWruhuInj_cu3dL9ILl7jGFUIMvWHcAxWwdSNWBwM",
   "votes/4/range_proof/ring_responses/0 = lEwkVk2Dc4EtH1W-tYbAziswJ4gYJd-G7QjZOos1PQQ",
   "votes/4/range_proof/ring_responses/1 = FHPGa56kcDrr27XzBLZZx4bX4_vHonYTZoszSsDEhws",
   "votes/4/range_proof/ring_responses/2 = rXuARlkWnKa3HeysztQ4JacLO-6rcrzTCcEt1Bcibgo",
   "votes/4/range_proof/ring_responses/3 = RviGmic5Rc0ADYeDblIt93Fe2AOiORNDfztw8oLxggI",
   "credit/ciphertext/random_element = uulqEdpxrXsWHpd4ZcFLh1jBlEwpLurDRpJ4ISfRcDs",
   "credit/ciphertext/blinded_element = -DrKh1FHlnm0nMd3P8zFiOU9IkTJvUl6mbw34STIAX4",
   "credit/range_proof/partial_ciphertexts/0/random_element = jN9NYkEnxJETke89o6LVR-BKWaFK_YDnvGqqfZOxVxs",
   "credit/range_proof/partial_ciphertexts/0/blinded_element = LK3daRfmWDUcsp3G4Wajt6nhAurDFQj-vWTzZvfX1AA",
   "credit/range_proof/common_challenge = DixJFvuodBNGmC6xGcwM1gU8YvxaPw9dvWYYXEd_Jwg",
   "credit/range_proof/ring_responses/0 = utgv3uvFh9obKMrF59z8ZH04UAqSakXUkeCzZUM0eg8",
   "credit/range_proof/ring_responses/1 = q8yl1fFL3CoE26acM1Ug1kBPnv930c-6gTPWlbcjoQA",
   "credit/range_proof/ring_responses/2 = 5LbYRtWSMuwmIQzFNqTC2sU1FhUebvYC0OC-EoKImQ0",
   "credit/range_proof/ring_responses/3 = 1Upv3UTh6Tv_Tnlub1i61cg294x2HVshjoZSG-_AeA4",
   "credit/range_proof/ring_responses/4 = DtrncgDZoYIY6-m57Bkyt7CIg1DcQ6NcXaxPRLDpiQg",
   "credit/range_proof/ring_responses/5 = -tbszLE3sOpCEUGPJ1QXbjHsohCncTx8qogx8q4qyQg",
   "credit/range_proof/ring_responses/6 = p4KKF-pYI8YVxljLKN-jlcTpRVYjG6gjMDU-NwSL5A0",
   "credit/range_proof/ring_responses/7 = 0ZX4TvFDvUtWDfH1FEAOfiuGt0XoVIX_BYJrIUmY3gg",
   "credit_equivalence_proof/challenge = RHwPNONuW2EEK0yLfoHl0ulDBaeJuXV80caoT0Xj7Q4",
   "credit_equivalence_proof/ciphertext_responses/0 = CjzBDJ2d6pmPZuo3T4KQPlB_WVla39jHWGlr3NitEww",
   "credit_equivalence_proof/ciphertext_responses/1 = Hs0eyYIYdkV_8j0uu1MmD9bSycq-FTRtP8R_OzycKwg",
   "credit_equivalence_proof/ciphertext_responses/2 = 2qOhsX7wMAk3r-e422ex6BzK7-e_ag1BDBzLui3j5AE",
   "credit_equivalence_proof/ciphertext_responses/3 = 20rxD-nP14IM7Hd5rmjnaZOivE5m3xTYRcBKrtSEYQE",
   "credit_equivalence_proof/ciphertext_responses/4 = UkMcGBtYjLX5Ynl0EB2eWlSgnmsqGaK1XhS99fZKIwI",
   "credit_equivalence_proof/ciphertext_responses/5 = 2IixVFQiUQ8fFo9miuVa1ruMuntm887bG_FsU0CTUgs",
   "credit_equivalence_proof/ciphertext_responses/6 = xv94Fu69zZy7CF5xHMRORGjs87PcKbw41Etv9ypegws",
   "credit_equivalence_proof/ciphertext_responses/7 = anWZ2YblZOB_O4msIkrip8P8MOeBmknG0x0_qdYvMQA",
   "credit_equivalence_proof/ciphertext_responses/8 = 0NMU5DJV03xWXYVmk-kUFqzuuRZsau9PJzbe3V_2eww",
   "credit_equivalence_proof/ciphertext_responses/9 = p0bXa5Aniqe60gIEHnEHxrAlbf1dSQAjtp_-_NAoNwM",
   "credit_equivalence_proof/sum_response = t5mTJeJzFW7cI7ax7AeXwZQ9srVvqriF_TUSJ2lr4AI"]

-- `tests/snapshots/snapshots__commitment-equiv-proof-ristretto.snap`
#guard snapshot (Test.commitmentEquivalence ristretto rng ristrettoBlindingBase) = some
  ["ciphertext/blinded_element = dtgjCjLgWM9p__dqKjLX2uO-wCYr9eFC89FYfFaGTDg",
   "ciphertext/random_element = gugt6pqWT9lwtV7WdEdZsVSYTUe0VyNh2w_CzDMKHXQ",
   "commitment = lHT2a6AewHoET3a82RQJaML87eN2fwEH1yCjGA98JSY",
   "proof/challenge = w5affnYGUR2u9Y4eXBCyakyQ8Oj681Aayx4FKBdlUQU",
   "proof/commitment_response = 1_kcEt4lNzvRirFPUGJORT8deIfo4iDdttAARqQkcwA",
   "proof/randomness_response = B_JEtu43XQMsTedgnA05WTKP4A6CYJW0gmN98wYcSQQ",
   "proof/value_response = zeBQjPE-8APdvci24pCLH3GBxn_kn7pRhxGFXy0WRwA"]

/-! ## `mod k256` -/

-- `tests/snapshots/snapshots__ciphertext-k256.snap`
#guard snapshot (Test.ciphertext k256 rng) = some
  ["random_element = AgQbzI7_NulX5AZav0Ty90yRPsu9APHrKvYGo03s3Dn_",
   "blinded_element = Aqr3F8gU1UEk63HrL2YVqBPPQND2qwBESv2nMM7ITvq8"]

-- `tests/snapshots/snapshots__ciphertext-bin-k256.snap`
#guard snapshot (Test.ciphertextBinary k256 rng) = some
  ["AgQbzI7_NulX5AZav0Ty90yRPsu9APHrKvYGo03s3Dn_Aqr3F8gU1UEk63HrL2YVqBPPQND2qwBESv2nMM7ITvq8"]

-- `tests/snapshots/snapshots__zero-encryption-k256.snap`
#guard snapshot (Test.zeroEncryption k256 rng) = some
  ["ciphertext/blinded_element = Ap9uGRrxTZpokI5bSjq33H5WMsM6EwjF1o--egduVmgM",
   "ciphertext/random_element = AgQbzI7_NulX5AZav0Ty90yRPsu9APHrKvYGo03s3Dn_",
   "proof/challenge = J4XKUI7y4PehrvZebh4jpB0Q_PR7zgxHGVwmHofg8gQ",
   "proof/response = lcU8XT8038FiwsZicFaeAkGsDubw3U72DrlJCQQl4CA"]

-- `tests/snapshots/snapshots__zero-encryption-bin-k256.snap`
#guard snapshot (Test.zeroEncryptionBinary k256 rng) = some
  ["J4XKUI7y4PehrvZebh4jpB0Q_PR7zgxHGVwmHofg8gSVxTxdPzTfwWLCxmJwVp4CQawO5vDdTvYOuUkJBCXgIA"]

-- `tests/snapshots/snapshots__bool-encryption-k256.snap`
#guard snapshot (Test.boolEncryption k256 rng) = some
  ["ciphertext/blinded_element = A3i3luvzoNkHo9I08Vjcm3Rc_Yw0gMyU7lKY1bzigvIJ",
   "ciphertext/random_element = AgQbzI7_NulX5AZav0Ty90yRPsu9APHrKvYGo03s3Dn_",
   "proof/common_challenge = 49_S7UN-1w1aOl7oJMRmidr0nz_WG1PfdBHSk95YPjY",
   "proof/ring_responses/0 = A5GmkLDdIK_ElgFwnTy7KW9tnQxDslStKdohL-Lw-jo",
   "proof/ring_responses/1 = fc-qbh0-gbQK64cb4lDEdJvxI8oyF5dEAXUr0j49eWg"]

-- `tests/snapshots/snapshots__bool-encryption-bin-k256.snap`
#guard snapshot (Test.boolEncryptionBinary k256 rng) = some
  ["49_S7UN-1w1aOl7oJMRmidr0nz_WG1PfdBHSk95YPjYDkaaQsN0gr8SWAXCdPLspb22dDEOyVK0p2iEv4vD6On3Pqm4dPoG0CuuHG-JQxHSb8SPKMheXRAF1K9I-PXlo"]

-- `tests/snapshots/snapshots__range-encryption-k256.snap`
#guard snapshot (Test.rangeEncryption k256 rng) = some
  ["ciphertext/blinded_element = Aqr3F8gU1UEk63HrL2YVqBPPQND2qwBESv2nMM7ITvq8",
   "ciphertext/random_element = AgQbzI7_NulX5AZav0Ty90yRPsu9APHrKvYGo03s3Dn_",
   "proof/common_challenge = 56_gutaVNLfILplShjtqb50WhpPKoJILtF4B_RVXSHI",
   "proof/partial_ciphertexts/0/blinded_element = AwH5KFdowRaehQgqnVITpIikMIQLKUZkE64IbESM5okW",
   "proof/partial_ciphertexts/0/random_element = AoDPSwZ1sGnygcyk1n2xIVBVXE2EVxec1enBbZINfU0h",
   "proof/partial_ciphertexts/1/blinded_element = Ax3zER0VldFzEk64D7kVukX0kqTN8O3p4vjZ31nD6rX7",
   "proof/partial_ciphertexts/1/random_element = A1vpeX89czeuNEIMmtycQuD-vyOBOVhf_k8lFjDpGS1x",
   "proof/ring_responses/0 = AtxlAGMPfUxBlUGZd1QEkqsdVx9foXiJEJ2RkN0uY3U",
   "proof/ring_responses/1 = Rc6YO1oSKrOVLCUJsDvVJlA-isUazfUlNwwnvRPEFAI",
   "proof/ring_responses/2 = 3AGSLyEtAxbA6UTGAdV9IEoWOYmL7KwJOzJs0yp9jAE",
   "proof/ring_responses/3 = 7e08r_Ko1RFmr9tJdJ34kSWR_IkVUa-dP7KWBo7200M",
   "proof/ring_responses/4 = iyh83JWrNH6fxy7sgI7y-fVVc491uukD47-dZNpTCT8",
   "proof/ring_responses/5 = cgLs-lveO6KKLQa5w9aJM1QnORdO9il9dFlUQnWCVYc",
   "proof/ring_responses/6 = WCR_faw2fO5VL7kBSEFWX57sZtqUwoeMNKU1SIGCx_8",
   "proof/ring_responses/7 = abjbejMVQqsxThw2mDuheunKgQFXOyTZPE8xXnj3J4Q",
   "proof/ring_responses/8 = Hq4ttiTnxW5k1afBQG3TVK1aTiVAsQKvK348xq_jtJY",
   "proof/ring_responses/9 = hpsBh8x4NTsDjGH0jPLzntAM4iT_h7_6dorzzHWoSlA",
   "proof/ring_responses/10 = P-oL5VRvgyJImzcZh9gJeHToyqH15UMU9ArT1d2YXtg",
   "proof/ring_responses/11 = VtNJYdsqVE8mxUPqwW6U_-Wy1uLOveNb9pnNRL2FgyQ",
   "proof/ring_responses/12 = hxY98KfuJmWutatzItOCObUP9qmxhJ6RGP55be1SV6I",
   "proof/ring_responses/13 = dvzLv2IkNfu_cU_uzU5T1tr48nv-NKYqEzO-GFnhyKY"]

-- `tests/snapshots/snapshots__encrypted-choice-k256.snap`
#guard snapshot (Test.encryptedChoice k256 rng) = some
  ["choices/0/random_element = AgQbzI7_NulX5AZav0Ty90yRPsu9APHrKvYGo03s3Dn_",
   "choices/0/blinded_element = Ap9uGRrxTZpokI5bSjq33H5WMsM6EwjF1o--egduVmgM",
   "choices/1/random_element = ArTsnXyCGVQRsyWMha-strO2-d3lZjFcnhysFN6qdz5F",
   "choices/1/blinded_element = As6fY_BbuFwa1s8U4gQnrewXVrq0_Peuso4p2FrC3FQr",
   "choices/2/random_element = AvyDBYSVQ3AZO2Z3t9yOdQ_LEqhvwGwPCv6bL6OYuz87",
   "choices/2/blinded_element = Aj1nlVV5A3sQzS-Z1pCk2LMkBBDjX_FJvxDiswYqfhSx",
   "choices/3/random_element = A1ccbaZpQHth3doN8JtL7UUKoSE024Bu637aUjdQcZKX",
   "choices/3/blinded_element = ArByKTDJ1_ZoTHy6jyDCg-YWuOuvXN7cO5mRblNQbPFn",
   "choices/4/random_element = Az7PQJdBQlY3kkrJarOBrCSvmHmnjjJmL4NULjhnkydZ",
   "choices/4/blinded_element = ApHfsPbl-nRo1vmXsFweeNo01ihSBNwm3Y59Nv_OTmmI",
   "range_proof/common_challenge = YbuE2s-7bIM4B-j4kMzq1WNjri7dOr2YbuwM48IcQsA",
   "range_proof/ring_responses/0 = cCaCg76iaRAVWthy6G3JqG4EOw1Dw7p_HgBfZ8kGWMo",
   "range_proof/ring_responses/1 = A5GmkLDdIK_ElgFwnTy7KW9tnQxDslStKdohL-Lw-jo",
   "range_proof/ring_responses/2 = APPJtwj4HeqzFoyIUSDxnEpUBtnKF8b_1-ETwEZON6Q",
   "range_proof/ring_responses/3 = JOSPSDFwLEmTWdaVRhRgS_NBxHSMQyiPZC7DdBf2qz8",
   "range_proof/ring_responses/4 = K2FeXUbwKbSVLPYj3zk2WOriHPk0wUeaQxKDikM6Hak",
   "range_proof/ring_responses/5 = abjbejMVQqsxThw2mDuheunKgQFXOyTZPE8xXnj3J4Q",
   "range_proof/ring_responses/6 = Rc6YO1oSKrOVLCUJsDvVJlA-isUazfUlNwwnvRPEFAI",
   "range_proof/ring_responses/7 = wKI1juuh2eJ89djhTcbppYZsQuR3gdROj75GdLlR5do",
   "range_proof/ring_responses/8 = LDK2bisgsAUSMDREARdQ8hFaxfw5CMDZOy4wsGSsziI",
   "range_proof/ring_responses/9 = AtxlAGMPfUxBlUGZd1QEkqsdVx9foXiJEJ2RkN0uY3U",
   "sum_proof/challenge = tG-4j34f5AR8xt7tWx5nmTYk4oLQgqExleWeyoO7Ze8",
   "sum_proof/response = zIg415cW6Emy9dD174-3DMslPiHNPkXqfdmHYbRpB5M"]

-- `tests/snapshots/snapshots__encrypted-multi-choice-k256.snap`
#guard snapshot (Test.encryptedMultiChoice k256 rng) = some
  ["choices/0/random_element = AgQbzI7_NulX5AZav0Ty90yRPsu9APHrKvYGo03s3Dn_",
   "choices/0/blinded_element = Ap9uGRrxTZpokI5bSjq33H5WMsM6EwjF1o--egduVmgM",
   "choices/1/random_element = ArTsnXyCGVQRsyWMha-strO2-d3lZjFcnhysFN6qdz5F",
   "choices/1/blinded_element = AvKO9hlU1CAgB1ti_cgIcKNbFknJhrGBQ-Jreq1TnPHs",
   "choices/2/random_element = A1vpeX89czeuNEIMmtycQuD-vyOBOVhf_k8lFjDpGS1x",
   "choices/2/blinded_element = AudhDxb2dIyFKV70o_e0XUoYVWdycbYh9kY7c3yi-cWB",
   "choices/3/random_element = Ahu1rSSRo-gjzP35fyMKcrz0ZKtKoMi2VpC2rAK50v_M",
   "choices/3/blinded_element = A_r6e0woor7xmm-vbFFE-r5bqP0h6BVJm5LWRHF0ZHwY",
   "choices/4/random_element = A69jbhMtuT9nhecpopt7jnG62L9Rlq6Gaai6t3oW4hFK",
   "choices/4/blinded_element = AzhQRLqUpwIDs5jDvLVgb2XsKy68IzW0-0F1F6vyR1OJ",
   "range_proof/common_challenge = H6eBWsmxZ5pusnsq38lgzjWoP7L78-I382BXmjpdHPM",
   "range_proof/ring_responses/0 = 8x6rLuF6jjeb6TEl7rgbEfGMiGh3zU-R7OgxtHKEN94",
   "range_proof/ring_responses/1 = A5GmkLDdIK_ElgFwnTy7KW9tnQxDslStKdohL-Lw-jo",
   "range_proof/ring_responses/2 = dvzLv2IkNfu_cU_uzU5T1tr48nv-NKYqEzO-GFnhyKY",
   "range_proof/ring_responses/3 = MYSBRZ9EDoNJ6UYDYdAsb5F2yoX7XZGOS7dvEGJ6RQs",
   "range_proof/ring_responses/4 = AtxlAGMPfUxBlUGZd1QEkqsdVx9foXiJEJ2RkN0uY3U",
   "range_proof/ring_responses/5 = i9CRAZDbXHwZFa_0mue9wY_o5yhFSmv9nMx1_aOJzxQ",
   "range_proof/ring_responses/6 = 1HFSD8iyRxjDWIUPVKCtBhELA0HQjkOpduN8ayLTNlU",
   "range_proof/ring_responses/7 = Hq4ttiTnxW5k1afBQG3TVK1aTiVAsQKvK348xq_jtJY",
   "range_proof/ring_responses/8 = Rc6YO1oSKrOVLCUJsDvVJlA-isUazfUlNwwnvRPEFAI",
   "range_proof/ring_responses/9 = O7Yjqso4805YQ06JAQdPShIHpqm8BHs6pLYntAOiO64",
   "sum_proof = ~"]

-- `tests/snapshots/snapshots__sum-sq-proof-k256.snap`
#guard snapshot (Test.sumOfSquaresProof k256 rng) = some
  ["challenge = TvLHPslyeqXJYMbwriA7E19mKSPaARFYJ-C6xLkGRos",
   "ciphertext_responses/0 = Sm0PAPy16fPC1WOUim6kpzElqNJAJ23BmEjKVlBBWdk",
   "ciphertext_responses/1 = uKuiuPyHvVD6ruMnRlvcjkkwqiUxPDYxZC_sIzH9bg8",
   "ciphertext_responses/2 = YNjPZfC0V3uXclUngU0ltchd6LwDoYhqrSwEW6FFym4",
   "ciphertext_responses/3 = c3NXRCjPpSxfrrbGl1Ok2jOQgKneQlPHLlrFjdCE3LA",
   "ciphertext_responses/4 = cr7aWI3O8EVG2UVV5VYXfhq3RYADH7HGM6JzOWaf1yo",
   "ciphertext_responses/5 = Y9Uhe757pe0bk6TA168FEj58kQDc7zn2ywOP2bS-WwY",
   "ciphertext_responses/6 = TiEh71fowlhCSBClIPEW73pd8WY1zfd4hHPCDPPiTaA",
   "ciphertext_responses/7 = bnIK8twzhTwW0ZWecx1ysHar8PKyRC4WzoyGBIKDf00",
   "ciphertext_responses/8 = wHX5xWdvgwgj6HR5qtvH9PJ5nzv6lvMZpDakbNg9nFM",
   "ciphertext_responses/9 = 4ZEtm8pmuYwVqSaeKA-8YggCx69hepnY_isUj4puopo",
   "sum_response = JG4yShI9S4uX7GR-SAafkjBuvKAjqIo6DYRKRF2pixQ"]

-- `tests/snapshots/snapshots__qv-ballot-k256.snap`
#guard snapshot (Test.qvBallot k256 rng) = some
  ["votes/0/ciphertext/random_element = AgQbzI7_NulX5AZav0Ty90yRPsu9APHrKvYGo03s3Dn_",
   "votes/0/ciphertext/blinded_element = ApmdU06u8LuJa15qKGGVv9ywaYJDSKKYkLKe5kftbhUA",
   "votes/0/range_proof/partial_ciphertexts = []",
   "votes/0/range_proof/common_challenge = yWwMtu1fhmlI8QIJqYpAM2x_mCmZSFJEHbevadlpKro",
   "votes/0/range_proof/ring_responses/0 = A5GmkLDdIK_ElgFwnTy7KW9tnQxDslStKdohL-Lw-jo",
   "votes/0/range_proof/ring_responses/1 = 7e08r_Ko1RFmr9tJdJ34kSWR_IkVUa-dP7KWBo7200M",
   "votes/0/range_proof/ring_responses/2 = iyh83JWrNH6fxy7sgI7y-fVVc491uukD47-dZNpTCT8",
   "votes/0/range_proof/ring_responses/3 = ZyYZiEtU-O7ekrYdOtNl1GptSFuGHpG0r-l9809vOyQ",
   "votes/1/ciphertext/random_element = A1vpeX89czeuNEIMmtycQuD-vyOBOVhf_k8lFjDpGS1x",
   "votes/1/ciphertext/blinded_element = Ax3zER0VldFzEk64D7kVukX0kqTN8O3p4vjZ31nD6rX7",
   "votes/1/range_proof/partial_ciphertexts = []",
   "votes/1/range_proof/common_challenge = teAFFdZbBt7R5eqQkxqEk1v4WH990P4AAdF_hSZXi3E",
   "votes/1/range_proof/ring_responses/0 = ofCJDw8XfRneLSWduoh5PhURGmTzzjoo9DSac3wrTxA",
   "votes/1/range_proof/ring_responses/1 = WCR_faw2fO5VL7kBSEFWX57sZtqUwoeMNKU1SIGCx_8",
   "votes/1/range_proof/ring_responses/2 = abjbejMVQqsxThw2mDuheunKgQFXOyTZPE8xXnj3J4Q",
   "votes/1/range_proof/ring_responses/3 = Hq4ttiTnxW5k1afBQG3TVK1aTiVAsQKvK348xq_jtJY",
   "votes/2/ciphertext/random_element = A69jbhMtuT9nhecpopt7jnG62L9Rlq6Gaai6t3oW4hFK",
   "votes/2/ciphertext/blinded_element = AzhQRLqUpwIDs5jDvLVgb2XsKy68IzW0-0F1F6vyR1OJ",
   "votes/2/range_proof/partial_ciphertexts = []",
   "votes/2/range_proof/common_challenge = r6GJ5LiJdRl5EmoNuM3C7DmYyAwb1Tfx2tyNOPLaqzI",
   "votes/2/range_proof/ring_responses/0 = Rc6YO1oSKrOVLCUJsDvVJlA-isUazfUlNwwnvRPEFAI",
   "votes/2/range_proof/ring_responses/1 = vExJrucD99CmP8izrw_s0lP-uWfXTeWmwlZw7BMxx-k",
   "votes/2/range_proof/ring_responses/2 = dvzLv2IkNfu_cU_uzU5T1tr48nv-NKYqEzO-GFnhyKY",
   "votes/2/range_proof/ring_responses/3 = AtxlAGMPfUxBlUGZd1QEkqsdVx9foXiJEJ2RkN0uY3U",
   "votes/3/ciphertext/random_element = Am2jRgD5SAkcgWO49lA5FIKXlMavo4y7u0Rmnyh4-9FH",
   "votes/3/ciphertext/blinded_element = A7VdzZ7TGMVyhghahKFUT0ltTnr-xNrzm_pLFjIzBSJC",
   "votes/3/range_proof/partial_ciphertexts = []",
   "votes/3/range_proof/common_challenge = 1HcVnCsY6uuklVdT0go-GpF7qATjt8m3h_jfxDiWBnI",
   "votes/3/range_proof/ring_responses/0 = dTeIBrmECQqYFrFjkcVVtp7hRKQpKV9ENmXsmnMudfA",
   "votes/3/range_proof/ring_responses/1 = wv3zxpxA71uW6BtfCRhDs6uGiA4gAZWaG9XTflgYSy0",
   "votes/3/range_proof/ring_responses/2 = 40uqRml3ODzcX-k5e4iZUmNqF0L1Y5Bs7igf3wiziCw",
   "votes/3/range_proof/ring_responses/3 = sdSPaKyAHMaMvEl7oFMtolNSJW3dFif-Dn7ZcJ3yTR4",
   "votes/4/ciphertext/random_element = AvGvyiDjYMkQr6Gt7WTTlq0krVKxcj0k8qYhYYzxn6Mb",
   "votes/4/ciphertext/blinded_element = A3q2qdSR9ju9BX6Kjry1KTi_dk-DoC1WHAYKQVDOqPXX",
   "votes/4/range_proof/partial_ciphertexts = []",
   "votes/4/range_proof/common_challenge = RFI_OG3RoiodSUMZtPRStoBcGw-I6CzKoIgMilKG_Vo",
   "votes/4/range_proof/ring_responses/0 = 7ABUTee8V1Fb_ZSApBfj0a-pcIuL6zEZnonwjchJSrk",
   "votes/4/range_proof/ring_responses/1 = nCXztLqEOYgzKfk6wCJoN13MG97pcbUYpb9cym0LKOU",
   "votes/4/range_proof/ring_responses/2 = SdwPlXuts27F5wA4aVuJ8X2XNmFlLsbPJFmX-DOmcGk",
   "votes/4/range_proof/ring_responses/3 = PaGL4i810Om21WWdvgP9Fo2xucsnJHISL2fjwfhVxvY",
   "credit/ciphertext/random_element = A6eY9tHhelO0kOD9aRckv5PWzMjdPY5YMJvAJ1sCuOpX",
   "credit/ciphertext/blinded_element = Aoa2iICvHXISlG8eDLZf_dwh-YBCOGkKL-3dwmp7ezKN",
   "credit/range_proof/partial_ciphertexts/0/random_element = A2ZRL9wDJzEVOtonU6pU7kU-VfebpQbyWUK1HjAwXFYP",
   "credit/range_proof/partial_ciphertexts/0/blinded_element = A4y1j6irBz2bKWDpS_mJouRToriB3yZd2xyqnzMUZqSQ",
   "credit/range_proof/common_challenge = muqYmqotXJveQPoZ3qXW-sbmYFlUAmSuE4YWJrsshKM",
   "credit/range_proof/ring_responses/0 = zuoTYdq-kKcKQnFqQ0DZzKOjAdiGPAMLJb13fm6C-2s",
   "credit/range_proof/ring_responses/1 = 3oi3iJ0o6bx9A5Q9kzsWTNtjTOS3TtzhItlRpbjHf3A",
   "credit/range_proof/ring_responses/2 = nMn1csEYI0afpMaKhD9nxzOhqFW8mODRR0xifhH1XRg",
   "credit/range_proof/ring_responses/3 = q8lu5A7SLryiKOVrAZ2X6TaukCH_0NANPi_kpCpStPk",
   "credit/range_proof/ring_responses/4 = R8-6m5YgxgtogS7v2g795GU1KpwrkAVHl5CyjQlm8yY",
   "credit/range_proof/ring_responses/5 = uKy2J0zzfAXbj2a3fNY1t0RMpqSfA18eFqrlWjAObVs",
   "credit/range_proof/ring_responses/6 = GJv2T52vLpxsiKRW9oseGPnkJ8IszJtH37qBZAwOpwA",
   "credit/range_proof/ring_responses/7 = MiOUMjXqkl9Uh6TF59eymZ7zGrlX_2FzysIw8dXYxQw",
   "credit_equivalence_proof/challenge = uZQf6L7VMCxNe-vq4c8SVincoC2A3WEke_GxgdY7rPo",
   "credit_equivalence_proof/ciphertext_responses/0 = gfpXeTgAldJxLYo6JCG1Ces02bNUC696Z3P5_c2jnX4",
   "credit_equivalence_proof/ciphertext_responses/1 = 6l09i5jdOzdr0Ou_ek4lMGKxkhO6C5xUNftswF6XY1w",
   "credit_equivalence_proof/ciphertext_responses/2 = ifWwUdNI6Y4k4BwyhNzSjHm3PPkvDqKJCy_JlMd7bXE",
   "credit_equivalence_proof/ciphertext_responses/3 = P1Wc7ipFecYYLNl2d324HvmvT6PRPFMudbf6Bg3PKmY",
   "credit_equivalence_proof/ciphertext_responses/4 = tqlgFHxt6hXfn0psFalh_gRwl1_w4Y3nphUbX7St19g",
   "credit_equivalence_proof/ciphertext_responses/5 = 1effktG1YtSrTXpi5zDhvxKh48rEJkSHreasF0Pl9Gc",
   "credit_equivalence_proof/ciphertext_responses/6 = W8TWMGHGVWWNLyVqoS9nhw0TxBGPtoVR3ZA1JuoSiv8",
   "credit_equivalence_proof/ciphertext_responses/7 = JmFIFV2aI2Q8JJkcon-Dr3X8UOA-k27Mhwjnbc9ruCM",
   "credit_equivalence_proof/ciphertext_responses/8 = vKykWcxDpSomJSS-poNZuo_S117EGbiQmkN-XRy310s",
   "credit_equivalence_proof/ciphertext_responses/9 = 0DOLfhnQ8YJ0yR31IVkwV2GoUKjZQIvY_O9_Oo0tTHs",
   "credit_equivalence_proof/sum_response = b3YCd82YQAoyVwRCmR6nXz4YePr7a18JoApsauJrtiI"]

-- `tests/snapshots/snapshots__commitment-equiv-proof-k256.snap`
#guard snapshot (Test.commitmentEquivalence k256 rng k256BlindingBase) = some
  ["ciphertext/blinded_element = AnlDgrDKfjVwC2gZp-LoKHYR9GG_UFOYt3d8qQZwUmEU",
   "ciphertext/random_element = AgQbzI7_NulX5AZav0Ty90yRPsu9APHrKvYGo03s3Dn_",
   "commitment = A6EmmnhLsZ1jBLCRax0Rb075Tlp33Xzhbo0S6_Dz6KlK",
   "proof/challenge = hIkpBORFeMenC7kaonVc10xckm3hp32Gh-FYtGCLsSY",
   "proof/commitment_response = l_e2IMM5PnIGGZEZh72HI8h59ZiEgkv9z2PnOpMTn38",
   "proof/randomness_response = 8X6oldgfdXnYj2reoB6XcpzxLUDEGO-gmuWxa72ef3A",
   "proof/value_response = m9PyCaAJ3P6pUcsVgwGUVCpVHaiuovBQlGCRfOSEoEU"]

end ElasticElgamal
