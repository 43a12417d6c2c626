import Verif.Lemmas.Serde
import Verif.Toy

/-!
# Serialization (C52)

`RoundTrips ser de x`: serializing `x` does not panic, and deserializing the result gives `x` back.
`fmt` ranges over human-readable and binary formats (`Format`), `B` over the groups.
-/

set_option autoImplicit false
set_option linter.unusedSectionVars false

namespace ElasticElgamal

open Spec Toy Serde

variable {F E : Type} [Field F] [AddCommGroup E] [Module F E] [DecidableEq F] [DecidableEq E]

/-! ## Formats for the examples -/

/-- A human-readable format; base64 is replaced by a toy encoding with a terminating character. -/
def Toy.textFormat : Format where
  humanReadable := true
  flattenHumanReadable := true
  encode b := b ++ [61]
  decode b := if b.getLast? = some 61 then some b.dropLast else none
  sizeHint _ := none

/-- A binary format that reports the length of sequences. -/
def Toy.binaryFormat : Format := { textFormat with humanReadable := false, sizeHint := some }

theorem Toy.textFormat_lawful : textFormat.Lawful :=
  ⟨fun _ => rfl, fun b => by simp [textFormat], by simp [textFormat]⟩

theorem Toy.binaryFormat_lawful : binaryFormat.Lawful :=
  ⟨fun _ => rfl, fun b => by simp [textFormat, binaryFormat], by simp [binaryFormat]⟩

/-! ## Round trips -/

section RoundTrip
variable {fmt : Format} (hf : fmt.Lawful) {B : Backend F E} (hB : B.Lawful)
include hf

theorem C52_roundtrip_opening {b : Bytes} (h : b.length = 32) :
    deserializeOpening fmt (serializeOpening fmt b) = .ok b := opening_reads (Reads.rfl' hf) h

include hB

theorem C52_roundtrip_scalar (s : F) : deserializeScalar B fmt (serializeScalar B fmt s) = .ok s :=
  scalar_reads (Reads.rfl' hf) hB s

theorem C52_roundtrip_element {e : E} (h : Encodable B e) :
    RoundTrips (serializeElement B fmt) (deserializeElement B fmt) e := element_rt (Reads.rfl' hf) hB h

theorem C52_roundtrip_secret_key (s : SecretKey F) :
    deserializeSecretKey B fmt (serializeSecretKey B fmt s) = .ok s := secretKey_reads (Reads.rfl' hf) hB s

/-- Public keys other than the identity. -/
theorem C52_roundtrip_public_key {key : PublicKey E} (h : KeyOk B key) :
    deserializePublicKey B fmt (serializePublicKey fmt key) = .ok key := publicKey_reads (Reads.rfl' hf) hB h

/-- Key pairs are serialized as the secret key, the public key is recomputed. -/
theorem C52_roundtrip_keypair {kp : Keypair F E} (h : KeyOf B kp.publicKey kp.secret) :
    deserializeKeypair B fmt (serializeKeypair B fmt kp) = some (.ok kp) := keypair_reads (Reads.rfl' hf) hB h

/-- Vectors with at least the minimum number of items. -/
theorem C52_roundtrip_vec {α : Type} {min : ℕ} {ser : α → Option Data} {de : Data → Except DeError α}
    {l : List α} (hmin : min ≤ l.length) (h : ∀ x ∈ l, RoundTrips ser de x) :
    RoundTrips (serializeVec B min ser) (deserializeVec fmt min de) l := by
  obtain ⟨d, hd⟩ := serializeVec_some (B := B) hmin fun x hx => (h x hx).imp fun _ => And.left
  exact ⟨d, hd, vec_reads (Reads.rfl' hf) hmin (fun x hx => roundTrips_all (h x hx)) hd⟩

theorem C52_roundtrip_ciphertext {c : Ciphertext E} (h : EncodableCt B c) :
    RoundTrips (serializeCiphertext B fmt) (deserializeCiphertext B fmt) c := ciphertext_rt (Reads.rfl' hf) hB h

/-- A verifiable decryption is read back as a candidate decryption. -/
theorem C52_roundtrip_decryption {d : VerifiableDecryption E} (h : Encodable B d.dhElement) :
    ∃ data, serializeDecryption B fmt d = some data ∧ deserializeCandidate B fmt data = .ok ⟨d⟩ := by
  obtain ⟨d1, h1, h2⟩ := element_rt (Reads.rfl' hf) hB h
  refine ⟨_, by simp only [serializeDecryption, h1]; rfl, ?_⟩
  simp [deserializeCandidate, asMap, field, h2]

theorem C52_roundtrip_log_eq (p : LogEqualityProof F) :
    deserializeLogEq B fmt (serializeLogEq B fmt p) = .ok p := logEq_rt (Reads.rfl' hf) hB p

theorem C52_roundtrip_pop {p : ProofOfPossession F} (h : 1 ≤ p.responses.length) :
    RoundTrips (serializePop B fmt) (deserializePop B fmt) p := pop_rt (Reads.rfl' hf) hB h

theorem C52_roundtrip_commitment_eq (p : CommitmentEquivalenceProof F) :
    deserializeCommitmentEq B fmt (serializeCommitmentEq B fmt p) = .ok p := by
  simp [deserializeCommitmentEq, serializeCommitmentEq, asMap, field, scalar_reads (Reads.rfl' hf) hB]

theorem C52_roundtrip_sum_of_squares {p : SumOfSquaresProof F} (h : 2 ≤ p.ciphertextResponses.length) :
    RoundTrips (serializeSumOfSquares B fmt) (deserializeSumOfSquares B fmt) p :=
  sumOfSquares_rt (Reads.rfl' hf) hB h

theorem C52_roundtrip_ring {p : RingProof F} (h : 2 ≤ p.ringResponses.length) :
    RoundTrips (serializeRing B fmt) (deserializeRing B fmt) p := ring_rt (Reads.rfl' hf) hB h

/-- Range proofs, whose ring proof is flattened: the scalars are written in the actual format, but read
through a buffer which may claim to be human readable. -/
theorem C52_roundtrip_range {p : RangeProof F E} (h : RangeOk B p) :
    RoundTrips (serializeRange B fmt) (deserializeRange B fmt) p := range_rt hf hB h

theorem C52_roundtrip_choice {kind : ChoiceKind} {c : EncryptedChoice F E kind}
    (h1 : ∀ ct ∈ c.choices, EncodableCt B ct) (h2 : 2 ≤ c.rangeProof.ringResponses.length) :
    RoundTrips (serializeChoice B fmt) (deserializeChoice B fmt kind) c := by
  obtain ⟨d1, h1, h1'⟩ := ciphertexts_rt (Reads.rfl' hf) hB h1
  obtain ⟨d2, h2, h2'⟩ := ring_rt (Reads.rfl' hf) hB h2
  have h3 : deserializeSumProof B fmt kind (serializeSumProof B fmt c.sumProof) = .ok c.sumProof := by
    cases kind with
    | single => exact logEq_rt (Reads.rfl' hf) hB c.sumProof
    | multi => rfl
  refine ⟨_, by simp only [serializeChoice, h1, h2]; rfl, ?_⟩
  simp [deserializeChoice, asMap, field, h1', h2', h3]

theorem C52_roundtrip_ballot {b : QuadraticVotingBallot F E} (h : BallotOk B b) :
    RoundTrips (serializeBallot B fmt) (deserializeBallot B fmt) b := by
  obtain ⟨h1, h2, h3, h4⟩ := h
  obtain ⟨d1, h1, h1'⟩ := list_rt fun v hv => withRange_rt hf hB (h1 v hv).1 (h1 v hv).2
  obtain ⟨d2, h2, h2'⟩ := withRange_rt hf hB h2 h3
  obtain ⟨d3, h3, h3'⟩ := sumOfSquares_rt (Reads.rfl' hf) hB h4
  refine ⟨_, by simp only [serializeBallot, h1, h2, h3]; rfl, ?_⟩
  simp [deserializeBallot, asMap, field, h1', h2', h3']

theorem C52_roundtrip_public_info {info : PublicInfo F E} (h1 : PolynomialOk B info.polynomial)
    (h2 : 1 ≤ info.proofOfPossession.responses.length) (h3 : info.opening.length = 32) :
    RoundTrips (serializePublicInfo B fmt) (deserializePublicInfo B fmt) info := by
  obtain ⟨d1, h1, h1'⟩ := polynomial_rt (Reads.rfl' hf) hB h1
  obtain ⟨d2, h2, h2'⟩ := pop_rt (Reads.rfl' hf) hB h2
  refine ⟨_, by simp only [serializePublicInfo, h1, h2]; rfl, ?_⟩
  simp [deserializePublicInfo, asMap, field, h1', h2', opening_reads (Reads.rfl' hf) h3]

/-- Key sets. Nothing relates the parameters, the shared key and the participant keys. -/
theorem C52_roundtrip_key_set {ks : PublicKeySet E} (h1 : ParamsFit ks.params) (h2 : KeyOk B ks.sharedKey)
    (h3 : ∀ key ∈ ks.participantKeys, KeyOk B key) :
    deserializeKeySet B fmt (serializeKeySet fmt ks) = .ok ks := by
  have h4 := list_map_rt (ser := serializePublicKey fmt) fun key hkey =>
    publicKey_reads (Reads.rfl' hf) hB (h3 key hkey)
  simp [deserializeKeySet, serializeKeySet, asMap, field, params_rt h1, publicKey_reads (Reads.rfl' hf) hB h2, h4]

theorem C52_roundtrip_participant {p : ActiveParticipant F E} (h1 : ParamsFit p.keySet.params)
    (h2 : KeyOk B p.keySet.sharedKey) (h3 : ∀ key ∈ p.keySet.participantKeys, KeyOk B key)
    (h4 : p.index < 2 ^ 64) :
    deserializeParticipant B fmt (serializeParticipant B fmt p) = .ok p := by
  have u : deserializeUsize (serializeUsize p.index) = .ok p.index := if_pos h4
  simp [deserializeParticipant, serializeParticipant, asMap, field, C52_roundtrip_key_set hf hB h1 h2 h3, u,
    secretKey_reads (Reads.rfl' hf) hB]

theorem C52_roundtrip_dealer {d : Dealer F E} (h : DealerOk B d) :
    RoundTripsP (serializeDealer B fmt) (deserializeDealer B fmt) d := dealer_rt hf hB h

/-- First stage of the distributed key generation. -/
theorem C52_roundtrip_collecting_commitments {p : CollectingCommitments F E} (h1 : ParamsFit p.params)
    (h2 : p.index < 2 ^ 64) (h3 : DealerOk B p.dealer) (h4 : ∀ c, some c ∈ p.commitments → c.length = 32)
    (h5 : p.opening.length = 32) :
    RoundTripsP (serializeCollectingCommitments B fmt) (deserializeCollectingCommitments B fmt) p := by
  have u : deserializeUsize (serializeUsize p.index) = .ok p.index := if_pos h2
  obtain ⟨d1, h3, h3'⟩ := dealer_rt hf hB h3
  obtain ⟨d2, h4, h4'⟩ := list_rt (ser := serializeOption fun c => some (serializeHash c))
    (de := deserializeOption deserializeHash) (l := p.commitments) fun c hc =>
      option_rt (by simp [serializeHash]) fun y hy => ⟨_, rfl, hash_rt (h4 y (by rwa [← Option.mem_def.mp hy]))⟩
  refine ⟨_, by simp only [serializeCollectingCommitments, h3, h4]; rfl, ?_⟩
  simp [deserializeCollectingCommitments, withDealer, asMap, field, params_rt h1, u, h3', h4',
    opening_reads (Reads.rfl' hf) h5]

/-- Second stage of the distributed key generation. -/
theorem C52_roundtrip_collecting_polynomials {p : CollectingPolynomials F E} (h1 : ParamsFit p.params)
    (h2 : p.index < 2 ^ 64) (h3 : DealerOk B p.dealer) (h4 : ∀ c ∈ p.commitments, c.length = 32)
    (h5 : p.opening.length = 32) (h6 : ∀ poly, some poly ∈ p.publicPolynomials → PolynomialOk B poly) :
    RoundTripsP (serializeCollectingPolynomials B fmt) (deserializeCollectingPolynomials B fmt) p := by
  have u : deserializeUsize (serializeUsize p.index) = .ok p.index := if_pos h2
  obtain ⟨d1, h3, h3'⟩ := dealer_rt hf hB h3
  have h4' := list_map_rt (ser := serializeHash) (de := deserializeHash) fun c hc => hash_rt (h4 c hc)
  have hn : ∀ y, serializePolynomial B fmt y ≠ some .null := by
    intro y
    simp only [serializePolynomial, serializeVec, ne_eq, Option.bind_eq_bind, Option.bind_eq_some_iff,
      Option.pure_def, Option.some.injEq, not_exists, not_and]
    rintro _ - _ - ⟨⟩
  obtain ⟨d2, h6, h6'⟩ := list_rt (ser := serializeOption (serializePolynomial B fmt))
    (de := deserializeOption (deserializePolynomial B fmt)) (l := p.publicPolynomials) fun c hc =>
      option_rt hn fun y hy =>
        polynomial_rt (Reads.rfl' hf) hB (h6 y (by rwa [← Option.mem_def.mp hy]))
  refine ⟨_, by simp only [serializeCollectingPolynomials, h3, h6]; rfl, ?_⟩
  simp [deserializeCollectingPolynomials, withDealer, asMap, field, params_rt h1, u, h3', h4', h6',
    opening_reads (Reads.rfl' hf) h5]

/-- Third stage of the distributed key generation. -/
theorem C52_roundtrip_exchanging_secrets {p : ExchangingSecrets F E} (h1 : ParamsFit p.params)
    (h2 : p.index < 2 ^ 64) (h3 : DealerOk B p.dealer) (h4 : ∀ poly ∈ p.publicPolynomials, PolynomialOk B poly) :
    RoundTripsP (serializeExchangingSecrets B fmt) (deserializeExchangingSecrets B fmt) p := by
  have u : deserializeUsize (serializeUsize p.index) = .ok p.index := if_pos h2
  obtain ⟨d1, h3, h3'⟩ := dealer_rt hf hB h3
  obtain ⟨d2, h4, h4'⟩ := list_rt (ser := serializePolynomial B fmt) (de := deserializePolynomial B fmt)
    fun c hc => polynomial_rt (Reads.rfl' hf) hB (h4 c hc)
  have h5 := list_map_rt (ser := serializeBool) (de := deserializeBool) (l := p.sharesReceived) fun _ _ => rfl
  refine ⟨_, by simp only [serializeExchangingSecrets, h3, h4]; rfl, ?_⟩
  simp [deserializeExchangingSecrets, withDealer, asMap, field, params_rt h1, u, h3', h4', h5,
    secretKey_reads (Reads.rfl' hf) hB]

end RoundTrip

section
variable {fmt : Format} (hf : fmt.Lawful) {B : Backend F E} (hB : B.Lawful)

/-- Serialization followed by deserialization in a group where any element has an encoding never fails for
ciphertexts. -/
theorem C52_total (hf : fmt.Lawful) (hB : B.Lawful) (hT : B.TotalSer) (c : Ciphertext E) :
    RoundTrips (serializeCiphertext B fmt) (deserializeCiphertext B fmt) c :=
  ciphertext_rt (Reads.rfl' hf) hB ⟨hT _, hT _⟩

/-! ## What is accepted -/

/-- A scalar is read exactly from data carrying its canonical encoding. -/
theorem C52_scalar_accepts (hB : B.Lawful) (d : Data) (s : F) :
    deserializeScalar B fmt d = .ok s ↔ Carries fmt d (B.serScalar s) := by
  simp only [deserializeScalar, except_bind_eq_ok, deserializeBytes_eq_ok]
  constructor
  · rintro ⟨b, h1, h2⟩
    split at h2
    · rename_i hl
      split at h2
      · rename_i s' hs
        simp only [except_pure, Except.ok.injEq] at h2
        subst h2
        rwa [hB.serScalar_deScalar b _ hl hs]
      · simp at h2
    · simp at h2
  · intro h
    exact ⟨_, h, by simp [hB.serScalar_length, hB.deScalar_serScalar]⟩

/-- Same for secret keys. -/
theorem C52_secret_key_accepts (hB : B.Lawful) (d : Data) (s : SecretKey F) :
    deserializeSecretKey B fmt d = .ok s ↔ Carries fmt d (B.serScalar s) := by
  simp only [deserializeSecretKey, except_bind_eq_ok, deserializeBytes_eq_ok]
  constructor
  · rintro ⟨b, h1, h2⟩
    cases hs : SecretKey.fromBytes B b with
    | none => rw [hs] at h2; simp at h2
    | some s' =>
      rw [hs] at h2
      simp only [except_pure, Except.ok.injEq] at h2
      subst h2
      unfold SecretKey.fromBytes at hs
      split at hs
      · cases hs
      · rename_i hl
        rwa [hB.serScalar_deScalar b _ (by simpa using hl) hs]
  · intro h
    exact ⟨_, h, by simp [SecretKey.fromBytes, hB.serScalar_length, hB.deScalar_serScalar]⟩

/-- An element is read from data carrying an encoding of the right size. -/
theorem C52_element_accepts (d : Data) (e : E) :
    deserializeElement B fmt d = .ok e ↔
      ∃ b, Carries fmt d b ∧ b.length = B.elementSize ∧ B.deElem b = some e := by
  simp only [deserializeElement, except_bind_eq_ok, deserializeBytes_eq_ok]
  refine exists_congr fun b => and_congr_right fun _ => ?_
  by_cases hl : b.length = B.elementSize
  · simp only [hl, if_true, true_and]
    cases B.deElem b <;> simp
  · simp [hl]

/-- For groups with canonical encodings there is only one way to write an element. -/
theorem C52_element_canonical (hB : B.Lawful) (hC : B.CanonicalElems) (d : Data) (e : E) :
    deserializeElement B fmt d = .ok e ↔ ∃ b, Carries fmt d b ∧ B.serElem e = some b := by
  rw [C52_element_accepts]
  refine exists_congr fun b => and_congr_right fun _ => ⟨fun h => hC b e h.1 h.2, fun h => ?_⟩
  exact ⟨hB.serElem_length e b h, hB.deElem_serElem e b h⟩

/-- A public key is read from data carrying its bytes; the identity is rejected. -/
theorem C52_public_key_accepts (d : Data) (key : PublicKey E) :
    deserializePublicKey B fmt d = .ok key ↔
      Carries fmt d key.bytes ∧ key.bytes.length = B.elementSize ∧ B.deElem key.bytes = some key.element ∧
        key.element ≠ 0 := by
  simp only [deserializePublicKey, except_bind_eq_ok, deserializeBytes_eq_ok]
  constructor
  · rintro ⟨b, h1, h2⟩
    unfold PublicKey.fromBytes at h2
    split at h2
    · simp [Except.mapError] at h2
    · rename_i hl
      split at h2
      · simp [Except.mapError] at h2
      · rename_i e he
        split at h2
        · simp [Except.mapError] at h2
        · rename_i hne
          simp only [Except.mapError, Except.ok.injEq] at h2
          subst h2
          exact ⟨h1, by simpa using hl, he, hne⟩
  · rintro ⟨h1, h2, h3, h4⟩
    exact ⟨_, h1, by simp [PublicKey.fromBytes, h2, h3, h4, Except.mapError]⟩

/-- A key pair is read from its secret scalar, and the public key matches. -/
theorem C52_keypair_accepts (hB : B.Lawful) (d : Data) (kp : Keypair F E) :
    deserializeKeypair B fmt d = some (.ok kp) ↔
      Carries fmt d (B.serScalar kp.secret) ∧ KeyOf B kp.publicKey kp.secret := by
  rw [← C52_secret_key_accepts hB]
  unfold deserializeKeypair
  cases h : deserializeSecretKey B fmt d with
  | error e => simp
  | ok s =>
    simp only [Keypair.ofSecret, PublicKey.ofSecret, PublicKey.fromElement, Backend.mulGen,
      Option.bind_eq_bind, Option.pure_def, Option.bind_eq_some_iff, Option.some.injEq, Except.ok.injEq, KeyOf]
    constructor
    · rintro ⟨_, ⟨_, ⟨b, hb, rfl⟩, rfl⟩, rfl⟩
      exact ⟨rfl, rfl, hb⟩
    · rintro ⟨rfl, h1, h2⟩
      refine ⟨_, ⟨_, ⟨_, h2, rfl⟩, rfl⟩, ?_⟩
      rw [← h1]

/-- An opening is read from exactly 32 bytes. -/
theorem C52_opening_accepts (d : Data) (b : Bytes) :
    deserializeOpening fmt d = .ok b ↔ Carries fmt d b ∧ b.length = 32 := by
  simp only [deserializeOpening, except_bind_eq_ok, deserializeBytes_eq_ok]
  constructor
  · rintro ⟨b', h1, h2⟩
    split at h2
    · simp only [except_pure, Except.ok.injEq] at h2; subst h2; exact ⟨h1, ‹_›⟩
    · simp at h2
  · rintro ⟨h1, h2⟩
    exact ⟨b, h1, by simp [h2]⟩

/-- A commitment of distributed key generation is read from a sequence of exactly 32 byte values. -/
theorem C52_hash_accepts (d : Data) (b : Bytes) :
    deserializeHash d = .ok b ↔ d = .seq (b.map fun x => .uint x.toNat) ∧ b.length = 32 := by
  simp only [deserializeHash, except_bind_eq_ok]
  constructor
  · rintro ⟨ds, h1, l, h2, h3⟩
    rw [mapM_deserializeByte] at h2
    split at h3
    · simp only [except_pure, Except.ok.injEq] at h3
      subst h3
      refine ⟨?_, ‹_›⟩
      unfold asSeq at h1
      split at h1
      · rw [← h2]; cases h1; rfl
      · cases h1
    · simp at h3
  · rintro ⟨rfl, h⟩
    exact ⟨_, rfl, b, mapM_deserializeByte.mpr rfl, by simp [h]⟩

/-- 32 bytes are accepted; 31 bytes, a value beyond a byte, and a string are not. -/
example : deserializeHash (.seq (List.replicate 32 (.uint 255))) = .ok (List.replicate 32 255) ∧
    deserializeHash (.seq (List.replicate 31 (.uint 255))) = .error (.invalidLength 31) ∧
    deserializeHash (.seq (List.replicate 32 (.uint 256))) = .error .invalidValue ∧
    deserializeHash (.str []) = .error .invalidType := by
  decide +kernel

/-- A vector is read from a sequence with at least the minimum number of items, item by item. -/
theorem C52_vec_accepts (hf : fmt.Lawful) {α : Type} (min : ℕ) (item : Data → Except DeError α) (d : Data)
    (l : List α) :
    deserializeVec fmt min item d = .ok l ↔
      ∃ items, d = .seq items ∧ min ≤ l.length ∧ List.Forall₂ (fun a b => item a = .ok b) items l :=
  deserializeVec_eq_ok hf.sizeHint_eq

/-- Fields of a struct may come in any order and among unknown ones, but each exactly once. -/
theorem C52_log_eq_accepts (hB : B.Lawful) (d : Data) (p : LogEqualityProof F) :
    deserializeLogEq B fmt d = .ok p ↔
      ∃ fields d1 d2, d = .map fields ∧
        fields.filter (fun f => f.1 = "challenge") = [("challenge", d1)] ∧
        fields.filter (fun f => f.1 = "response") = [("response", d2)] ∧
        Carries fmt d1 (B.serScalar p.challenge) ∧ Carries fmt d2 (B.serScalar p.response) := by
  cases d with
  | map fields =>
    simp only [deserializeLogEq, asMap, except_bind_ok, except_bind_eq_ok, field_eq_ok, except_pure,
      Except.ok.injEq, C52_scalar_accepts hB]
    constructor
    · rintro ⟨d1, h1, c, h2, d2, h3, r, h4, rfl⟩
      exact ⟨fields, d1, d2, rfl, h1, h3, h2, h4⟩
    · rintro ⟨fields', d1, d2, h, h1, h2, h3, h4⟩
      cases h
      exact ⟨d1, h1, _, h3, d2, h2, _, h4, rfl⟩
  | _ => simp [deserializeLogEq, asMap]

/-! ## What is rejected -/

/-- Wrong byte lengths are reported. -/
theorem C52_wrong_length (d : Data) (b : Bytes) (h : Carries fmt d b) :
    (b.length ≠ B.scalarSize → deserializeScalar B fmt d = .error (.invalidLength b.length) ∧
      deserializeSecretKey B fmt d = .error .custom) ∧
    (b.length ≠ B.elementSize → deserializeElement B fmt d = .error (.invalidLength b.length) ∧
      deserializePublicKey B fmt d = .error .custom) ∧
    (b.length ≠ 32 → deserializeOpening fmt d = .error (.invalidLength b.length)) := by
  have h := deserializeBytes_eq_ok.mpr h
  refine ⟨fun hl => ⟨?_, ?_⟩, fun hl => ⟨?_, ?_⟩, fun hl => ?_⟩
  · simp [deserializeScalar, h, hl]
  · simp [deserializeSecretKey, h, SecretKey.fromBytes, hl]
  · simp [deserializeElement, h, hl]
  · simp [deserializePublicKey, h, PublicKey.fromBytes, hl, Except.mapError]
  · simp [deserializeOpening, h, hl]

/-- Bytes of the right length which are not a valid encoding are rejected, and so is the identity as a
public key. -/
theorem C52_malformed (d : Data) (b : Bytes) (h : Carries fmt d b) :
    (b.length = B.scalarSize → B.deScalar b = none →
      deserializeScalar B fmt d = .error .custom ∧ deserializeSecretKey B fmt d = .error .custom ∧
      deserializeKeypair B fmt d = some (.error .custom)) ∧
    (b.length = B.elementSize → B.deElem b = none →
      deserializeElement B fmt d = .error .custom ∧ deserializePublicKey B fmt d = .error .custom) ∧
    (B.deElem b = some 0 → deserializePublicKey B fmt d = .error .custom) := by
  have h := deserializeBytes_eq_ok.mpr h
  have hs : b.length = B.scalarSize → B.deScalar b = none → deserializeSecretKey B fmt d = .error .custom :=
    fun h1 h2 => by simp [deserializeSecretKey, h, SecretKey.fromBytes, h2]
  refine ⟨fun h1 h2 => ⟨?_, hs h1 h2, ?_⟩, fun h1 h2 => ⟨?_, ?_⟩, fun h1 => ?_⟩
  · simp [deserializeScalar, h, h1, h2]
  · simp [deserializeKeypair, hs h1 h2]
  · simp [deserializeElement, h, h1, h2]
  · simp [deserializePublicKey, h, PublicKey.fromBytes, h1, h2, Except.mapError]
  · simp only [deserializePublicKey, h, except_bind_ok, PublicKey.fromBytes, h1, if_true]
    split <;> rfl

/-- Data that is neither text nor bytes, text in binary formats and undecodable text are rejected. -/
theorem C52_not_bytes (d : Data) (h : ∀ b, ¬ Carries fmt d b) :
    (∃ e, deserializeScalar B fmt d = .error e) ∧ (∃ e, deserializeElement B fmt d = .error e) ∧
    (∃ e, deserializeSecretKey B fmt d = .error e) ∧ (∃ e, deserializePublicKey B fmt d = .error e) ∧
    (∃ e, deserializeKeypair B fmt d = some (.error e)) ∧ (∃ e, deserializeOpening fmt d = .error e) := by
  cases hd : deserializeBytes fmt d with
  | ok b => exact absurd (deserializeBytes_eq_ok.mp hd) (h b)
  | error e =>
    simp [deserializeScalar, deserializeElement, deserializeSecretKey, deserializePublicKey,
      deserializeKeypair, deserializeOpening, hd]

/-- A sequence shorter than the minimum is rejected with its length, if its items are well-formed. -/
theorem C52_vec_short (hf : fmt.Lawful) {α : Type} (min : ℕ) (item : Data → Except DeError α)
    (items : List Data) (h : items.length < min) (hi : ∀ d ∈ items, ∃ x, item d = .ok x) :
    deserializeVec fmt min item (.seq items) = .error (.invalidLength items.length) := by
  have hm : ∃ l, items.mapM item = .ok l := by
    clear h
    induction items with
    | nil => exact ⟨[], rfl⟩
    | cons d ds ih =>
      obtain ⟨x, hx⟩ := hi d (by simp)
      obtain ⟨l, hl⟩ := ih fun d hd => hi d (by simp [hd])
      exact ⟨x :: l, by simp [List.mapM_cons, hx, hl]⟩
  obtain ⟨l, hl⟩ := hm
  have hlen := (except_mapM_eq_ok.mp hl).length_eq
  have h1 : ¬ min ≤ items.length := by omega
  have h2 : ¬ min ≤ l.length := by omega
  unfold deserializeVec
  cases hs : fmt.sizeHint items.length with
  | none => rw [hlen] at hs; simp [hs, hl, h2, hlen]
  | some k =>
    cases hf.sizeHint_eq _ _ hs
    simp [hs, h]

/-- A missing or repeated field is rejected. -/
theorem C52_fields (fields : List (String × Data)) (name : String) :
    ((∀ f ∈ fields, f.1 ≠ name) → field fields name = .error .missingField) ∧
    (∀ pre d mid d' post, fields = pre ++ (name, d) :: mid ++ (name, d') :: post →
      field fields name = .error .duplicateField) := by
  constructor
  · intro h
    have : fields.filter (fun f => f.1 = name) = [] := by
      simpa [List.filter_eq_nil_iff] using fun a b hf => h (a, b) hf
    simp [field, this]
  · rintro pre d mid d' post rfl
    unfold field
    split
    · rename_i h
      simp at h
    · rename_i h
      have := congrArg List.length h
      simp at this
      omega
    · rfl

/-! ## Deserialized values are well-formed -/

theorem C52_ciphertext_ok (hC : B.CanonicalElems) (d : Data) (c : Ciphertext E)
    (h : deserializeCiphertext B fmt d = .ok c) : EncodableCt B c := by
  simp only [deserializeCiphertext, except_bind_eq_ok, except_pure, Except.ok.injEq, C52_element_accepts] at h
  obtain ⟨_, -, _, -, e1, ⟨b1, -, h1, h1'⟩, _, -, e2, ⟨b2, -, h2, h2'⟩, rfl⟩ := h
  exact ⟨⟨b1, hC _ _ h1 h1'⟩, ⟨b2, hC _ _ h2 h2'⟩⟩

/-- A deserialized proof of possession has a response, sum-of-squares and ring proofs have at least two. -/
theorem C52_proofs_ok (hf : fmt.Lawful) (d : Data) :
    (∀ p : ProofOfPossession F, deserializePop B fmt d = .ok p → 1 ≤ p.responses.length) ∧
    (∀ p : SumOfSquaresProof F, deserializeSumOfSquares B fmt d = .ok p → 2 ≤ p.ciphertextResponses.length) ∧
    (∀ p : RingProof F, deserializeRing B fmt d = .ok p → 2 ≤ p.ringResponses.length) := by
  refine ⟨fun p h => ?_, fun p h => ?_, fun p h => ?_⟩
  · simp only [deserializePop, except_bind_eq_ok, except_pure, Except.ok.injEq,
      deserializeVec_eq_ok hf.sizeHint_eq] at h
    obtain ⟨_, -, _, -, c, -, _, -, r, ⟨_, -, h, -⟩, rfl⟩ := h
    exact h
  · simp only [deserializeSumOfSquares, except_bind_eq_ok, except_pure, Except.ok.injEq,
      deserializeVec_eq_ok hf.sizeHint_eq] at h
    obtain ⟨_, -, _, -, c, -, _, -, r, ⟨_, -, h, -⟩, _, -, _, -, rfl⟩ := h
    exact h
  · simp only [deserializeRing, ringOfFields, except_bind_eq_ok, except_pure, Except.ok.injEq,
      deserializeVec_eq_ok hf.sizeHint_eq] at h
    obtain ⟨_, -, _, -, c, -, _, -, r, ⟨_, -, h, -⟩, rfl⟩ := h
    exact h

theorem C52_range_ok (hf : fmt.Lawful) (hC : B.CanonicalElems) (d : Data) (p : RangeProof F E)
    (h : deserializeRange B fmt d = .ok p) : RangeOk B p := by
  simp only [deserializeRange, ringOfFields, except_bind_eq_ok, except_pure, Except.ok.injEq,
    deserializeVec_eq_ok (fmt := fmt.flattened) hf.sizeHint_eq] at h
  obtain ⟨_, -, dcs, -, cs, hcs, _, ⟨_, -, c, -, _, -, r, ⟨_, -, h, -⟩, rfl⟩, rfl⟩ := h
  refine ⟨fun c hc => ?_, h⟩
  cases dcs with
  | seq items =>
    have := except_mapM_eq_ok.mp hcs
    obtain ⟨i, hi, rfl⟩ := List.mem_iff_getElem.mp hc
    exact C52_ciphertext_ok hC _ _ (List.forall₂_iff_get.mp this |>.2 i (by rw [this.length_eq]; exact hi) hi)
  | _ => simp [deserializeCiphertexts] at hcs

/-- A deserialized ballot can be serialized again, and this gives the same ballot. -/
theorem C52_ballot_ok (hf : fmt.Lawful) (hB : B.Lawful) (hC : B.CanonicalElems) (d : Data)
    (b : QuadraticVotingBallot F E) (h : deserializeBallot B fmt d = .ok b) :
    BallotOk B b ∧ RoundTrips (serializeBallot B fmt) (deserializeBallot B fmt) b := by
  have hw : ∀ (d : Data) (c : CiphertextWithRangeProof F E), deserializeWithRange B fmt d = .ok c →
      EncodableCt B c.ciphertext ∧ RangeOk B c.rangeProof := by
    intro d c h
    simp only [deserializeWithRange, except_bind_eq_ok, except_pure, Except.ok.injEq] at h
    obtain ⟨_, -, _, -, ct, h1, _, -, rp, h2, rfl⟩ := h
    exact ⟨C52_ciphertext_ok hC _ _ h1, C52_range_ok hf hC _ _ h2⟩
  suffices BallotOk B b from ⟨this, C52_roundtrip_ballot hf hB this⟩
  simp only [deserializeBallot, deserializeList, except_bind_eq_ok, except_pure, Except.ok.injEq] at h
  obtain ⟨_, -, _, -, votes, ⟨items, -, h1⟩, _, -, credit, h2, _, -, p, h3, rfl⟩ := h
  refine ⟨fun v hv => ?_, (hw _ _ h2).1, (hw _ _ h2).2, (C52_proofs_ok hf _).2.1 _ h3⟩
  have := except_mapM_eq_ok.mp h1
  obtain ⟨i, hi, rfl⟩ := List.mem_iff_getElem.mp hv
  exact hw _ _ (List.forall₂_iff_get.mp this |>.2 i (by rw [this.length_eq]; exact hi) hi)

/-- The keys of a deserialized key set are not the identity. -/
theorem C52_key_set_ok (hC : B.CanonicalElems) (d : Data) (ks : PublicKeySet E)
    (h : deserializeKeySet B fmt d = .ok ks) :
    KeyOk B ks.sharedKey ∧ ∀ key ∈ ks.participantKeys, KeyOk B key := by
  have hk : ∀ d (key : PublicKey E), deserializePublicKey B fmt d = .ok key → KeyOk B key := by
    intro d key h
    obtain ⟨-, h1, h2, h3⟩ := (C52_public_key_accepts d key).mp h
    exact ⟨h3, hC _ _ h1 h2⟩
  simp only [deserializeKeySet, deserializeList, except_bind_eq_ok, except_pure, Except.ok.injEq] at h
  obtain ⟨_, -, _, -, _, -, _, -, key, h1, _, -, keys, ⟨items, -, h2⟩, rfl⟩ := h
  refine ⟨hk _ _ h1, fun v hv => ?_⟩
  have := except_mapM_eq_ok.mp h2
  obtain ⟨i, hi, rfl⟩ := List.mem_iff_getElem.mp hv
  exact hk _ _ (List.forall₂_iff_get.mp this |>.2 i (by rw [this.length_eq]; exact hi) hi)

/-! ## Findings -/

/-- Proofs with too few responses (a sum-of-squares proof for no ciphertexts, which `new` does construct)
do not survive a round trip. -/
theorem C52_short_proofs (hf : fmt.Lawful) :
    (∀ p : ProofOfPossession F, p.responses = [] →
      ¬ RoundTrips (serializePop B fmt) (deserializePop B fmt) p) ∧
    (∀ p : SumOfSquaresProof F, p.ciphertextResponses.length < 2 →
      ¬ RoundTrips (serializeSumOfSquares B fmt) (deserializeSumOfSquares B fmt) p) ∧
    (∀ p : RingProof F, p.ringResponses.length < 2 →
      ¬ RoundTrips (serializeRing B fmt) (deserializeRing B fmt) p) := by
  refine ⟨?_, ?_, ?_⟩
  · rintro p hp ⟨d, -, h⟩
    have := (C52_proofs_ok hf d).1 p h
    simp [hp] at this
  · rintro p hp ⟨d, -, h⟩
    have := (C52_proofs_ok hf d).2.1 p h
    omega
  · rintro p hp ⟨d, -, h⟩
    have := (C52_proofs_ok hf d).2.2 p h
    omega

/-- Finding: `ActiveParticipant` (and `PublicKeySet`, `Params`) are deserialized without the checks of their
constructors: some data deserializes to a participant whose `public_key_share()` panics. -/
theorem C52_participant_unvalidated (hf : fmt.Lawful) (hB : B.Lawful) :
    ∃ d p, deserializeParticipant B fmt d = .ok p ∧ p.publicKeyShare = none ∧
      p.keySet.params.shares ≠ p.keySet.participantKeys.length := by
  obtain ⟨b, hb⟩ := hB.serElem_ne_zero B.gen hB.gen_ne_zero
  refine ⟨_, _, C52_roundtrip_participant hf hB
    (p := { keySet := { params := ⟨3, 5⟩, sharedKey := ⟨b, B.gen⟩, participantKeys := [] }, index := 7,
            secretShare := 0 }) (by simp [ParamsFit]) ⟨hB.gen_ne_zero, hb⟩ (by simp) (by norm_num), ?_, ?_⟩
  · simp [ActiveParticipant.publicKeyShare]
  · simp

/-- Finding: for SEC1 encodings deserializing a key pair panics on the zero scalar (the public key cannot be
encoded). It never panics if all elements have an encoding, or for other scalars. -/
theorem C50_deserialize_keypair (hf : fmt.Lawful) (hB : B.Lawful) :
    (B.Sec1Ser → deserializeKeypair B fmt (serializeScalar B fmt 0) = none) ∧
    (∀ d, deserializeKeypair B fmt d = none → ¬ B.TotalSer ∧ Carries fmt d (B.serScalar 0)) := by
  constructor
  · intro hS
    have h0 : B.serElem 0 = none := (hS 0).mpr rfl
    have : deserializeSecretKey B fmt (serializeScalar B fmt (0 : F)) = .ok 0 :=
      (C52_secret_key_accepts hB _ _).mpr
        (deserializeBytes_eq_ok.mp (bytes_reads (Reads.rfl' hf) (B.serScalar 0)))
    simp [deserializeKeypair, this, Keypair.ofSecret, PublicKey.ofSecret, PublicKey.fromElement, Backend.mulGen, h0]
  · intro d h
    unfold deserializeKeypair at h
    cases hs : deserializeSecretKey B fmt d with
    | error e => simp [hs] at h
    | ok s =>
      simp only [hs, Keypair.ofSecret, PublicKey.ofSecret, PublicKey.fromElement, Backend.mulGen,
        Option.bind_eq_bind, Option.pure_def, Option.bind_eq_none_iff, reduceCtorEq, imp_false] at h
      have hn : B.serElem (s • B.gen) = none := by
        cases hb : B.serElem (s • B.gen) with
        | none => rfl
        | some b => exact (h ⟨s, ⟨b, s • B.gen⟩⟩ (by simp [hb])).elim
      refine ⟨fun hT => ?_, ?_⟩
      · obtain ⟨b, hb⟩ := hT (s • B.gen)
        rw [hn] at hb; cases hb
      · have : s = 0 := by
          by_contra hne
          obtain ⟨b, hb⟩ := hB.serElem_ne_zero (s • B.gen) (smul_ne_zero hne hB.gen_ne_zero)
          rw [hn] at hb; cases hb
        subst this
        exact (C52_secret_key_accepts hB _ _).mp hs

end

/-! ## Examples -/

section Examples

example : deserializeOpening textFormat (serializeOpening textFormat (List.replicate 32 7)) =
    .ok (List.replicate 32 7) := C52_roundtrip_opening textFormat_lawful (by simp)

example : deserializeScalar B101 binaryFormat (serializeScalar B101 binaryFormat 42) = .ok 42 :=
  C52_roundtrip_scalar binaryFormat_lawful B101_lawful 42

example : RoundTrips (serializeElement S101 textFormat) (deserializeElement S101 textFormat) 42 :=
  C52_roundtrip_element textFormat_lawful S101_lawful ⟨_, rfl⟩

example : KeyOk B101 ⟨[42], 42⟩ ∧ KeyOf B101 ⟨[42], 42⟩ 42 := by
  refine ⟨⟨by decide, by decide⟩, by decide, by decide⟩

example : deserializePublicKey B101 textFormat (serializePublicKey textFormat ⟨[42], 42⟩) = .ok ⟨[42], 42⟩ :=
  C52_roundtrip_public_key (key := ⟨[42], 42⟩) textFormat_lawful B101_lawful ⟨by decide, by decide⟩

example : deserializeKeypair B101 binaryFormat (serializeKeypair B101 binaryFormat ⟨42, ⟨[42], 42⟩⟩) =
    some (.ok ⟨42, ⟨[42], 42⟩⟩) :=
  C52_roundtrip_keypair binaryFormat_lawful B101_lawful ⟨by decide, by decide⟩

example : deserializeSecretKey B101 textFormat (serializeSecretKey B101 textFormat 42) = .ok 42 :=
  C52_roundtrip_secret_key textFormat_lawful B101_lawful 42

example : RoundTrips (serializeVec B101 2 (serializeElement B101 textFormat))
    (deserializeVec textFormat 2 (deserializeElement B101 textFormat)) [42, 0, 5] :=
  C52_roundtrip_vec textFormat_lawful B101_lawful (by decide) fun x _ =>
    C52_roundtrip_element textFormat_lawful B101_lawful (B101_total x)

example : RoundTrips (serializeCiphertext B101 binaryFormat) (deserializeCiphertext B101 binaryFormat) ⟨42, 0⟩ :=
  C52_total binaryFormat_lawful B101_lawful B101_total _

example : EncodableCt S101 ⟨42, 7⟩ := ⟨⟨_, rfl⟩, ⟨_, rfl⟩⟩

example : ∃ data, serializeDecryption B101 textFormat ⟨42⟩ = some data ∧
    deserializeCandidate B101 textFormat data = .ok ⟨⟨42⟩⟩ :=
  C52_roundtrip_decryption textFormat_lawful B101_lawful (B101_total _)

/-- A ballot with one vote. -/
def Toy.ballot : QuadraticVotingBallot (ZMod 101) (ZMod 101) where
  votes := [⟨⟨3, 4⟩, [⟨5, 6⟩], 7, [8, 9, 10]⟩]
  credit := ⟨⟨13, 14⟩, [], 17, [18, 19]⟩
  creditEquivalenceProof := ⟨1, [2, 3], 4⟩

theorem Toy.ballot_ok : BallotOk B101 Toy.ballot := by
  have h (c : Ciphertext (ZMod 101)) : EncodableCt B101 c := ⟨B101_total _, B101_total _⟩
  refine ⟨fun v hv => ⟨h _, fun _ _ => h _, ?_⟩, h _, ⟨fun _ _ => h _, ?_⟩, ?_⟩
  · simp only [ballot, List.mem_singleton] at hv; subst hv; decide
  · decide
  · decide

example : RoundTrips (serializeBallot B101 binaryFormat) (deserializeBallot B101 binaryFormat) Toy.ballot :=
  C52_roundtrip_ballot binaryFormat_lawful B101_lawful Toy.ballot_ok

example : RoundTrips (serializeRange B101 binaryFormat) (deserializeRange B101 binaryFormat)
    Toy.ballot.credit.rangeProof := C52_roundtrip_range binaryFormat_lawful B101_lawful Toy.ballot_ok.2.2.1

example : RoundTrips (serializeRing B101 textFormat) (deserializeRing B101 textFormat) ⟨5, [3, 1]⟩ :=
  C52_roundtrip_ring textFormat_lawful B101_lawful (by decide)

example : RoundTrips (serializeChoice B101 textFormat) (deserializeChoice B101 textFormat .single)
    ⟨[⟨3, 4⟩], ⟨5, [6, 7]⟩, (⟨8, 9⟩ : LogEqualityProof (ZMod 101))⟩ :=
  C52_roundtrip_choice textFormat_lawful B101_lawful (fun _ _ => ⟨B101_total _, B101_total _⟩) (by simp)

example : RoundTrips (serializeSumOfSquares B101 textFormat) (deserializeSumOfSquares B101 textFormat)
    ⟨5, [3, 1], 8⟩ := C52_roundtrip_sum_of_squares textFormat_lawful B101_lawful (by decide)

example : RoundTrips (serializePublicInfo B101 textFormat) (deserializePublicInfo B101 textFormat)
    ⟨[4, 0], ⟨5, [3, 1]⟩, List.replicate 32 3⟩ :=
  C52_roundtrip_public_info textFormat_lawful B101_lawful ⟨by decide, fun _ _ => B101_total _⟩ (by decide)
    (by decide)

/-- A dealer with a polynomial of degree 1. -/
def Toy.smallDealer : Dealer (ZMod 101) (ZMod 101) :=
  ⟨⟨3, 2⟩, [⟨42, ⟨[42], 42⟩⟩, ⟨7, ⟨[7], 7⟩⟩], ⟨5, [6, 7]⟩⟩

theorem Toy.smallDealer_ok : DealerOk B101 Toy.smallDealer := by
  refine ⟨by norm_num [ParamsFit, smallDealer], ?_, by decide⟩
  simp only [smallDealer, List.mem_cons, List.not_mem_nil, or_false, forall_eq_or_imp, forall_eq, KeyOf]
  decide

example : RoundTripsP (serializeDealer B101 textFormat) (deserializeDealer B101 textFormat) Toy.smallDealer :=
  C52_roundtrip_dealer textFormat_lawful B101_lawful Toy.smallDealer_ok

example : RoundTripsP (serializeCollectingCommitments B101 textFormat)
    (deserializeCollectingCommitments B101 textFormat)
    ⟨⟨3, 2⟩, 1, Toy.smallDealer, [none, some (List.replicate 32 9), none], List.replicate 32 3⟩ :=
  C52_roundtrip_collecting_commitments textFormat_lawful B101_lawful (by norm_num [ParamsFit]) (by norm_num)
    Toy.smallDealer_ok (by simp) (by simp)

example : RoundTripsP (serializeCollectingPolynomials B101 textFormat)
    (deserializeCollectingPolynomials B101 textFormat)
    ⟨⟨2, 2⟩, 1, Toy.smallDealer, List.replicate 32 3, [List.replicate 32 9, List.replicate 32 8],
      [none, some [42, 7]]⟩ :=
  C52_roundtrip_collecting_polynomials textFormat_lawful B101_lawful (by norm_num [ParamsFit]) (by norm_num)
    Toy.smallDealer_ok (by simp) (by simp) (by
      simp only [List.mem_cons, reduceCtorEq, Option.some.injEq, List.not_mem_nil, or_false, false_or, forall_eq]
      exact ⟨by decide, fun _ _ => B101_total _⟩)

example : RoundTripsP (serializeExchangingSecrets B101 binaryFormat)
    (deserializeExchangingSecrets B101 binaryFormat)
    ⟨⟨2, 2⟩, 1, Toy.smallDealer, [[42, 7], [3, 4]], 5, [true, false]⟩ :=
  C52_roundtrip_exchanging_secrets binaryFormat_lawful B101_lawful (by norm_num [ParamsFit]) (by norm_num)
    Toy.smallDealer_ok fun p hp => by
      simp only [List.mem_cons, List.not_mem_nil, or_false] at hp
      rcases hp with rfl | rfl <;> exact ⟨by decide, fun _ _ => B101_total _⟩

example : deserializeParticipant B101 textFormat (serializeParticipant B101 textFormat
    ⟨⟨⟨2, 2⟩, ⟨[42], 42⟩, [⟨[42], 42⟩, ⟨[7], 7⟩]⟩, 1, 7⟩) =
      .ok ⟨⟨⟨2, 2⟩, ⟨[42], 42⟩, [⟨[42], 42⟩, ⟨[7], 7⟩]⟩, 1, 7⟩ :=
  C52_roundtrip_participant textFormat_lawful B101_lawful (by norm_num [ParamsFit]) ⟨by decide, by decide⟩
    (by simp only [List.mem_cons, List.not_mem_nil, or_false, forall_eq_or_imp, forall_eq, KeyOk]; decide)
    (by norm_num)

/-- Data carrying the identity, malformed and wrongly sized encodings. -/
example : Carries textFormat (.str [0, 61]) [0] ∧ B101.deElem [0] = some 0 ∧
    Carries binaryFormat (.bytes [200]) [200] ∧ B101.deScalar [200] = none ∧
    (∀ b, ¬ Carries binaryFormat (.str [5, 61]) b) ∧ (∀ b, ¬ Carries textFormat (.str [5]) b) := by
  refine ⟨Or.inr ⟨rfl, _, rfl, by decide⟩, by decide, Or.inl rfl, by decide, ?_, ?_⟩
  · rintro b (h | ⟨h, -⟩) <;> cases h
  · rintro b (h | ⟨-, s, h, h'⟩)
    · cases h
    · cases h
      exact absurd h' (by simp [textFormat])

example : ((deserializeVec textFormat 2 (deserializeScalar B101 textFormat) (.seq [.str [5, 61]]) :
    Except DeError (List (ZMod 101))) = .error (.invalidLength 1)) :=
  C52_vec_short textFormat_lawful 2 _ [.str [5, 61]] (by decide) (by
    simp only [List.mem_singleton, forall_eq]
    exact ⟨5, (C52_scalar_accepts B101_lawful _ _).mpr (Or.inr ⟨rfl, _, rfl, by decide⟩)⟩)

/-- Reordered fields among unknown ones are accepted. -/
example : deserializeLogEq B101 textFormat
    (.map [("response", .str [5, 61]), ("unknown", .null), ("challenge", .str [7, 61])]) = .ok ⟨7, 5⟩ :=
  (C52_log_eq_accepts B101_lawful _ _).mpr ⟨_, _, _, rfl, rfl, rfl, Or.inr ⟨rfl, _, rfl, by decide⟩,
    Or.inr ⟨rfl, _, rfl, by decide⟩⟩

example : deserializeKeypair S101 textFormat (serializeScalar S101 textFormat 0) = none :=
  (C50_deserialize_keypair textFormat_lawful S101_lawful).1 S101_sec1

example : RoundTrips (serializeCiphertext S101 textFormat) (deserializeCiphertext S101 textFormat) ⟨42, 7⟩ :=
  C52_roundtrip_ciphertext textFormat_lawful S101_lawful ⟨⟨_, rfl⟩, ⟨_, rfl⟩⟩

example : deserializeLogEq B101 binaryFormat (serializeLogEq B101 binaryFormat ⟨5, 6⟩) = .ok ⟨5, 6⟩ :=
  C52_roundtrip_log_eq binaryFormat_lawful B101_lawful ⟨5, 6⟩

example : RoundTrips (serializePop B101 binaryFormat) (deserializePop B101 binaryFormat) ⟨5, [6]⟩ :=
  C52_roundtrip_pop binaryFormat_lawful B101_lawful (by decide)

example : deserializeCommitmentEq B101 textFormat (serializeCommitmentEq B101 textFormat ⟨5, 6, 7, 8⟩) =
    .ok ⟨5, 6, 7, 8⟩ :=
  C52_roundtrip_commitment_eq textFormat_lawful B101_lawful ⟨5, 6, 7, 8⟩

example : deserializeKeySet B101 textFormat (serializeKeySet textFormat ⟨⟨2, 2⟩, ⟨[42], 42⟩, [⟨[42], 42⟩, ⟨[7], 7⟩]⟩) =
    .ok ⟨⟨2, 2⟩, ⟨[42], 42⟩, [⟨[42], 42⟩, ⟨[7], 7⟩]⟩ :=
  C52_roundtrip_key_set (ks := ⟨⟨2, 2⟩, ⟨[42], 42⟩, [⟨[42], 42⟩, ⟨[7], 7⟩]⟩) textFormat_lawful B101_lawful
    (by norm_num [ParamsFit]) ⟨by decide, by decide⟩
    (by simp only [List.mem_cons, List.not_mem_nil, or_false, forall_eq_or_imp, forall_eq, KeyOk]; decide)

example : deserializeSecretKey B101 textFormat (.bytes [42]) = .ok 42 :=
  (C52_secret_key_accepts B101_lawful _ 42).mpr (.inl rfl)

/-- The identity is accepted as an element but not as a public key. -/
example : deserializeElement B101 binaryFormat (.bytes [0]) = .ok 0 ∧
    ∀ key, deserializePublicKey B101 binaryFormat (.bytes [0]) ≠ .ok key :=
  ⟨(C52_element_accepts _ 0).mpr ⟨[0], .inl rfl, rfl, by decide⟩, fun key h => by
    obtain ⟨h1, -, h2, h3⟩ := (C52_public_key_accepts _ key).mp h
    obtain h1 | ⟨h1, -⟩ := h1
    · injection h1 with h1
      rw [← h1] at h2
      exact h3 (Option.some.inj (h2.symm.trans (by decide)))
    · cases h1⟩

example : deserializeElement B101 textFormat (.str [42, 61]) = .ok 42 :=
  (C52_element_canonical B101_lawful B101_canonical _ 42).mpr ⟨[42], .inr ⟨rfl, _, rfl, by decide⟩, by decide⟩

example : deserializeKeypair B101 binaryFormat (.bytes [42]) = some (.ok ⟨42, ⟨[42], 42⟩⟩) :=
  (C52_keypair_accepts B101_lawful _ ⟨42, ⟨[42], 42⟩⟩).mpr ⟨.inl rfl, by decide, by decide⟩

example : deserializeOpening textFormat (.bytes (List.replicate 32 1)) = .ok (List.replicate 32 1) :=
  (C52_opening_accepts _ _).mpr ⟨.inl rfl, by decide⟩

example : deserializeHash (.seq ((List.range 32).map .uint)) = .ok ((List.range 32).map UInt8.ofNat) :=
  (C52_hash_accepts _ _).mpr ⟨by rw [List.map_map]; exact congrArg _ (List.map_congr_left fun x hx => by
    have : x < 32 := List.mem_range.mp hx
    simp only [Function.comp, UInt8.toNat_ofNat', Data.uint.injEq]
    omega), by decide⟩

example : deserializeVec binaryFormat 2 (deserializeScalar B101 binaryFormat) (.seq [.bytes [5], .bytes [6]]) =
    .ok [5, 6] :=
  (C52_vec_accepts binaryFormat_lawful 2 _ _ _).mpr ⟨_, rfl, by decide, .cons
    ((C52_scalar_accepts B101_lawful _ _).mpr (.inl rfl))
    (.cons ((C52_scalar_accepts B101_lawful _ _).mpr (.inl rfl)) .nil)⟩

example : deserializeScalar B101 binaryFormat (.bytes [5, 0]) = .error (.invalidLength 2) :=
  ((C52_wrong_length (.bytes [5, 0]) [5, 0] (.inl rfl)).1 (by decide)).1

example : deserializeScalar B101 binaryFormat (.bytes [200]) = .error .custom ∧
    deserializePublicKey B101 binaryFormat (.bytes [0]) = .error .custom :=
  ⟨((C52_malformed (.bytes [200]) [200] (.inl rfl)).1 (by decide) (by decide)).1,
    (C52_malformed (.bytes [0]) [0] (.inl rfl)).2.2 (by decide)⟩

example : ∃ e, deserializeScalar B101 binaryFormat (.str [5, 61]) = .error e :=
  (C52_not_bytes _ (by rintro b (h | ⟨h, -⟩) <;> cases h)).1

example : field [("challenge", .null)] "response" = .error .missingField ∧
    field [("response", .null), ("challenge", .null), ("response", .null)] "response" = .error .duplicateField :=
  ⟨(C52_fields _ _).1 (by decide), (C52_fields _ _).2 [] .null [("challenge", .null)] .null [] rfl⟩

/-- Values obtained by deserialization. -/
example : EncodableCt B101 ⟨42, 7⟩ :=
  C52_ciphertext_ok B101_canonical _ _
    (C52_roundtrip_ciphertext textFormat_lawful B101_lawful (c := ⟨42, 7⟩) ⟨⟨_, rfl⟩, ⟨_, rfl⟩⟩).choose_spec.2

example : 2 ≤ (⟨5, [3, 1]⟩ : RingProof (ZMod 101)).ringResponses.length :=
  (C52_proofs_ok (B := B101) textFormat_lawful _).2.2 _
    (C52_roundtrip_ring textFormat_lawful B101_lawful (p := ⟨5, [3, 1]⟩) (by decide)).choose_spec.2

example : RangeOk B101 Toy.ballot.credit.rangeProof :=
  C52_range_ok binaryFormat_lawful B101_canonical _ _
    (C52_roundtrip_range binaryFormat_lawful B101_lawful Toy.ballot_ok.2.2.1).choose_spec.2

example : BallotOk B101 Toy.ballot :=
  (C52_ballot_ok binaryFormat_lawful B101_lawful B101_canonical _ _
    (C52_roundtrip_ballot binaryFormat_lawful B101_lawful Toy.ballot_ok).choose_spec.2).1

example : KeyOk B101 ⟨[42], 42⟩ :=
  (C52_key_set_ok B101_canonical _ ⟨⟨2, 2⟩, ⟨[42], 42⟩, []⟩
    (C52_roundtrip_key_set textFormat_lawful B101_lawful (by norm_num [ParamsFit]) ⟨by decide, by decide⟩
      (by simp))).1

/-- A sum of squares proof for no ciphertexts cannot be read back. -/
example : ¬ RoundTrips (serializeSumOfSquares B101 textFormat) (deserializeSumOfSquares B101 textFormat) ⟨5, [], 8⟩ :=
  (C52_short_proofs textFormat_lawful).2.1 _ (by decide)

example := C52_participant_unvalidated textFormat_lawful B101_lawful

end Examples

end ElasticElgamal
