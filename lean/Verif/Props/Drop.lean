import Verif.Model.Drop
import Verif.Spec.Drop
import Verif.Props.Format

/-!
# C97: secrets are overwritten by destructors

What remains in the storage of a dropped value is the same for all secrets. The index of the encrypted value in an
unfinished ring proof is an exception.
-/

set_option autoImplicit false
set_option linter.unusedSectionVars false

namespace ElasticElgamal

open Spec Toy

variable {F E : Type} [Field F] [AddCommGroup E] [Module F E]

/-- C97: dropped secret keys do not depend on the key, and neither do keys overwritten by `zeroize`. -/
theorem C97_secret_key (x y : F) : SecretKey.drop x = SecretKey.drop y ∧ SecretKey.zeroize x = SecretKey.zeroize y := ⟨rfl, rfl⟩

example : SecretKey.drop (5 : ZMod 101) = SecretKey.drop (6 : ZMod 101) := (C97_secret_key 5 6).1

/-- C97: what is left of a key pair is determined by the public key. -/
theorem C97_keypair (a b : Keypair F E) (h : a.publicKey = b.publicKey) : a.drop = b.drop := by
  simp only [Keypair.drop, h, (C97_secret_key a.secret b.secret).1]

example : Keypair.drop (⟨5, ⟨[7], 7⟩⟩ : Keypair (ZMod 101) (ZMod 101)) = Keypair.drop ⟨6, ⟨[7], 7⟩⟩ := C97_keypair _ _ rfl

/-- C97: what is left of a ciphertext with its randomness is determined by the ciphertext. -/
theorem C97_extended_ciphertext (a b : ExtendedCiphertext F E) (h : a.inner = b.inner) : a.drop = b.drop := by
  simp only [ExtendedCiphertext.drop, h, (C97_secret_key a.randomScalar b.randomScalar).1]

/-- C97: what is left of a ciphertext with its value and randomness is determined by the ciphertext. -/
theorem C97_ciphertext_with_value (a b : CiphertextWithValue F E) (a' b' : CiphertextWithValue F E ℕ)
    (h : a.inner.inner = b.inner.inner) (h' : a'.inner.inner = b'.inner.inner) :
    a.drop zeroizeScalar = b.drop zeroizeScalar ∧ a'.drop zeroizeNat = b'.drop zeroizeNat := by
  simp only [CiphertextWithValue.drop, C97_extended_ciphertext _ _ h, C97_extended_ciphertext _ _ h', zeroizeScalar,
    zeroizeNat, and_self]

example : ExtendedCiphertext.drop (⟨⟨3, 4⟩, 1⟩ : ExtendedCiphertext (ZMod 101) (ZMod 101)) =
    ExtendedCiphertext.drop ⟨⟨3, 4⟩, 2⟩ := C97_extended_ciphertext _ _ rfl

example : CiphertextWithValue.drop zeroizeNat (⟨⟨⟨3, 4⟩, 1⟩, 8⟩ : CiphertextWithValue (ZMod 101) (ZMod 101) ℕ) =
    CiphertextWithValue.drop zeroizeNat ⟨⟨⟨3, 4⟩, 2⟩, 9⟩ :=
  (C97_ciphertext_with_value (⟨⟨⟨3, 4⟩, 1⟩, 8⟩ : CiphertextWithValue (ZMod 101) (ZMod 101)) ⟨⟨⟨3, 4⟩, 1⟩, 8⟩ _ _ rfl rfl).2

/-- C97: what is left of a dealer is determined by what it publishes. -/
theorem C97_dealer (a b : Dealer F E) (h : SameDealer a b) : a.drop = b.drop := by
  obtain ⟨h1, h2, h3⟩ := h
  have hp : a.polynomial.map Keypair.drop = b.polynomial.map Keypair.drop := by
    have e : ∀ l : List (Keypair F E), l.map Keypair.drop = (publicKeys l).map fun key => Keypair.drop ⟨0, key⟩ := by
      intro l
      simp only [publicKeys, List.map_map]
      exact List.map_congr_left fun kp _ => C97_keypair _ _ rfl
    rw [e, e, h2]
  simp only [Dealer.drop, h1, hp, h3]

example : (exDealer 5).drop = (exDealer 6).drop := C97_dealer _ _ ⟨rfl, rfl, rfl⟩

/-- C97: what is left of a participant is determined by the key set and the index. -/
theorem C97_participant (a b : ActiveParticipant F E) (h : a.keySet = b.keySet) (hi : a.index = b.index) :
    a.drop = b.drop := by
  simp only [ActiveParticipant.drop, h, hi, (C97_secret_key a.secretShare b.secretShare).1]

example (ks : PublicKeySet (ZMod 101)) : ActiveParticipant.drop (⟨ks, 1, 5⟩ : ActiveParticipant (ZMod 101) (ZMod 101)) =
    ActiveParticipant.drop ⟨ks, 1, 6⟩ := C97_participant _ _ rfl rfl

theorem dropOpening_length {a b : Bytes} (h : a.length = b.length) : dropOpening a = dropOpening b := by
  simp only [dropOpening, List.map_const', h]

/-- C97: what is left of a participant of key generation in the first and second phase is determined by the data published
by it and received from others; openings are published in the second phase. -/
theorem C97_collecting (a b : CollectingCommitments F E) (a' b' : CollectingPolynomials F E) (hd : SameDealer a.dealer b.dealer)
    (h : a.params = b.params ∧ a.index = b.index ∧ a.commitments = b.commitments ∧ a.opening.length = b.opening.length)
    (hd' : SameDealer a'.dealer b'.dealer)
    (h' : a'.params = b'.params ∧ a'.index = b'.index ∧ a'.commitments = b'.commitments ∧
      a'.publicPolynomials = b'.publicPolynomials ∧ a'.opening.length = b'.opening.length) :
    a.drop = b.drop ∧ a'.drop = b'.drop := by
  obtain ⟨h1, h2, h3, h4⟩ := h
  obtain ⟨h1', h2', h3', h4', h5'⟩ := h'
  simp only [CollectingCommitments.drop, CollectingPolynomials.drop, C97_dealer _ _ hd, C97_dealer _ _ hd', h1, h2, h3,
    h1', h2', h3', h4', dropOpening_length h4, dropOpening_length h5', and_self]

example : CollectingCommitments.drop ⟨⟨3, 2⟩, 0, exDealer 5, [some [1]], [3, 4]⟩ =
    CollectingCommitments.drop ⟨⟨3, 2⟩, 0, exDealer 6, [some [1]], [5, 6]⟩ ∧
    CollectingPolynomials.drop ⟨⟨3, 2⟩, 0, exDealer 5, [3, 4], [[1]], [none]⟩ =
    CollectingPolynomials.drop ⟨⟨3, 2⟩, 0, exDealer 6, [5, 6], [[1]], [none]⟩ :=
  C97_collecting _ _ _ _ ⟨rfl, rfl, rfl⟩ ⟨rfl, rfl, rfl, rfl⟩ ⟨rfl, rfl, rfl⟩ ⟨rfl, rfl, rfl, rfl, rfl⟩

/-- C97: what is left of a participant of key generation who exchanges shares is determined by public data and by the set
of senders of shares. -/
theorem C97_exchanging_secrets (a b : ExchangingSecrets F E) (hd : SameDealer a.dealer b.dealer)
    (h : a.params = b.params ∧ a.index = b.index ∧ a.publicPolynomials = b.publicPolynomials ∧
      a.sharesReceived = b.sharesReceived) : a.drop = b.drop := by
  obtain ⟨h1, h2, h3, h4⟩ := h
  simp only [ExchangingSecrets.drop, C97_dealer _ _ hd, h1, h2, h3, h4,
    (C97_secret_key a.accumulatedShare b.accumulatedShare).1]

example : ExchangingSecrets.drop ⟨⟨3, 2⟩, 0, exDealer 5, [[5, 6]], 1, [true]⟩ =
    ExchangingSecrets.drop ⟨⟨3, 2⟩, 0, exDealer 6, [[5, 6]], 2, [true]⟩ :=
  C97_exchanging_secrets _ _ ⟨rfl, rfl, rfl⟩ ⟨rfl, rfl, rfl, rfl⟩

theorem rings_drop (a b : List (Ring F E)) (h : List.Forall₂ SameRing a b) : a.map Ring.drop = b.map Ring.drop := by
  induction h with
  | nil => rfl
  | @cons r s a b hrs _ ih =>
    obtain ⟨h1, h2, h3, h4, h5, h6, h7⟩ := hrs
    simp only [List.map_cons, ih, List.cons.injEq, and_true]
    simp only [Ring.drop, h1, h2, h3, h4, h5, h6, h7, (C97_secret_key r.discreteLog s.discreteLog).1,
      (C97_secret_key r.randomScalar s.randomScalar).1]

/-- C97: nothing is left of the randomness in an unfinished ring proof. -/
theorem C97_ring_builder (B : Backend F E) (a b : RingProofBuilder B) (hr : List.Forall₂ SameRing a.rings b.rings)
    (h : a.receiver = b.receiver ∧ a.transcript = b.transcript ∧ a.ringResponses = b.ringResponses ∧ a.rng = b.rng) :
    a.drop = b.drop := by
  obtain ⟨h1, h2, h3, h4⟩ := h
  simp only [RingProofBuilder.drop, rings_drop _ _ hr, h1, h2, h3, h4]

example : RingProofBuilder.drop (B := B101) ⟨⟨[42], 42⟩, Transcript.new "x",
      [⟨0, [0, 1], ⟨3, 4⟩, Transcript.new "x", [0, 0], (5, 6), 1, 7, 8⟩], [], (3 : ℕ)⟩ =
    RingProofBuilder.drop ⟨⟨[42], 42⟩, Transcript.new "x",
      [⟨0, [0, 1], ⟨3, 4⟩, Transcript.new "x", [0, 0], (5, 6), 1, 17, 18⟩], [], (3 : ℕ)⟩ :=
  C97_ring_builder B101 _ _ (.cons ⟨rfl, rfl, rfl, rfl, rfl, rfl, rfl⟩ .nil) ⟨rfl, rfl, rfl, rfl⟩

/-- Finding: the index of an encrypted value stays in memory when the proof builder is dropped. -/
theorem C97_index_left [DecidableEq E] (B : Backend F E) (b b' : RingProofBuilder B) (ct : ExtendedCiphertext F E)
    (values : List E) (index : ℕ) (h : b.addPrecomputedValue B ct values index = some b') :
    b'.drop.rings.getLast?.map (·.valueIndex) = some index := by
  simp only [RingProofBuilder.addPrecomputedValue, Option.bind_eq_bind, Option.bind_eq_some_iff] at h
  obtain ⟨_, _, ⟨ring, rng⟩, hnew, hb⟩ := h
  simp only [Option.pure_def, Option.some.injEq] at hb
  subst hb
  have := (new_before B _ _ _ _ _ _ _ _ _ _ hnew).2.1
  simp [RingProofBuilder.drop, Ring.drop, this]

/-- Builders for `false` and `true` can be told apart after they are dropped. -/
example : ∃ a b, exBuilder 0 = some a ∧ exBuilder 1 = some b ∧ a.drop.rings ≠ b.drop.rings := by
  have ha : (exBuilder 0).isSome = true := by decide +kernel
  have hb : (exBuilder 1).isSome = true := by decide +kernel
  obtain ⟨a, ha⟩ := Option.isSome_iff_exists.mp ha
  obtain ⟨b, hb⟩ := Option.isSome_iff_exists.mp hb
  refine ⟨a, b, ha, hb, fun h => ?_⟩
  have h1 := C97_index_left B101 _ a _ _ 0 ha
  rw [h, C97_index_left B101 _ b _ _ 1 hb] at h1
  exact absurd h1 (by decide)

end ElasticElgamal
