import Verif.Lemmas.Format
import Verif.Spec.Format
import Verif.Toy

/-!
# Text output (C82, C83)

`Debug` output does not depend on secrets, except where it does (findings). Error messages identify errors.
-/

set_option autoImplicit false
set_option linter.unusedSectionVars false

namespace ElasticElgamal

open Spec Toy

variable {F E : Type} [Field F] [AddCommGroup E] [Module F E]

/-- A backend in which all secrets have the same public key: the hypotheses of theorems about `Debug` hold for
different secrets. -/
def flat : Backend (ZMod 101) (ZMod 101) := { B101 with gen := 0 }

def flatDebug : GroupDebug (ZMod 101) (ZMod 101) := ⟨fun x => decimal x.val, fun x => decimal x.val⟩

/-! ## `Debug` does not depend on secrets -/

/-- What is printed for a secret key: its public key, as base64. -/
theorem C82_secret_key_text (B : Backend F E) (x : F) (bytes : Bytes) (h : B.serElem (B.mulGen x) = some bytes) :
    (SecretKey.debug B x).map DebugValue.render =
      some (asciiBytes "SecretKey { public: PublicKey(\"" ++ Base64.encode bytes ++ asciiBytes "\") }") := by
  simp [SecretKey.debug, PublicKey.ofSecret, PublicKey.fromElement, h, PublicKey.debug, DebugValue.render,
    DebugValue.renderFields, DebugValue.renderItems, commas, DebugValue.str, asciiBytes]

example : (SecretKey.debug B101 (42 : ZMod 101)).map DebugValue.render =
    some (asciiBytes "SecretKey { public: PublicKey(\"Kg\") }") := by decide +kernel

/-- Two secret keys with the same public key are printed in the same way. This holds for any operations of the group, so in
particular if many secrets have the same public key; hence the output is not computed from the secret in any other
way. -/
theorem C82_secret_key (B : Backend F E) (x y : F) (h : B.mulGen x = B.mulGen y) :
    SecretKey.debug B x = SecretKey.debug B y := by
  simp only [SecretKey.debug, PublicKey.ofSecret, h]

example : SecretKey.debug flat (1 : ZMod 101) = SecretKey.debug flat (2 : ZMod 101) :=
  C82_secret_key flat 1 2 (by decide)

/-- Key pairs are printed without their secret. -/
theorem C82_keypair (x y : F) (key : PublicKey E) : Keypair.debug ⟨x, key⟩ = Keypair.debug ⟨y, key⟩ ∧
    (Keypair.debug (⟨x, key⟩ : Keypair F E)).render =
      asciiBytes "Keypair { public: PublicKey(\"" ++ Base64.encode key.bytes ++ asciiBytes "\"), .. }" := by
  refine ⟨rfl, ?_⟩
  simp [Keypair.debug, PublicKey.debug, DebugValue.render, DebugValue.renderFields, DebugValue.renderItems, commas,
    DebugValue.str, asciiBytes]

example : (Keypair.debug (⟨42, ⟨[42], 42⟩⟩ : Keypair (ZMod 101) (ZMod 101))).render =
    asciiBytes "Keypair { public: PublicKey(\"Kg\"), .. }" := by decide +kernel

/-- Ciphertexts with randomness are printed without it. -/
theorem C82_extended_ciphertext (B : Backend F E) (D : GroupDebug F E) (ct : Ciphertext E) (r s : F)
    (h : B.mulGen r = B.mulGen s) : ExtendedCiphertext.debug B D ⟨ct, r⟩ = ExtendedCiphertext.debug B D ⟨ct, s⟩ := by
  simp only [ExtendedCiphertext.debug, C82_secret_key B r s h]

example : ExtendedCiphertext.debug flat flatDebug ⟨⟨3, 4⟩, 1⟩ = ExtendedCiphertext.debug flat flatDebug ⟨⟨3, 4⟩, 2⟩ :=
  C82_extended_ciphertext flat flatDebug _ _ _ (by decide)

/-- Dealers are printed without the coefficients of their polynomial. -/
theorem C82_dealer (D : GroupDebug F E) (a b : Dealer F E) (h : SameDealer a b) : a.debug D = b.debug D := by
  obtain ⟨h1, h2, h3⟩ := h
  have : a.polynomial.map Keypair.debug = b.polynomial.map Keypair.debug := by
    have e : ∀ l : List (Keypair F E), l.map Keypair.debug =
        (publicKeys l).map fun key => DebugValue.struct "Keypair" [("public", key.debug)] true := by
      intro l; simp [publicKeys, Keypair.debug]
    rw [e, e, h2]
  simp only [Dealer.debug, this, h1, h3]

def exDealer (x : ZMod 101) : Dealer (ZMod 101) (ZMod 101) := ⟨⟨3, 2⟩, [⟨x, ⟨[5], 5⟩⟩, ⟨x + 1, ⟨[6], 6⟩⟩], ⟨7, [8, 9]⟩⟩

example : SameDealer (exDealer 5) (exDealer 6) := ⟨rfl, rfl, rfl⟩

/-- Participants are printed without their share of the secret. -/
theorem C82_participant (B : Backend F E) (keySet : PublicKeySet E) (index : ℕ) (x y : F)
    (h : B.mulGen x = B.mulGen y) :
    ActiveParticipant.debug B ⟨keySet, index, x⟩ = ActiveParticipant.debug B ⟨keySet, index, y⟩ := by
  simp only [ActiveParticipant.debug, C82_secret_key B x y h]

example : ActiveParticipant.debug flat ⟨⟨⟨1, 1⟩, ⟨[0], 0⟩, [⟨[0], 0⟩]⟩, 0, 1⟩ =
    ActiveParticipant.debug flat ⟨⟨⟨1, 1⟩, ⟨[0], 0⟩, [⟨[0], 0⟩]⟩, 0, 2⟩ := C82_participant flat _ _ _ _ (by decide)

/-- Participants of key generation who have opened their commitments are printed without the coefficients of their
polynomial. (Their opening is public by then.) -/
theorem C82_collecting_polynomials (D : GroupDebug F E) (p : CollectingPolynomials F E) (dealer : Dealer F E)
    (h : SameDealer p.dealer dealer) : p.debug D = CollectingPolynomials.debug D { p with dealer } := by
  simp only [CollectingPolynomials.debug, C82_dealer D _ _ h]

example : CollectingPolynomials.debug flatDebug ⟨⟨3, 2⟩, 0, exDealer 5, [1], [[2]], [none]⟩ =
    CollectingPolynomials.debug flatDebug ⟨⟨3, 2⟩, 0, exDealer 6, [1], [[2]], [none]⟩ :=
  C82_collecting_polynomials _ _ (exDealer 6) ⟨rfl, rfl, rfl⟩

/-- Participants of key generation who exchange shares are printed without these and without the coefficients of their
polynomial. -/
theorem C82_exchanging_secrets (B : Backend F E) (D : GroupDebug F E) (p : ExchangingSecrets F E) (dealer : Dealer F E)
    (share : F) (h : SameDealer p.dealer dealer) (hs : B.mulGen p.accumulatedShare = B.mulGen share) :
    p.debug B D = ExchangingSecrets.debug B D { p with dealer, accumulatedShare := share } := by
  simp only [ExchangingSecrets.debug, C82_dealer D _ _ h, C82_secret_key B _ _ hs]

example : ExchangingSecrets.debug flat flatDebug ⟨⟨3, 2⟩, 0, exDealer 5, [[5, 6]], 1, [true]⟩ =
    ExchangingSecrets.debug flat flatDebug ⟨⟨3, 2⟩, 0, exDealer 6, [[5, 6]], 2, [true]⟩ :=
  C82_exchanging_secrets flat _ _ (exDealer 6) 2 ⟨rfl, rfl, rfl⟩ (by decide)

/-! ## Where `Debug` shows secrets -/

/-- Finding: the output for a ciphertext with a retained integer (`CiphertextWithValue<G, u64>`) determines the integer. -/
theorem C82_value_shown (B : Backend F E) (D : GroupDebug F E) (a b : CiphertextWithValue F E ℕ) (ta tb : DebugValue)
    (ha : a.debug B D .nat = some ta) (hb : b.debug B D .nat = some tb) (h : ta.render = tb.render) :
    a.value = b.value := by
  obtain ⟨x, hx⟩ : ∃ x, a.inner.debug B D = some x := by
    cases hx : a.inner.debug B D with
    | none => simp [CiphertextWithValue.debug, hx] at ha
    | some x => exact ⟨x, rfl⟩
  obtain ⟨y, hy⟩ : ∃ y, b.inner.debug B D = some y := by
    cases hy : b.inner.debug B D with
    | none => simp [CiphertextWithValue.debug, hy] at hb
    | some y => exact ⟨y, rfl⟩
  simp only [CiphertextWithValue.debug, hx, Option.bind_eq_bind, Option.bind_some, Option.pure_def,
    Option.some.injEq] at ha
  simp only [CiphertextWithValue.debug, hy, Option.bind_eq_bind, Option.bind_some, Option.pure_def,
    Option.some.injEq] at hb
  subst ha hb
  simp only [DebugValue.render, DebugValue.renderFields, DebugValue.renderItems, commas, DebugValue.zeroizing,
    DebugValue.nat, Bool.false_eq_true, if_false, ← List.append_assoc] at h
  have h1 := List.append_cancel_right (List.append_cancel_right h)
  have e : asciiBytes "(" = [40] := by simp [asciiBytes]
  rw [e] at h1
  exact decimal_inj (run_cancel_end isDigit (decimal_digits _) (decimal_digits _) (by decide) (by decide) h1).2

example : (CiphertextWithValue.debug B101 flatDebug .nat ⟨⟨⟨1, 47⟩, 1⟩, 5⟩).map DebugValue.render =
    some (asciiBytes ("CiphertextWithValue { inner: ExtendedCiphertext { inner: Ciphertext { random_element: 1, " ++
      "blinded_element: 47 }, random_scalar: SecretKey { public: PublicKey(\"AQ\") } }, value: Zeroizing(5) }")) := by
  decide +kernel

/-- Finding: the output for a participant that has only committed to its key determines the opening of the
commitment. (It contains the key as well.) -/
theorem C82_opening_shown (D : GroupDebug F E) (a b : CollectingCommitments F E)
    (h : (a.debug D).render = (b.debug D).render) : a.opening = b.opening := by
  simp only [CollectingCommitments.debug, debugOpening, DebugValue.render, DebugValue.renderFields,
    DebugValue.renderItems, commas, DebugValue.zeroizing, render_bytes, Bool.false_eq_true, if_false,
    ← List.append_assoc] at h
  have h1 := List.append_cancel_right (List.append_cancel_right (List.append_cancel_right (List.append_cancel_right h)))
  have e : asciiBytes "[" = [91] := by simp [asciiBytes]
  rw [e] at h1
  have h2 := (run_cancel_end isListByte (commas_decimal_bytes _) (commas_decimal_bytes _) (by decide) (by decide) h1).2
  exact bytes_toNat_inj (commas_decimal_inj h2)

example : (CollectingCommitments.debug flatDebug ⟨⟨1, 1⟩, 0, ⟨⟨1, 1⟩, [⟨5, ⟨[5], 5⟩⟩], ⟨7, [8]⟩⟩, [some [1], none],
      [17, 0]⟩).render =
    asciiBytes ("ParticipantCollectingCommitments { params: Params { shares: 1, threshold: 1 }, index: 0, " ++
      "dealer: Dealer { params: Params { shares: 1, threshold: 1 }, " ++
      "polynomial: [Keypair { public: PublicKey(\"BQ\"), .. }], " ++
      "proof_of_possession: ProofOfPossession { challenge: 7, responses: [8] } }, commitments: [Some([1]), None], " ++
      "opening: Opening(Zeroizing([17, 0])) }") := by decide +kernel

theorem newLoop_before [DecidableEq E] (B : Backend F E) (logBase : E) (ct : Ciphertext E) (t : Transcript) {i : ℕ}
    {values : List E} {c c' : E × E} {rs rs' : List F} {rng rng' : B.Rng}
    (h : Ring.newLoop B logBase ct t i values c rs rng = some (c', rs', rng')) :
    ∀ j < i, rs'[j]? = rs[j]? := by
  induction values generalizing i c rs rng with
  | nil => simp [Ring.newLoop] at h; intro j _; rw [h.2.1]
  | cons v values ih =>
    simp only [Ring.newLoop, Option.bind_eq_bind, Option.bind_eq_some_iff] at h
    obtain ⟨t1, -, t2, -, rs1, h1, h2⟩ := h
    intro j hj
    rw [ih h2 j (by omega)]
    unfold setAt at h1
    split at h1
    · simp only [Option.some.injEq] at h1
      rw [← h1, List.getElem?_set_ne (by omega)]
    · cases h1

theorem new_before [DecidableEq E] (B : Backend F E) (index : ℕ) (logBase : E) (ct : ExtendedCiphertext F E)
    (values : List E) (valueIndex : ℕ) (t : Transcript) (rs : List F) (rng rng' : B.Rng) (ring : Ring F E)
    (h : Ring.new B index logBase ct values valueIndex t rs rng = some (ring, rng')) :
    valueIndex < values.length ∧ ring.valueIndex = valueIndex ∧ ∀ j ≤ valueIndex, ring.responses[j]? = rs[j]? := by
  simp only [Ring.new, Option.bind_eq_bind, Option.bind_eq_some_iff] at h
  obtain ⟨-, -, _, h1, -, -, v, -, -, -, bytes, -, ⟨c, rs', rng1⟩, h2, h3⟩ := h
  replace h1 : valueIndex < values.length := by
    by_contra hn
    simp [guard, hn] at h1
  simp only [Option.pure_def, Option.some.injEq, Prod.mk.injEq] at h3
  obtain ⟨rfl, -⟩ := h3
  exact ⟨h1, rfl, fun j hj => newLoop_before B _ _ _ h2 j (by omega)⟩

/-- All responses of a ring up to its secret index are 0 until the proof is built. -/
theorem builder_zeros [DecidableEq E] (B : Backend F E) (b : RingProofBuilder B) (h : BuilderReach B b) :
    (∀ x ∈ b.ringResponses, x = 0) ∧ ∀ ring ∈ b.rings, ∀ j ≤ ring.valueIndex, ring.responses[j]? = some 0 := by
  induction h with
  | new receiver n t rng => simp [RingProofBuilder.new]
  | add b b' ct values index _ hadd ih =>
    simp only [RingProofBuilder.addPrecomputedValue, Option.bind_eq_bind, Option.bind_eq_some_iff] at hadd
    obtain ⟨_, hl, ⟨ring, rng⟩, hnew, hb⟩ := hadd
    replace hl : values.length ≤ b.ringResponses.length := by
      by_contra hn
      simp [guard, hn] at hl
    simp only [Option.pure_def, Option.some.injEq] at hb
    subst hb
    refine ⟨fun x hx => ih.1 x (List.mem_of_mem_drop hx), ?_⟩
    intro r hr j hj
    rcases List.mem_append.mp hr with hr | hr
    · exact ih.2 r hr j hj
    · simp only [List.mem_singleton] at hr
      subst hr
      obtain ⟨h1, h2, h3⟩ := new_before B _ _ _ _ _ _ _ _ _ _ hnew
      rw [h2] at hj
      rw [h3 j hj, List.getElem?_take_of_lt (by omega), List.getElem?_eq_getElem (by omega)]
      exact congrArg some (ih.1 _ (List.getElem_mem _))

/-- Finding: what is printed for an unfinished ring proof determines the encrypted values, unless a random scalar is 0: the
responses, which are printed though they are not public yet, are 0 exactly up to the index of the value. -/
theorem C82_values_shown [DecidableEq E] (B : Backend F E) (D : GroupDebug F E) (hD : Function.Injective D.scalar)
    (rng : B.Rng → DebugValue) (a b : RingProofBuilder B) (ha : BuilderReach B a) (hb : BuilderReach B b)
    (hna : ∀ ring ∈ a.rings, ∀ j > ring.valueIndex, ring.responses[j]? ≠ some 0)
    (hnb : ∀ ring ∈ b.rings, ∀ j > ring.valueIndex, ring.responses[j]? ≠ some 0)
    (h : a.debug D rng = b.debug D rng) : a.rings.map (·.valueIndex) = b.rings.map (·.valueIndex) := by
  have hr : a.rings.map (Ring.debug D) = b.rings.map (Ring.debug D) := by
    simp only [RingProofBuilder.debug, DebugValue.struct.injEq, List.cons.injEq, Prod.mk.injEq, DebugValue.list.injEq] at h
    exact h.2.1.2.1.2
  have za := (builder_zeros B a ha).2
  have zb := (builder_zeros B b hb).2
  have inj : ∀ {r s : Ring F E}, r.debug D = s.debug D → r.responses = s.responses := by
    intro r s h
    simp only [Ring.debug, GroupDebug.scalars, DebugValue.struct.injEq, List.cons.injEq, Prod.mk.injEq,
      DebugValue.list.injEq] at h
    have hi : Function.Injective fun x => DebugValue.text (D.scalar x) := fun x y hxy => hD (DebugValue.text.inj hxy)
    exact List.map_injective_iff.mpr hi h.2.1.2.2.2.1.2
  generalize a.rings = ra at *
  generalize b.rings = rb at *
  clear h ha hb
  induction ra generalizing rb with
  | nil =>
    cases rb with
    | nil => rfl
    | cons s rb => simp at hr
  | cons r ra ih =>
    cases rb with
    | nil => simp at hr
    | cons s rb =>
      simp only [List.map_cons, List.cons.injEq] at hr
      have e := inj hr.1
      have : r.valueIndex = s.valueIndex := by
        rcases lt_trichotomy r.valueIndex s.valueIndex with hlt | heq | hgt
        · exact absurd (e ▸ zb s (by simp) _ le_rfl) (hna r (by simp) _ hlt)
        · exact heq
        · exact absurd (e ▸ za r (by simp) _ le_rfl) (hnb s (by simp) _ hgt)
      simp only [List.map_cons, this, List.cons.injEq, true_and]
      exact ih (fun ring hring => hna ring (by simp [hring])) (fun ring hring => za ring (by simp [hring])) rb
        (fun ring hring => hnb ring (by simp [hring])) (fun ring hring => zb ring (by simp [hring])) hr.2

/-- A builder with one value. -/
def exBuilder (index : ℕ) : Option (RingProofBuilder B101) :=
  (RingProofBuilder.new B101 (⟨[42], 42⟩ : PublicKey (ZMod 101)) (List.replicate 2 (0 : ZMod 101)) (Transcript.new "x")
    (3 : ℕ)).addPrecomputedValue B101 ⟨⟨9, 9 * 42 + index⟩, 9⟩ [0, 1] index

/-- Builders for `false` and `true` meet the hypotheses. -/
example : ∃ a b, exBuilder 0 = some a ∧ exBuilder 1 = some b ∧ BuilderReach B101 a ∧ BuilderReach B101 b ∧
    (∀ ring ∈ a.rings, ∀ j > ring.valueIndex, ring.responses[j]? ≠ some 0) ∧
    (∀ ring ∈ b.rings, ∀ j > ring.valueIndex, ring.responses[j]? ≠ some 0) ∧
    a.debug flatDebug (fun _ => .nat 0) ≠ b.debug flatDebug (fun _ => .nat 0) := by
  have ha : (exBuilder 0).map (fun b => b.rings.map fun r => (r.valueIndex, r.responses)) = some [(0, [0, 35])] := by
    decide +kernel
  have hb : (exBuilder 1).map (fun b => b.rings.map fun r => (r.valueIndex, r.responses)) = some [(1, [0, 0])] := by
    decide +kernel
  cases ea : exBuilder 0 with
  | none => simp [ea] at ha
  | some a => cases eb : exBuilder 1 with
    | none => simp [eb] at hb
    | some b =>
      simp only [ea, eb, Option.map_some, Option.some.injEq, List.map_eq_singleton_iff, Prod.mk.injEq] at ha hb
      obtain ⟨r, har, hav, hax⟩ := ha
      obtain ⟨s, hbs, hbv, hbx⟩ := hb
      have na : ∀ ring ∈ a.rings, ∀ j > ring.valueIndex, ring.responses[j]? ≠ some 0 := by
        intro ring hring j hj
        simp only [har, List.mem_singleton] at hring
        subst hring
        rw [hav] at hj
        rw [hax]
        obtain _ | _ | j := j
        · omega
        · decide
        · simp
      have nb : ∀ ring ∈ b.rings, ∀ j > ring.valueIndex, ring.responses[j]? ≠ some 0 := by
        intro ring hring j hj
        simp only [hbs, List.mem_singleton] at hring
        subst hring
        rw [hbv] at hj
        rw [hbx, List.getElem?_eq_none (by simp; omega)]
        simp
      have ra : BuilderReach B101 a := .add _ a _ _ _ (.new _ 2 _ _) ea
      have rb : BuilderReach B101 b := .add _ b _ _ _ (.new _ 2 _ _) eb
      refine ⟨a, b, rfl, rfl, ra, rb, na, nb, fun h => ?_⟩
      have := C82_values_shown B101 flatDebug (fun x y hxy => ZMod.val_injective 101 (decimal_inj hxy)) _ a b ra rb na nb h
      rw [har, hbs] at this
      simp [hav, hbv] at this

/-- Finding: with SEC1 groups, printing a zero secret key panics. -/
theorem C82_debug_panics_sec1 (B : Backend F E) (hS : B.Sec1Ser) : SecretKey.debug B (0 : F) = none := by
  have : B.serElem (0 : E) = none := (hS 0).mpr rfl
  simp [SecretKey.debug, PublicKey.ofSecret, PublicKey.fromElement, Backend.mulGen, this]

example : SecretKey.debug S101 (0 : ZMod 101) = none := C82_debug_panics_sec1 S101 S101_sec1

/-! ## Error messages -/

/-- Different errors have different messages. -/
theorem C83_messages : Function.Injective PublicKeyConversionError.display ∧
    Function.Injective VerificationError.display ∧ Function.Injective SharingError.display ∧
    Function.Injective DkgError.display ∧ Function.Injective ChoiceVerificationError.display ∧
    Function.Injective QuadraticVotingError.display :=
  ⟨fun _ _ h => PublicKeyConversionError.display_inj h, fun _ _ h => VerificationError.display_inj h,
    fun _ _ h => SharingError.display_inj h, fun _ _ h => DkgError.display_inj h,
    fun _ _ h => ChoiceVerificationError.display_inj h, fun _ _ h => QuadraticVotingError.display_inj h⟩

example : QuadraticVotingError.display (.Variant 2 (.LenMismatch "partial ciphertexts" 3 4)) =
    asciiBytes ("error verifying range proof for option #3: number of partial ciphertexts (4) differs from expected (3)")
    := by decide +kernel

/-- The message of an error with a source ends with the message of the source; other messages do not end with the
message of another error. -/
theorem C83_sources :
    (∀ (e : SharingError) err, e.source = some err → Explains e.display err.display) ∧
    (∀ (e : SharingError) (err : VerificationError), e.source = none → ¬ Explains e.display err.display) ∧
    (∀ (e : DkgError) err, e.source = some err → Explains e.display err.display) ∧
    (∀ (e : DkgError) (err : SharingError), e.source = none → ¬ Explains e.display err.display) ∧
    (∀ (e : ChoiceVerificationError) err, e.source = some err → Explains e.display err.display) ∧
    (∀ (e : ChoiceVerificationError) (err : VerificationError), e.source = none → ¬ Explains e.display err.display) ∧
    (∀ (e : QuadraticVotingError) err, e.source = some err → Explains e.display err.display) ∧
    (∀ (e : QuadraticVotingError) (err : VerificationError), e.source = none → ¬ Explains e.display err.display) := by
  have colon : ∀ {text inner : Bytes}, (58 : UInt8) ∉ text → ¬ Explains text inner := by
    rintro text inner h ⟨context, rfl⟩
    exact h (by simp [asciiBytes])
  have options : ∀ a b : ℕ, (58 : UInt8) ∉ asciiBytes "number of options in the ballot (" ++ decimal a ++
      asciiBytes ") differs from expected (" ++ decimal b ++ asciiBytes ")" := by
    intro a b h
    simp only [List.mem_append] at h
    rcases h with (((h | h) | h) | h) | h
    · revert h; decide +kernel
    · exact absurd (decimal_digits _ _ h) (by decide)
    · revert h; decide +kernel
    · exact absurd (decimal_digits _ _ h) (by decide)
    · revert h; decide +kernel
  refine ⟨?_, ?_, ?_, ?_, ?_, ?_, ?_, ?_⟩ <;> intro e err h
  · cases e <;> simp only [SharingError.source, Option.some.injEq, reduceCtorEq] at h
    subst h
    exact ⟨asciiBytes "proof of possession supplied with the dealer's public polynomial is invalid", by
      simp [SharingError.display, asciiBytes]⟩
  · cases e <;> simp only [SharingError.source, reduceCtorEq] at h <;>
      exact colon (by simp only [SharingError.display]; decide +kernel)
  · cases e <;> simp only [DkgError.source, Option.some.injEq, reduceCtorEq] at h <;> subst h
    · exact ⟨asciiBytes "provided proof of possession or public polynomial is malformed", by
        simp [DkgError.display, asciiBytes]⟩
    · exact ⟨asciiBytes "public shares obtained from accumulated public polynomial are inconsistent", by
        simp [DkgError.display, asciiBytes]⟩
  · cases e <;> simp only [DkgError.source, reduceCtorEq] at h <;>
      exact colon (by simp only [DkgError.display]; decide +kernel)
  · cases e <;> simp only [ChoiceVerificationError.source, Option.some.injEq, reduceCtorEq] at h <;> subst h
    · exact ⟨asciiBytes "cannot verify sum proof", by simp [ChoiceVerificationError.display, asciiBytes]⟩
    · exact ⟨asciiBytes "cannot verify range proofs", by simp [ChoiceVerificationError.display, asciiBytes]⟩
  · cases e <;> simp only [ChoiceVerificationError.source, reduceCtorEq] at h
    exact colon (options _ _)
  · cases e <;> simp only [QuadraticVotingError.source, Option.some.injEq, reduceCtorEq] at h <;> subst h
    · rename_i i err
      exact ⟨asciiBytes "error verifying range proof for option #" ++ decimal (i + 1), rfl⟩
    · exact ⟨asciiBytes "error verifying range proof for credits", by simp [QuadraticVotingError.display, asciiBytes]⟩
    · exact ⟨asciiBytes "error verifying credit equivalence proof", by
        simp [QuadraticVotingError.display, asciiBytes]⟩
  · cases e <;> simp only [QuadraticVotingError.source, reduceCtorEq] at h
    exact colon (options _ _)

example : Explains (DkgError.display (.MalformedParticipantProof .MalformedDealerPolynomial))
    (SharingError.display .MalformedDealerPolynomial) :=
  C83_sources.2.2.1 _ _ rfl

end ElasticElgamal
