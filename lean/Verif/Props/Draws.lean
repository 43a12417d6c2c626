import Verif.Lemmas.Draws
import Verif.Props.Range
import Verif.Props.QuadraticVoting

/-!
# C86: randomness is read once, and in order
-/

set_option autoImplicit false
set_option linter.unusedSectionVars false

namespace ElasticElgamal

open Spec Toy

variable {F E : Type} [Field F] [AddCommGroup E] [Module F E] (B : Backend F E)

/-- C86: key generation and encryption read one scalar. -/
theorem C86_encryption (K : PublicKey E) (m : F) (v : ℕ) (e : E) :
    Draws B 1 Prod.mk (fun rng => some (SecretKey.generate B rng)) ∧
    Draws B 1 Prod.mk (Keypair.generate B) ∧
    Draws B 1 Prod.mk (fun rng => some (K.encrypt B m rng)) ∧
    Draws B 1 Prod.mk (fun rng => some (K.encryptElement B e rng)) ∧
    Draws B 1 Prod.mk (fun rng => some (CiphertextWithValue.new B m K rng)) ∧
    Draws B 1 Prod.mk (fun rng => some (CiphertextWithValue.newU64 B v K rng)) :=
  ⟨⟨fun xs => some (xs.headD 0), fun _ => rfl⟩, keypair_draws.draws,
    ⟨fun xs => some ⟨xs.headD 0 • B.gen, m • B.gen + xs.headD 0 • K.element⟩, fun _ => rfl⟩,
    ⟨fun xs => some ⟨xs.headD 0 • B.gen, e + xs.headD 0 • K.element⟩, fun _ => rfl⟩,
    ⟨fun xs => some ⟨⟨⟨xs.headD 0 • B.gen, m • B.gen + xs.headD 0 • K.element⟩, xs.headD 0⟩, m⟩, fun _ => rfl⟩,
    ⟨fun xs => some ⟨⟨⟨xs.headD 0 • B.gen, (v : F) • B.gen + xs.headD 0 • K.element⟩, xs.headD 0⟩, v⟩, fun _ => rfl⟩⟩

example : ∃ kp, Keypair.generate B101.withTape [3, 4, 5] = some (kp, [4, 5]) := ⟨_, rfl⟩

example : ((⟨[7], 7⟩ : PublicKey (ZMod 101)).encrypt B101.withTape 2 [3, 4, 5]).2 = [4, 5] := rfl

/-- C86: proofs read one scalar for each secret number they are about. -/
theorem C86_proofs (K : PublicKey E) (secret : F) (powers : E × E) (t : Transcript) (keypairs : List (Keypair F E))
    (ct : CiphertextWithValue F E) (cts : List (CiphertextWithValue F E)) (base : E) :
    Draws B 1 withTranscript (LogEqualityProof.new B K secret powers t) ∧
    Draws B keypairs.length withTranscript (ProofOfPossession.new B keypairs t) ∧
    Draws B 3 withTranscript (CommitmentEquivalenceProof.new B ct K secret base t) ∧
    Draws B (2 * cts.length + 1) withTranscript (SumOfSquaresProof.new B cts ct K t) :=
  ⟨(logEq_draws K secret powers t).draws,
    ((possession_draws (keypairs.map (·.secret)) (keypairs.map (·.publicKey)) t).cast (by simp)).draws,
    (commitment_draws ct K secret base t).draws,
    ((sumOfSquares_draws cts ct K t).cast (by rw [Nat.mul_comm])).draws⟩

example : ∃ p t, SumOfSquaresProof.new B101.withTape
    [⟨⟨⟨1, 9⟩, 1⟩, 2⟩, ⟨⟨⟨3, 24⟩, 3⟩, 3⟩] ⟨⟨⟨1, 20⟩, 1⟩, 13⟩ ⟨[7], 7⟩ (Transcript.new "toy") [1, 2, 3, 4, 5, 6, 7] =
      some (p, t, [6, 7]) := ⟨_, _, rfl⟩

/-- C86: decryption with a proof, in one piece or with a share, and proving possession of a share read one scalar; a
dealer reads two for each coefficient. -/
theorem C86_sharing (ct : Ciphertext E) (keys : Keypair F E) (t : Transcript) (p : ActiveParticipant F E)
    (params : Params) :
    Draws B 1 withTranscript (VerifiableDecryption.new B ct keys t) ∧
    Draws B 1 Prod.mk (p.decryptShare B ct) ∧
    Draws B 1 Prod.mk (p.proofOfPossession B) ∧
    Draws B (2 * params.threshold) Prod.mk (Dealer.new B params) :=
  ⟨(decryption_draws ct keys t).draws, (decryptShare_draws p ct).draws, (participantPossession_draws p).draws,
    (dealer_draws params).draws⟩

example : ∃ dealer, Dealer.new B101.withTape ⟨3, 2⟩ [1, 2, 3, 4, 5, 6] = some (dealer, [5, 6]) := ⟨_, rfl⟩

/-- C86: a participant of distributed key generation reads two scalars for each coefficient, then 32 bytes. -/
theorem C86_dkg (params : Params) (index : ℕ) :
    ∃ g : List F → Bytes → Option (CollectingCommitments F E), ∀ rng,
      CollectingCommitments.new B params index rng =
        let (xs, rng) := drawScalars B (2 * params.threshold) rng
        let (opening, rng) := B.fill32 rng
        (g xs opening).map fun p => (p, rng) := by
  obtain ⟨g, hg, -⟩ := dealer_draws (B := B) params
  refine ⟨fun xs opening => do
    guard (index < params.shares)
    let dealer ← g xs
    let commitment ← createCommitment B (← dealer.publicInfo.1[0]?) opening
    let commitments ← setAt (List.replicate params.shares none) index (some commitment)
    return { params, index, dealer, commitments, opening }, fun rng => ?_⟩
  simp only [CollectingCommitments.new, hg rng]
  by_cases h : index < params.shares
  · cases g (drawScalars B (2 * params.threshold) rng).1 with
    | none => simp [guard, h]
    | some dealer =>
      simp only [guard, h, if_true, Option.bind_eq_bind, Option.pure_def, Option.bind_some, Option.map_some]
      cases dealer.publicInfo.1[0]? with
      | none => rfl
      | some e =>
        simp only [Option.bind_some]
        cases createCommitment B e (B.fill32 (drawScalars B (2 * params.threshold) rng).2).1 with
        | none => rfl
        | some c =>
          simp only [Option.bind_some]
          cases setAt (List.replicate params.shares none) index (some c) <;> rfl
  · simp [guard, h]

example : ∃ p, CollectingCommitments.new B101 ⟨3, 2⟩ 1 (10 : ℕ) = some (p, (15 : ℕ)) := ⟨_, rfl⟩

variable [DecidableEq F] [DecidableEq E]

/-- C86: a ring proof reads one scalar for each admissible value, and one for each ciphertext it creates. -/
theorem C86_rings (K : PublicKey E) (rings : List (RingInput F E)) (t : Transcript) :
    Draws B (rings.map fun r => r.values.length + if r.fresh then 1 else 0).sum withTranscript
      (proveRings B K rings t) :=
  (rings_draws K rings t).draws

-- a ring with a new ciphertext and one with a given ciphertext
example : ∃ p t, proveRings B101.withTape ⟨[7], 7⟩
    [⟨⟨⟨0, 0⟩, 0⟩, [0, 1, 5], 2, true⟩, ⟨⟨⟨2, 15⟩, 2⟩, [1, 2], 0, false⟩] (Transcript.new "toy")
      [1, 2, 3, 4, 5, 6, 7, 8] = some (p, t, [7, 8]) := ⟨_, _, rfl⟩

/-- C86: encryption of zero and of booleans with a proof. -/
theorem C86_encrypt_small (K : PublicKey E) (value : Bool) :
    Draws B 2 Prod.mk (K.encryptZero B) ∧ Draws B 3 Prod.mk (K.encryptBool B value) :=
  ⟨(encryptZero_draws K).draws, (encryptBool_draws K value).draws⟩

example : ∃ p, (⟨[7], 7⟩ : PublicKey (ZMod 101)).encryptBool B101.withTape true [1, 2, 3, 4, 5] = some (p, [4, 5]) :=
  ⟨_, rfl⟩

/-- C86: a value with a range proof takes one scalar for each ring and one for each admissible value, one less if the
ciphertext is given. -/
theorem C86_ranges {d : RangeDecomposition} {range : PreparedRange E} (h : PreparedRange.new B d = some range)
    (hd : d.rings ≠ []) (K : PublicKey E) (value : ℕ) (ct : CiphertextWithValue F E ℕ) (t : Transcript) :
    Draws B (d.rings.map (1 + ·.size)).sum withTranscript (RangeProof.new B K range value t) ∧
    Draws B ((d.rings.map (1 + ·.size)).sum - 1) withTranscript (RangeProof.fromCiphertext B K range ct t) ∧
    Draws B (d.rings.map (1 + ·.size)).sum Prod.mk (K.encryptRange B range value) := by
  have hr : rangeDraws range = (d.rings.map (1 + ·.size)).sum := by
    have : range.inner = d := by
      simp only [PreparedRange.new, Option.bind_eq_bind, Option.bind_eq_some_iff, Option.pure_def,
        Option.some.injEq] at h
      obtain ⟨_, _, rfl⟩ := h
      rfl
    simp [rangeDraws, rangeRings, rangeItems, this, List.sum_map_add]
  exact ⟨((range_draws h hd K value t).cast hr).draws, ((fromCiphertext_draws h K ct t).cast (by rw [hr])).draws,
    ((encryptRange_draws h hd K value).cast hr).draws⟩

example : Draws B101 11 withTranscript (RangeProof.new B101 ⟨[7], 7⟩ exampleRange 13 (Transcript.new "toy")) :=
  (C86_ranges B101 (d := ⟨[⟨4, 4⟩, ⟨5, 1⟩]⟩) rfl (by simp) ⟨[7], 7⟩ 13 ⟨⟨⟨1, 20⟩, 1⟩, 13⟩ (Transcript.new "toy")).1

example : ∃ p t, RangeProof.new B101.withTape ⟨[7], 7⟩ exampleRange 13 (Transcript.new "toy")
    [1, 2, 3, 4, 5, 6, 7, 8, 9, 10, 11, 12] = some (p, t, [12]) := ⟨_, _, rfl⟩

/-- C86: ballots with choices read three scalars for each option, and one for the proof about the sum. -/
theorem C86_choices (params : ChoiceParams E .single) (params' : ChoiceParams E .multi) (choice : ℕ)
    (choices : List Bool) :
    Draws B (3 * params.optionsCount + 1) Prod.mk (EncryptedChoice.single B params choice) ∧
    Draws B (3 * params.optionsCount + 1) Prod.mk (EncryptedChoice.new B params choices) ∧
    Draws B (3 * params'.optionsCount) Prod.mk (EncryptedChoice.new B params' choices) := by
  refine ⟨?_, (choice_draws params choices).draws, (choice_draws params' choices).draws⟩
  have : DrawsTo B (3 * params.optionsCount + 1) Prod.mk (fun rng => EncryptedChoice.single B params choice rng)
      fun _ => True := by
    simp only [EncryptedChoice.single]
    exact .lift fun _ _ => choice_draws params _
  exact this.draws

example : ∃ ballot, EncryptedChoice.single B101.withTape ⟨2, ⟨[7], 7⟩⟩ 1 [1, 2, 3, 4, 5, 6, 7, 8, 9] =
    some (ballot, [8, 9]) := ⟨_, rfl⟩

/-- C86: ballots for quadratic voting. -/
theorem C86_voting {params : QuadraticVotingParams E} {d₁ d₂ : RangeDecomposition}
    (h₁ : PreparedRange.new B d₁ = some params.voteCountRange) (h₂ : PreparedRange.new B d₂ = some params.creditRange)
    (hd₁ : d₁.rings ≠ []) (hd₂ : d₂.rings ≠ []) (votes : List ℕ) :
    Draws B (ballotDraws params params.optionsCount) Prod.mk (QuadraticVotingBallot.new B params votes) :=
  (voting_draws h₁ h₂ hd₁ hd₂ votes).draws

-- two options, each with 11 scalars, 11 for the credits, 5 for the proof about them
example : Draws B101 38 Prod.mk
    (QuadraticVotingBallot.new B101 ⟨exampleRange, exampleRange, 2, ⟨[7], 7⟩⟩ [2, 3]) :=
  C86_voting B101 (params := ⟨exampleRange, exampleRange, 2, ⟨[7], 7⟩⟩) (d₁ := ⟨[⟨4, 4⟩, ⟨5, 1⟩]⟩)
    (d₂ := ⟨[⟨4, 4⟩, ⟨5, 1⟩]⟩) rfl rfl (by simp) (by simp) [2, 3]

/-- C86: hence two operations one after another read disjoint parts of the randomness: with a tape as generator, the
second one works as if it had got a tape of its own. -/
theorem C86_successive {α β γ δ : Type} {d d' : ℕ} {out : α → List F → γ} {f : List F → Option γ}
    {out' : β → List F → δ} {f' : List F → Option δ} (hf : Draws B.withTape d out f) (hf' : Draws B.withTape d' out' f')
    (xs ys rest : List F) (hx : xs.length = d) (hy : ys.length = d') :
    (∀ c, f (xs ++ ys ++ rest) = some c → ∃ a, f xs = some (out a []) ∧ c = out a (ys ++ rest)) ∧
    (∀ c, f' (ys ++ rest) = some c → ∃ b, f' ys = some (out' b []) ∧ c = out' b rest) := by
  have key : ∀ (n : ℕ) (xs rest : List F), xs.length = n → drawScalars B.withTape n (xs ++ rest) = (xs, rest) := by
    intro n
    induction n with
    | zero =>
      intro xs rest h
      rw [List.length_eq_zero_iff] at h
      subst h
      rfl
    | succ n ih =>
      intro xs rest h
      match xs, h with
      | x :: xs, h =>
        have := ih xs rest (by simpa using h)
        simp only [drawScalars, List.cons_append, List.headD_cons, List.tail_cons, this]
  obtain ⟨g, hg⟩ := hf
  obtain ⟨g', hg'⟩ := hf'
  constructor
  · intro c hc
    rw [hg, List.append_assoc, key d xs _ hx, Option.map_eq_some_iff] at hc
    obtain ⟨a, ha, rfl⟩ := hc
    refine ⟨a, ?_, rfl⟩
    have := key d xs [] hx
    rw [List.append_nil] at this
    rw [hg, this, ha]
    rfl
  · intro c hc
    rw [hg', key d' ys _ hy, Option.map_eq_some_iff] at hc
    obtain ⟨b, hb, rfl⟩ := hc
    refine ⟨b, ?_, rfl⟩
    have := key d' ys [] hy
    rw [List.append_nil] at this
    rw [hg', this, hb]
    rfl

-- the randomness of a second ciphertext is independent of the first one
example : ∀ c, (⟨[7], 7⟩ : PublicKey (ZMod 101)).encryptZero B101.withTape [3, 4, 5, 6, 7] = some c →
    ∃ a, (⟨[7], 7⟩ : PublicKey (ZMod 101)).encryptZero B101.withTape [3, 4] = some (a, []) ∧ c = (a, [5, 6, 7]) :=
  (C86_successive B101 (C86_encrypt_small B101.withTape ⟨[7], 7⟩ true).1
    (C86_encrypt_small B101.withTape ⟨[7], 7⟩ true).1 [3, 4] [5, 6] [7] rfl rfl).1

end ElasticElgamal
