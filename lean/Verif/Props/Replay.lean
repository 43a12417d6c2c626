import Verif.Lemmas.Replay
import Verif.Props.Choice
import Verif.Props.KeySet
import Verif.Props.QuadraticVoting
import Verif.Toy

/-!
# C95: proofs and ballots cannot be reused

An arbitrary algorithm that evaluates the hash function at most `q` times outputs one proof and two places for it
(context, keys, statement). The probability that the proof is accepted in both places, although these differ, is
at most the probability of a collision among the hash values computed by the algorithm and the two verifiers. No
computational assumption is made, secret keys and honest proofs are no obstacle: the algorithm may know all of them.
-/

set_option autoImplicit false
set_option linter.unusedSectionVars false

namespace ElasticElgamal

open Spec Toy

variable {F E : Type} [Field F] [AddCommGroup E] [Module F E] [DecidableEq F] [DecidableEq E] [Fintype F]

/-- C95: log equality proofs (also proofs of encryption of zero). -/
theorem C95_log_eq_replay (B : Backend F E) (hB : B.Lawful)
    (adv : OracleAlg (List Entry) F (LogEqualityProof F × (PublicKey E × (E × E) × Transcript) ×
      (PublicKey E × (E × E) × Transcript))) (q : ℕ) (hq : adv.AtMost q) :
    ProbLe (fun H => ∃ proof K₁ powers₁ t₁ K₂ powers₂ t₂ t₁' t₂',
        adv.run H = (proof, (K₁, powers₁, t₁), (K₂, powers₂, t₂)) ∧ WellFormedKey B K₁ ∧ WellFormedKey B K₂ ∧
        proof.verify (B.withHash H) K₁ powers₁ t₁ = some (.ok (), t₁') ∧
        proof.verify (B.withHash H) K₂ powers₂ t₂ = some (.ok (), t₂') ∧
        (t₁ ≠ t₂ ∨ K₁.element ≠ K₂.element ∨ powers₁ ≠ powers₂))
      (collisionBound (Fintype.card F) (q + 2)) := by
  refine probLe_replay (m₁ := 1) (m₂ := 1) hq (fun o => logAlg (o.1.verify B o.2.1.1 o.2.1.2.1 o.2.1.2.2))
    (fun o => logAlg (o.1.verify B o.2.2.1 o.2.2.2.1 o.2.2.2.2)) (fun _ => logAlg_atMost _)
    (fun _ => logAlg_atMost _) ?_
  rintro H ⟨proof, K₁, powers₁, t₁, K₂, powers₂, t₂, t₁', t₂', hrun, hK₁, hK₂, h₁, h₂, hne⟩
  obtain ⟨r₁, e₁⟩ := LogEqualityProof.verify_log h₁
  obtain ⟨r₂, e₂⟩ := LogEqualityProof.verify_log h₂
  rw [hrun]
  exact ⟨_, mem_logAlg e₁ H, _, mem_logAlg e₂ H,
    C13_log_eq_binding (B.withHash H) (hB.withHash H) proof K₁ K₂ powers₁ powers₂ t₁ t₂ _ _ hK₁ hK₂ h₁ h₂ hne⟩

example := C95_log_eq_replay B101 B101_lawful
  (.ask [] fun a => .done (⟨a, 3⟩, (⟨[42], 42⟩, (1, 1), Transcript.new "x"), (⟨[42], 42⟩, (1, 1), Transcript.new "y")))
  1 fun _ => trivial

/-- The event is possible: for a constant hash function a proof is accepted in two contexts. -/
example : ∃ (H : List Entry → ZMod 101) (proof : LogEqualityProof (ZMod 101)) (t₁' t₂' : Transcript),
    proof.verify (B101.withHash H) ⟨[42], 42⟩ (1, 1) (Transcript.new "x") = some (.ok (), t₁') ∧
    proof.verify (B101.withHash H) ⟨[42], 42⟩ (1, 1) (Transcript.new "y") = some (.ok (), t₂') ∧
    Transcript.new "x" ≠ Transcript.new "y" :=
  ⟨fun _ => 7, ⟨7, 38⟩, _, _, rfl, rfl, by decide +kernel⟩

/-- C95: proofs of encryption of zero. A proof is bound to the key and the ciphertext. -/
theorem C95_zero_replay (B : Backend F E) (hB : B.Lawful)
    (adv : OracleAlg (List Entry) F (LogEqualityProof F × (PublicKey E × Ciphertext E) × (PublicKey E × Ciphertext E)))
    (q : ℕ) (hq : adv.AtMost q) :
    ProbLe (fun H => ∃ proof K₁ ct₁ K₂ ct₂, adv.run H = (proof, (K₁, ct₁), (K₂, ct₂)) ∧
        WellFormedKey B K₁ ∧ WellFormedKey B K₂ ∧
        K₁.verifyZero (B.withHash H) ct₁ proof = some (.ok ()) ∧
        K₂.verifyZero (B.withHash H) ct₂ proof = some (.ok ()) ∧ (K₁.element ≠ K₂.element ∨ ct₁ ≠ ct₂))
      (collisionBound (Fintype.card F) (q + 2)) := by
  let pt : LogEqualityProof F → PublicKey E × Ciphertext E → OracleAlg (List Entry) F Unit := fun proof s =>
    logAlg (proof.verify B s.1 (s.2.random, s.2.blinded) (Transcript.new "zero_encryption"))
  refine probLe_replay (m₁ := 1) (m₂ := 1) hq (fun o => pt o.1 o.2.1) (fun o => pt o.1 o.2.2)
    (fun _ => logAlg_atMost _) (fun _ => logAlg_atMost _) ?_
  rintro H ⟨proof, K₁, ct₁, K₂, ct₂, hrun, hK₁, hK₂, h₁, h₂, hne⟩
  simp only [PublicKey.verifyZero, Option.bind_eq_bind, Option.bind_eq_some_iff, Option.pure_def,
    Option.some.injEq, Prod.exists] at h₁ h₂
  obtain ⟨_, t₁', h₁, rfl⟩ := h₁
  obtain ⟨_, t₂', h₂, rfl⟩ := h₂
  obtain ⟨r₁, e₁⟩ := LogEqualityProof.verify_log h₁
  obtain ⟨r₂, e₂⟩ := LogEqualityProof.verify_log h₂
  rw [hrun]
  refine ⟨_, mem_logAlg e₁ H, _, mem_logAlg e₂ H,
    C13_log_eq_binding (B.withHash H) (hB.withHash H) proof K₁ K₂ _ _ _ _ _ _ hK₁ hK₂ h₁ h₂ (.inr ?_)⟩
  refine hne.imp_right fun h he => h ?_
  simp only [Prod.mk.injEq] at he
  exact Ciphertext.ext he.1 he.2

example := C95_zero_replay B101 B101_lawful
  (.ask [] fun a => .done (⟨a, 3⟩, (⟨[42], 42⟩, ⟨1, 42⟩), (⟨[42], 42⟩, ⟨2, 84⟩))) 1 fun _ => trivial

/-- C95: verifiable decryptions. A proof is bound to context, ciphertext, key and the decryption. -/
theorem C95_decryption_replay (B : Backend F E) (hB : B.Lawful)
    (adv : OracleAlg (List Entry) F (LogEqualityProof F ×
      (VerifiableDecryption E × Ciphertext E × PublicKey E × Transcript) ×
      (VerifiableDecryption E × Ciphertext E × PublicKey E × Transcript))) (q : ℕ) (hq : adv.AtMost q) :
    ProbLe (fun H => ∃ proof d₁ c₁ k₁ t₁ d₂ c₂ k₂ t₂ r₁ r₂ t₁' t₂',
        adv.run H = (proof, (d₁, c₁, k₁, t₁), (d₂, c₂, k₂, t₂)) ∧
        (CandidateDecryption.ofVerifiable d₁).verify (B.withHash H) c₁ k₁ proof t₁ = some (.ok r₁, t₁') ∧
        (CandidateDecryption.ofVerifiable d₂).verify (B.withHash H) c₂ k₂ proof t₂ = some (.ok r₂, t₂') ∧
        (t₁ ≠ t₂ ∨ c₁.random ≠ c₂.random ∨ k₁.element ≠ k₂.element ∨ d₁ ≠ d₂))
      (collisionBound (Fintype.card F) (q + 2)) := by
  let pt : LogEqualityProof F → VerifiableDecryption E × Ciphertext E × PublicKey E × Transcript →
      OracleAlg (List Entry) F Unit := fun proof s =>
    logAlg ((CandidateDecryption.ofVerifiable s.1).verify B s.2.1 s.2.2.1 proof s.2.2.2)
  have hpt : ∀ {H : List Entry → F} {proof : LogEqualityProof F} {d r c k t t'},
      (CandidateDecryption.ofVerifiable d).verify (B.withHash H) c k proof t = some (.ok r, t') →
      ∃ r', (CandidateDecryption.ofVerifiable d).verify B c k proof t = some (r', t') := by
    intro H proof d r c k t t' h
    simp only [CandidateDecryption.verify, CandidateDecryption.ofVerifiable, PublicKey.fromElement,
      Option.bind_eq_bind, Option.bind_eq_some_iff, Option.pure_def,
      Option.some.injEq, Prod.mk.injEq, Prod.exists] at h ⊢
    obtain ⟨lb, ⟨b, hb, rfl⟩, res, t1, hv, hres, rfl⟩ := h
    obtain ⟨r', hr'⟩ := LogEqualityProof.verify_log hv
    exact ⟨_, _, ⟨b, hb, rfl⟩, _, _, hr', rfl, rfl⟩
  refine probLe_replay (m₁ := 1) (m₂ := 1) hq (fun o => pt o.1 o.2.1) (fun o => pt o.1 o.2.2)
    (fun _ => logAlg_atMost _) (fun _ => logAlg_atMost _) ?_
  rintro H ⟨proof, d₁, c₁, k₁, t₁, d₂, c₂, k₂, t₂, r₁, r₂, t₁', t₂', hrun, h₁, h₂, hne⟩
  obtain ⟨_, e₁⟩ := hpt h₁
  obtain ⟨_, e₂⟩ := hpt h₂
  rw [hrun]
  exact ⟨_, mem_logAlg e₁ H, _, mem_logAlg e₂ H, C13_decryption_binding (B.withHash H) (hB.withHash H) proof
    d₁ d₂ r₁ r₂ c₁ c₂ k₁ k₂ t₁ t₂ _ _ h₁ h₂ hne⟩

example := C95_decryption_replay B101 B101_lawful
  (.ask [] fun a => .done (⟨a, 3⟩, (⟨25⟩, ⟨3, 30⟩, ⟨[42], 42⟩, Transcript.new "x"),
    (⟨24⟩, ⟨3, 30⟩, ⟨[42], 42⟩, Transcript.new "x"))) 1 fun _ => trivial

/-- C95: decryption shares. A proof is bound to the key set, the index of the participant, the ciphertext and the share.
In particular a participant cannot present the share of another one as their own. -/
theorem C95_share_replay (B : Backend F E) (hB : B.Lawful)
    (adv : OracleAlg (List Entry) F (LogEqualityProof F ×
      (PublicKeySet E × CandidateDecryption E × Ciphertext E × ℕ) ×
      (PublicKeySet E × CandidateDecryption E × Ciphertext E × ℕ))) (q : ℕ) (hq : adv.AtMost q) :
    ProbLe (fun H => ∃ proof ks₁ cand₁ ct₁ i₁ ks₂ cand₂ ct₂ i₂ d₁ d₂,
        adv.run H = (proof, (ks₁, cand₁, ct₁, i₁), (ks₂, cand₂, ct₂, i₂)) ∧
        (i₁ < 2 ^ 64 ∧ ks₁.params.shares < 2 ^ 64 ∧ ks₁.params.threshold < 2 ^ 64) ∧
        (i₂ < 2 ^ 64 ∧ ks₂.params.shares < 2 ^ 64 ∧ ks₂.params.threshold < 2 ^ 64) ∧
        ks₁.verifyShare (B.withHash H) cand₁ ct₁ i₁ proof = some (.ok d₁) ∧
        ks₂.verifyShare (B.withHash H) cand₂ ct₂ i₂ proof = some (.ok d₂) ∧
        (i₁ ≠ i₂ ∨ ks₁.params ≠ ks₂.params ∨ ks₁.sharedKey.bytes ≠ ks₂.sharedKey.bytes ∨
          (ks₁.participantKeys[i₁]?).map (·.element) ≠ (ks₂.participantKeys[i₂]?).map (·.element) ∨
          ct₁.random ≠ ct₂.random ∨ d₁ ≠ d₂))
      (collisionBound (Fintype.card F) (q + 2)) := by
  let v : LogEqualityProof F → PublicKeySet E × CandidateDecryption E × Ciphertext E × ℕ →
      Option (Except VerificationError Unit × Transcript) := fun proof s =>
    (s.1.participantKeys[s.2.2.2]?).bind fun pk => (PublicKey.fromElement B s.2.2.1.random).bind fun base =>
      proof.verify B base (pk.element, s.2.1.inner.dhElement) (s.1.shareTranscript s.2.2.2)
  have hv : ∀ {H : List Entry → F} {proof : LogEqualityProof F} {ks : PublicKeySet E} {cand ct i d},
      ks.verifyShare (B.withHash H) cand ct i proof = some (.ok d) →
      ∃ (r : Except VerificationError Unit) (t' : Transcript), v proof (ks, cand, ct, i) = some (r, t') ∧
        ShareHashInput B ks i ct d.dhElement proof t'.log ∧ H t'.log = proof.challenge := by
    intro H proof ks cand ct i d h
    obtain ⟨pk, hpk⟩ : ∃ pk, ks.participantKeys[i]? = some pk := by
      simp only [PublicKeySet.verifyShare, Option.bind_eq_bind, Option.bind_eq_some_iff] at h
      exact ⟨_, h.choose_spec.1⟩
    obtain ⟨base, hbase, t', hver, hd⟩ := verifyShare_ok hpk h
    obtain ⟨r', hr'⟩ := LogEqualityProof.verify_log hver
    have hbase' : PublicKey.fromElement B ct.random = some base := hbase
    obtain ⟨q, hq, ht⟩ := shareHashInput_of_verify hpk (fromElement_isKey.mp hbase') hr'
    refine ⟨r', t', ?_, ht ▸ hq, ?_⟩
    · simp only [v, hpk, hbase', Option.bind_some, hd]
      exact hr'
    · obtain ⟨a, d, x, y, -, -, -, -, rfl, hc⟩ := LogEqualityProof.verify_eq_some.mp hver
      exact checkChallenge_ok.mp hc.symm
  refine probLe_replay (m₁ := 1) (m₂ := 1) hq (fun o => logAlg (v o.1 o.2.1)) (fun o => logAlg (v o.1 o.2.2)) (fun _ => logAlg_atMost _)
    (fun _ => logAlg_atMost _) ?_
  rintro H ⟨proof, ks₁, cand₁, ct₁, i₁, ks₂, cand₂, ct₂, i₂, d₁, d₂, hrun, ⟨a1, a2, a3⟩, ⟨b1, b2, b3⟩, h₁, h₂, hne⟩
  obtain ⟨r₁, t₁, e₁, s₁, c₁⟩ := hv h₁
  obtain ⟨r₂, t₂, e₂, s₂, c₂⟩ := hv h₂
  rw [hrun]
  refine ⟨_, mem_logAlg e₁ H, _, mem_logAlg e₂ H, fun he => ?_, c₁.trans c₂.symm⟩
  rw [he] at s₁
  obtain ⟨g1, g2, g3, g4, g5, g6⟩ := C44_share_hash_inj B hB _ _ _ _ _ _ _ _ _ _ _ a1 b1 a2 b2 a3 b3 s₁ s₂
  rcases hne with h | h | h | h | h | h
  exacts [h g1, h g2, h g3, h g4, h g5, h (VerifiableDecryption.ext g6)]

example := C95_share_replay B101 B101_lawful
  (.ask [] fun a => .done (⟨a, 1⟩, (⟨⟨1, 1⟩, ⟨[5], 5⟩, [⟨[5], 5⟩]⟩, .ofVerifiable ⟨4⟩, ⟨10, 20⟩, 0),
    (⟨⟨1, 1⟩, ⟨[5], 5⟩, [⟨[5], 5⟩]⟩, .ofVerifiable ⟨4⟩, ⟨11, 20⟩, 0))) 1 fun _ => trivial

/-- C95: proofs of possession. A proof is bound to the context and the list of keys. -/
theorem C95_pop_replay (B : Backend F E)
    (adv : OracleAlg (List Entry) F (ProofOfPossession F × (List (PublicKey E) × Transcript) ×
      (List (PublicKey E) × Transcript))) (q : ℕ) (hq : adv.AtMost q) :
    ProbLe (fun H => ∃ proof pks₁ t₁ pks₂ t₂ t₁' t₂', adv.run H = (proof, (pks₁, t₁), (pks₂, t₂)) ∧
        (∀ pk ∈ pks₁, WellFormedKey B pk) ∧ (∀ pk ∈ pks₂, WellFormedKey B pk) ∧
        proof.verify (B.withHash H) pks₁ t₁ = some (.ok (), t₁') ∧
        proof.verify (B.withHash H) pks₂ t₂ = some (.ok (), t₂') ∧
        (t₁ ≠ t₂ ∨ pks₁.map (·.element) ≠ pks₂.map (·.element)))
      (collisionBound (Fintype.card F) (q + 2)) := by
  refine probLe_replay (m₁ := 1) (m₂ := 1) hq (fun o => logAlg (o.1.verify B o.2.1.1 o.2.1.2))
    (fun o => logAlg (o.1.verify B o.2.2.1 o.2.2.2)) (fun _ => logAlg_atMost _) (fun _ => logAlg_atMost _) ?_
  rintro H ⟨proof, pks₁, t₁, pks₂, t₂, t₁', t₂', hrun, hK₁, hK₂, h₁, h₂, hne⟩
  obtain ⟨r₁, e₁⟩ := ProofOfPossession.verify_log h₁
  obtain ⟨r₂, e₂⟩ := ProofOfPossession.verify_log h₂
  rw [hrun]
  exact ⟨_, mem_logAlg e₁ H, _, mem_logAlg e₂ H,
    C13_pop_binding (B.withHash H) proof pks₁ pks₂ t₁ t₂ _ _ hK₁ hK₂ h₁ h₂ hne⟩

example := C95_pop_replay B101
  (.ask [] fun a => .done (⟨a, [1, 2]⟩, ([⟨[42], 42⟩, ⟨[7], 7⟩], Transcript.new "x"),
    ([⟨[42], 42⟩, ⟨[8], 8⟩], Transcript.new "x"))) 1 fun _ => trivial

/-- C95: commitment equivalence proofs. -/
theorem C95_commitment_replay (B : Backend F E) (hB : B.Lawful)
    (adv : OracleAlg (List Entry) F (CommitmentEquivalenceProof F × (Ciphertext E × PublicKey E × E × E × Transcript) ×
      (Ciphertext E × PublicKey E × E × E × Transcript))) (q : ℕ) (hq : adv.AtMost q) :
    ProbLe (fun H => ∃ proof ct₁ K₁ C₁ base₁ t₁ ct₂ K₂ C₂ base₂ t₂ t₁' t₂',
        adv.run H = (proof, (ct₁, K₁, C₁, base₁, t₁), (ct₂, K₂, C₂, base₂, t₂)) ∧
        WellFormedKey B K₁ ∧ WellFormedKey B K₂ ∧
        proof.verify (B.withHash H) ct₁ K₁ C₁ base₁ t₁ = some (.ok (), t₁') ∧
        proof.verify (B.withHash H) ct₂ K₂ C₂ base₂ t₂ = some (.ok (), t₂') ∧
        (t₁ ≠ t₂ ∨ K₁.element ≠ K₂.element ∨ ct₁ ≠ ct₂ ∨ C₁ ≠ C₂ ∨
          (base₁ ≠ base₂ ∧ proof.commitmentResponse ≠ 0)))
      (collisionBound (Fintype.card F) (q + 2)) := by
  let pt : CommitmentEquivalenceProof F → Ciphertext E × PublicKey E × E × E × Transcript →
      OracleAlg (List Entry) F Unit := fun proof s =>
    logAlg (proof.verify B s.1 s.2.1 s.2.2.1 s.2.2.2.1 s.2.2.2.2)
  refine probLe_replay (m₁ := 1) (m₂ := 1) hq (fun o => pt o.1 o.2.1) (fun o => pt o.1 o.2.2)
    (fun _ => logAlg_atMost _) (fun _ => logAlg_atMost _) ?_
  rintro H ⟨proof, ct₁, K₁, C₁, base₁, t₁, ct₂, K₂, C₂, base₂, t₂, t₁', t₂', hrun, hK₁, hK₂, h₁, h₂, hne⟩
  obtain ⟨r₁, e₁⟩ := CommitmentEquivalenceProof.verify_log h₁
  obtain ⟨r₂, e₂⟩ := CommitmentEquivalenceProof.verify_log h₂
  rw [hrun]
  exact ⟨_, mem_logAlg e₁ H, _, mem_logAlg e₂ H, C13_commitment_binding (B.withHash H) (hB.withHash H) proof
    ct₁ ct₂ K₁ K₂ C₁ C₂ base₁ base₂ t₁ t₂ _ _ hK₁ hK₂ h₁ h₂ hne⟩

example := C95_commitment_replay B101 B101_lawful
  (.ask [] fun a => .done (⟨a, 22, 37, 17⟩, (⟨3, 30⟩, ⟨[42], 42⟩, 31, 13, Transcript.new "x"),
    (⟨3, 31⟩, ⟨[42], 42⟩, 31, 13, Transcript.new "x"))) 1 fun _ => trivial

/-- C95: sum-of-squares proofs. -/
theorem C95_sum_sq_replay (B : Backend F E) (hB : B.Lawful)
    (adv : OracleAlg (List Entry) F (SumOfSquaresProof F ×
      (List (Ciphertext E) × Ciphertext E × PublicKey E × Transcript) ×
      (List (Ciphertext E) × Ciphertext E × PublicKey E × Transcript))) (q : ℕ) (hq : adv.AtMost q) :
    ProbLe (fun H => ∃ proof cts₁ z₁ K₁ t₁ cts₂ z₂ K₂ t₂ t₁' t₂',
        adv.run H = (proof, (cts₁, z₁, K₁, t₁), (cts₂, z₂, K₂, t₂)) ∧ WellFormedKey B K₁ ∧ WellFormedKey B K₂ ∧
        proof.verify (B.withHash H) cts₁ z₁ K₁ t₁ = some (.ok (), t₁') ∧
        proof.verify (B.withHash H) cts₂ z₂ K₂ t₂ = some (.ok (), t₂') ∧
        (t₁ ≠ t₂ ∨ K₁.element ≠ K₂.element ∨ cts₁ ≠ cts₂ ∨ z₁ ≠ z₂))
      (collisionBound (Fintype.card F) (q + 2)) := by
  let pt : SumOfSquaresProof F → List (Ciphertext E) × Ciphertext E × PublicKey E × Transcript →
      OracleAlg (List Entry) F Unit := fun proof s => logAlg (proof.verify B s.1 s.2.1 s.2.2.1 s.2.2.2)
  refine probLe_replay (m₁ := 1) (m₂ := 1) hq (fun o => pt o.1 o.2.1) (fun o => pt o.1 o.2.2)
    (fun _ => logAlg_atMost _) (fun _ => logAlg_atMost _) ?_
  rintro H ⟨proof, cts₁, z₁, K₁, t₁, cts₂, z₂, K₂, t₂, t₁', t₂', hrun, hK₁, hK₂, h₁, h₂, hne⟩
  obtain ⟨r₁, e₁⟩ := SumOfSquaresProof.verify_log h₁
  obtain ⟨r₂, e₂⟩ := SumOfSquaresProof.verify_log h₂
  rw [hrun]
  exact ⟨_, mem_logAlg e₁ H, _, mem_logAlg e₂ H, C13_sum_sq_binding (B.withHash H) (hB.withHash H) proof
    cts₁ cts₂ z₁ z₂ K₁ K₂ t₁ t₂ _ _ hK₁ hK₂ h₁ h₂ hne⟩

example := C95_sum_sq_replay B101 B101_lawful
  (.ask [] fun a => .done (⟨a, [3, 4], 5⟩, ([⟨1, 43⟩], ⟨1, 43⟩, ⟨[42], 42⟩, Transcript.new "x"),
    ([⟨1, 43⟩], ⟨1, 44⟩, ⟨[42], 42⟩, Transcript.new "x"))) 1 fun _ => trivial

/-- C95: ring proofs are bound to the context and the receiver. Verification needs up to `m` hash values. -/
theorem C95_ring_replay (B : Backend F E) (m : ℕ)
    (adv : OracleAlg (List Entry) F (RingProof F × (PublicKey E × List (List E) × List (Ciphertext E) × Transcript) ×
      (PublicKey E × List (List E) × List (Ciphertext E) × Transcript))) (q : ℕ) (hq : adv.AtMost q) :
    ProbLe (fun H => ∃ proof K₁ values₁ cts₁ t₁ K₂ values₂ cts₂ t₂ t₁' t₂',
        adv.run H = (proof, (K₁, values₁, cts₁, t₁), (K₂, values₂, cts₂, t₂)) ∧
        WellFormedKey B K₁ ∧ WellFormedKey B K₂ ∧ (∀ vs ∈ values₁, vs ≠ []) ∧ (∀ vs ∈ values₂, vs ≠ []) ∧
        ringHashes (values₁.map List.length) ≤ m ∧ ringHashes (values₂.map List.length) ≤ m ∧
        (values₁.zip cts₁).length = (values₂.zip cts₂).length ∧
        proof.verify (B.withHash H) K₁ values₁ cts₁ t₁ = some (.ok (), t₁') ∧
        proof.verify (B.withHash H) K₂ values₂ cts₂ t₂ = some (.ok (), t₂') ∧
        (t₁ ≠ t₂ ∨ K₁.element ≠ K₂.element))
      (collisionBound (Fintype.card F) (q + m + m)) := by
  let pt : RingProof F → PublicKey E × List (List E) × List (Ciphertext E) × Transcript →
      OracleAlg (List Entry) F Unit := fun proof s => ringLogAlg B m s.1 s.2.2.2.log s.2.1 s.2.2.1 proof
  refine probLe_replay hq (fun o => pt o.1 o.2.1) (fun o => pt o.1 o.2.2) (fun _ => ringLogAlg_atMost ..)
    (fun _ => ringLogAlg_atMost ..) ?_
  rintro H ⟨proof, K₁, values₁, cts₁, t₁, K₂, values₂, cts₂, t₂, t₁', t₂', hrun, hK₁, hK₂, hv₁, hv₂, hm₁, hm₂, hl,
    h₁, h₂, hne⟩
  rw [hrun]
  exact ⟨_, mem_ringLogAlg hv₁ hm₁ h₁, _, mem_ringLogAlg hv₂ hm₂ h₂,
    C13_ring_binding (B.withHash H) proof K₁ K₂ hK₁ hK₂ values₁ values₂ cts₁ cts₂ t₁ t₂ _ _ h₁ h₂ hl hne⟩

example := C95_ring_replay B101 2
  (.ask [] fun a => .done (⟨a, [3, 4]⟩, (⟨[42], 42⟩, [[0, 1]], [⟨1, 43⟩], Transcript.new "x"),
    (⟨[43], 43⟩, [[0, 1]], [⟨1, 43⟩], Transcript.new "x"))) 1 fun _ => trivial

/-- C95: range proofs are bound to the context, the receiver and the upper bound of the range. -/
theorem C95_range_replay (B : Backend F E) (n₁ n₂ : ℕ) (range₁ range₂ : PreparedRange E)
    (hr₁ : PreparedFor B n₁ range₁) (hr₂ : PreparedFor B n₂ range₂)
    (adv : OracleAlg (List Entry) F (RangeProof F E × (PublicKey E × Ciphertext E × Transcript) ×
      (PublicKey E × Ciphertext E × Transcript))) (q : ℕ) (hq : adv.AtMost q) :
    ProbLe (fun H => ∃ proof K₁ ct₁ t₁ K₂ ct₂ t₂ t₁' t₂', adv.run H = (proof, (K₁, ct₁, t₁), (K₂, ct₂, t₂)) ∧
        WellFormedKey B K₁ ∧ WellFormedKey B K₂ ∧
        proof.verify (B.withHash H) K₁ range₁ ct₁ t₁ = some (.ok (), t₁') ∧
        proof.verify (B.withHash H) K₂ range₂ ct₂ t₂ = some (.ok (), t₂') ∧
        (t₁ ≠ t₂ ∨ K₁.element ≠ K₂.element ∨ n₁ ≠ n₂))
      (collisionBound (Fintype.card F) (q + ringHashes (range₁.inner.rings.map (·.size)) +
        ringHashes (range₂.inner.rings.map (·.size)))) := by
  refine probLe_replay hq (fun o => rangeLogAlg B o.2.1.1 range₁ o.2.1.2.1 o.2.1.2.2 o.1)
    (fun o => rangeLogAlg B o.2.2.1 range₂ o.2.2.2.1 o.2.2.2.2 o.1) (fun _ => ringLogAlg_atMost ..)
    (fun _ => ringLogAlg_atMost ..) ?_
  rintro H ⟨proof, K₁, ct₁, t₁, K₂, ct₂, t₂, t₁', t₂', hrun, hK₁, hK₂, h₁, h₂, hne⟩
  rw [hrun]
  exact ⟨_, mem_rangeLogAlg hr₁ h₁, _, mem_rangeLogAlg hr₂ h₂, C13_range_binding (B.withHash H) proof K₁ K₂ hK₁ hK₂
    n₁ n₂ range₁ range₂ hr₁ hr₂ ct₁ ct₂ t₁ t₂ _ _ h₁ h₂ hne⟩

example := C95_range_replay B101 17 17 exampleRange exampleRange exampleRange_prepared exampleRange_prepared
  (.ask [] fun a => .done (⟨[⟨1, 2⟩], ⟨a, [3, 4]⟩⟩, (⟨[42], 42⟩, ⟨1, 43⟩, Transcript.new "x"),
    (⟨[43], 43⟩, ⟨1, 43⟩, Transcript.new "x"))) 1 fun _ => trivial

/-- C95: a ballot is accepted in two polls with different keys only if hash values collide. Polls with the same key and
number of options accept the same ballots, as nothing else is hashed. -/
theorem C95_choice_replay (B : Backend F E) (kind : ChoiceKind) (params₁ params₂ : ChoiceParams E kind)
    (hK₁ : WellFormedKey B params₁.receiver) (hK₂ : WellFormedKey B params₂.receiver)
    (hne : params₁.receiver.element ≠ params₂.receiver.element ∨ params₁.optionsCount ≠ params₂.optionsCount)
    (adv : OracleAlg (List Entry) F (EncryptedChoice F E kind)) (q : ℕ) (hq : adv.AtMost q) :
    ProbLe (fun H => ∃ cts₁ cts₂, (adv.run H).verify (B.withHash H) params₁ = some (.ok cts₁) ∧
        (adv.run H).verify (B.withHash H) params₂ = some (.ok cts₂))
      (collisionBound (Fintype.card F) (q + (params₁.optionsCount + 1) + (params₁.optionsCount + 1))) := by
  let pt : PublicKey E → EncryptedChoice F E kind → OracleAlg (List Entry) F Unit := fun K b =>
    ringLogAlg B (params₁.optionsCount + 1) K (Transcript.new "encrypted_choice_ranges").log
      (List.replicate b.choices.length [0, B.gen]) b.choices b.rangeProof
  refine probLe_replay hq (fun b => pt params₁.receiver b) (fun b => pt params₂.receiver b)
    (fun _ => ringLogAlg_atMost ..) (fun _ => ringLogAlg_atMost ..) ?_
  rintro H ⟨cts₁, cts₂, h₁, h₂⟩
  obtain ⟨-, hl₁, -, -, t₁, h₁⟩ := EncryptedChoice.verify_ok h₁
  obtain ⟨-, hl₂, -, -, t₂, h₂⟩ := EncryptedChoice.verify_ok h₂
  have hne := hne.resolve_right fun h => h (hl₁.symm.trans hl₂)
  have hv : ∀ vs ∈ List.replicate (adv.run H).choices.length [0, B.gen], vs ≠ [] := by
    intro vs hvs
    rw [List.eq_of_mem_replicate hvs]
    simp
  have hm : ringHashes ((List.replicate (adv.run H).choices.length [0, B.gen]).map List.length) ≤
      params₁.optionsCount + 1 := by
    simp [ringHashes, hl₁]
  exact ⟨_, mem_ringLogAlg hv hm h₁, _, mem_ringLogAlg hv hm h₂, C13_ring_binding (B.withHash H) _ _ _ hK₁ hK₂
    _ _ _ _ _ _ _ _ h₁ h₂ rfl (.inr hne)⟩

example := C95_choice_replay B101 .multi ⟨3, ⟨[42], 42⟩⟩ ⟨3, ⟨[43], 43⟩⟩ (by unfold WellFormedKey; decide)
  (by unfold WellFormedKey; decide) (.inl (by decide))
  (.ask [] fun a => .done ⟨[⟨1, 2⟩, ⟨3, 4⟩, ⟨5, 6⟩], ⟨a, [1, 2, 3, 4, 5, 6]⟩, ()⟩) 1 fun _ => trivial

/-- C95: a ballot of quadratic voting is accepted in two polls that differ in the key, the number of options, the credits
or the maximum number of votes only if hash values collide. -/
theorem C95_ballot_replay (B : Backend F E) (params₁ params₂ : QuadraticVotingParams E) (o₁ c₁ m₁ o₂ c₂ m₂ : ℕ)
    (hp₁ : VotingParamsFor B params₁ o₁ c₁ m₁) (hp₂ : VotingParamsFor B params₂ o₂ c₂ m₂)
    (hK₁ : WellFormedKey B params₁.receiver) (hK₂ : WellFormedKey B params₂.receiver) (ho : o₁ ≠ 0)
    (hne : params₁.receiver.element ≠ params₂.receiver.element ∨ (o₁, c₁, m₁) ≠ (o₂, c₂, m₂))
    (adv : OracleAlg (List Entry) F (QuadraticVotingBallot F E)) (q : ℕ) (hq : adv.AtMost q) :
    ProbLe (fun H => ∃ cts₁ cts₂, (adv.run H).verify (B.withHash H) params₁ = some (.ok cts₁) ∧
        (adv.run H).verify (B.withHash H) params₂ = some (.ok cts₂))
      (collisionBound (Fintype.card F) (q +
        (ringHashes (params₁.creditRange.inner.rings.map (·.size)) +
          ringHashes (params₁.voteCountRange.inner.rings.map (·.size))) +
        (ringHashes (params₂.creditRange.inner.rings.map (·.size)) +
          ringHashes (params₂.voteCountRange.inner.rings.map (·.size))))) := by
  let votePt : QuadraticVotingParams E → QuadraticVotingBallot F E → OracleAlg (List Entry) F Unit := fun params b =>
    match b.votes with
    | [] => .done ()
    | v :: _ => rangeLogAlg B params.receiver params.voteCountRange v.ciphertext
        (Transcript.new "quadratic_voting_variant") v.rangeProof
  let pt : QuadraticVotingParams E → QuadraticVotingBallot F E → OracleAlg (List Entry) F Unit := fun params b =>
    (rangeLogAlg B params.receiver params.creditRange b.credit.ciphertext
      (Transcript.new "quadratic_voting_credit_range") b.credit.rangeProof).bind fun _ => votePt params b
  have hat : ∀ params b, (pt params b).AtMost (ringHashes (params.creditRange.inner.rings.map (·.size)) +
      ringHashes (params.voteCountRange.inner.rings.map (·.size))) := by
    intro params b
    refine (ringLogAlg_atMost ..).bind fun _ => ?_
    simp only [votePt]
    split
    · exact OracleAlg.atMost_done _ _
    · exact ringLogAlg_atMost ..
  refine probLe_replay hq (pt params₁) (pt params₂) (hat _) (hat _) ?_
  rintro H ⟨cts₁, cts₂, h₁, h₂⟩
  obtain ⟨-, hl₁, hv₁, ⟨t₁, h₁⟩, -⟩ := QuadraticVotingBallot.verify_ok.mp h₁
  obtain ⟨-, hl₂, hv₂, ⟨t₂, h₂⟩, -⟩ := QuadraticVotingBallot.verify_ok.mp h₂
  rw [hp₁.options] at hl₁
  rw [hp₂.options] at hl₂
  by_cases hc : params₁.receiver.element ≠ params₂.receiver.element ∨ c₁ ≠ c₂
  · refine ⟨t₁.log, ?_, t₂.log, ?_, C13_range_binding (B.withHash H) _ _ _ hK₁ hK₂ _ _ _ _ hp₁.credits
      hp₂.credits _ _ _ _ _ _ h₁ h₂ (.inr (hc.imp_right fun h h' => h (by omega)))⟩
    · rw [OracleAlg.queries_bind, List.mem_append]
      exact .inl (mem_rangeLogAlg hp₁.credits h₁)
    · rw [OracleAlg.queries_bind, List.mem_append]
      exact .inl (mem_rangeLogAlg hp₂.credits h₂)
  · push Not at hc
    have hm : m₁ ≠ m₂ := by
      intro hm
      rcases hne with h | h
      · exact h hc.1
      · exact h (by rw [hc.2, hm, ← hl₁, ← hl₂])
    obtain ⟨v, vs, hvs⟩ : ∃ v vs, (adv.run H).votes = v :: vs := by
      cases hvs : (adv.run H).votes with
      | nil => rw [hvs] at hl₁; exact absurd hl₁.symm ho
      | cons v vs => exact ⟨v, vs, rfl⟩
    obtain ⟨s₁, g₁⟩ := hv₁ v (by simp [hvs])
    obtain ⟨s₂, g₂⟩ := hv₂ v (by simp [hvs])
    refine ⟨s₁.log, ?_, s₂.log, ?_, C13_range_binding (B.withHash H) _ _ _ hK₁ hK₂ _ _ _ _ hp₁.votes
      hp₂.votes _ _ _ _ _ _ g₁ g₂ (.inr (.inr (by omega)))⟩
    · rw [OracleAlg.queries_bind, List.mem_append]
      right
      simp only [votePt, hvs]
      exact mem_rangeLogAlg hp₁.votes g₁
    · rw [OracleAlg.queries_bind, List.mem_append]
      right
      simp only [votePt, hvs]
      exact mem_rangeLogAlg hp₂.votes g₂

example := C95_ballot_replay B101 exampleVoting { exampleVoting with receiver := ⟨[43], 43⟩ } 2 16 4 2 16 4
  exampleVoting_for.1 ⟨exampleVoting_for.1.options, exampleVoting_for.1.votes, exampleVoting_for.1.credits⟩
  (by rw [exampleVoting_for.2]; unfold WellFormedKey; decide) (by unfold WellFormedKey; decide) (by decide)
  (.inl (by rw [exampleVoting_for.2]; decide))
  (.ask [] fun a => .done ⟨[⟨⟨1, 2⟩, ⟨[⟨1, 2⟩], ⟨a, [1]⟩⟩⟩], ⟨⟨1, 2⟩, ⟨[⟨1, 2⟩], ⟨a, [1]⟩⟩⟩, ⟨a, [1, 2], 3⟩⟩) 1
  fun _ => trivial

end ElasticElgamal
