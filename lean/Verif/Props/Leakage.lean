import Verif.Lemmas.LeakageRings
import Verif.Props.Range
import Verif.Props.QuadraticVoting

/-!
# C87: running times do not depend on secrets

Two runs that differ in secrets and randomness only, and of which none panics, perform the same operations.
-/

set_option autoImplicit false
set_option linter.unusedSectionVars false

namespace ElasticElgamal

open Spec Toy Traced

variable {F E : Type} [Field F] [AddCommGroup E] [Module F E] (B : Backend F E)

/-- C87: functions with operations compute what the functions compute. -/
theorem C87_results [DecidableEq F] [DecidableEq E] :
    (∀ rng, (Keypair.generateTraced B rng).val = Keypair.generate B rng) ∧
    (∀ K v rng, (PublicKey.encryptTraced B K v rng).val = some (PublicKey.encrypt B K v rng)) ∧
    (∀ K v rng, (PublicKey.encryptElementTraced B K v rng).val = some (PublicKey.encryptElement B K v rng)) ∧
    (∀ K rng, (PublicKey.encryptZeroTraced B K rng).val = PublicKey.encryptZero B K rng) ∧
    (∀ K v rng, (PublicKey.encryptBoolTraced B K v rng).val = PublicKey.encryptBool B K v rng) ∧
    (∀ K range v rng, (PublicKey.encryptRangeTraced B K range v rng).val = PublicKey.encryptRange B K range v rng) ∧
    (∀ s c, (SecretKey.decryptToElementTraced s c : Traced F E E).val = some (SecretKey.decryptToElement s c)) ∧
    (∀ c keys t rng, (VerifiableDecryption.newTraced B c keys t rng).val = VerifiableDecryption.new B c keys t rng) ∧
    (∀ K s p t rng, (LogEqualityProof.newTraced B K s p t rng).val = LogEqualityProof.new B K s p t rng) ∧
    (∀ pf K p t, (LogEqualityProof.verifyTraced B pf K p t).val = LogEqualityProof.verify B pf K p t) ∧
    (∀ ks t rng, (ProofOfPossession.newTraced B ks t rng).val = ProofOfPossession.new B ks t rng) ∧
    (∀ c K b H t rng,
      (CommitmentEquivalenceProof.newTraced B c K b H t rng).val = CommitmentEquivalenceProof.new B c K b H t rng) ∧
    (∀ cs c K t rng, (SumOfSquaresProof.newTraced B cs c K t rng).val = SumOfSquaresProof.new B cs c K t rng) ∧
    (∀ K range c t rng,
      (RangeProof.fromCiphertextTraced B K range c t rng).val = RangeProof.fromCiphertext B K range c t rng) ∧
    (∀ b vs i, (RingProofBuilder.addValueTraced B b vs i).val = RingProofBuilder.addValue B b vs i) ∧
    (∀ params c rng, (EncryptedChoice.singleTraced B params c rng).val = EncryptedChoice.single B params c rng) ∧
    (∀ kind, ∀ params : ChoiceParams E kind, ∀ choices rng,
      (EncryptedChoice.newTraced B params choices rng).val = EncryptedChoice.new B params choices rng) ∧
    (∀ params votes rng,
      (QuadraticVotingBallot.newTraced B params votes rng).val = QuadraticVotingBallot.new B params votes rng) ∧
    (∀ params rng, (Dealer.newTraced B params rng).val = Dealer.new B params rng) ∧
    (∀ d i, (Dealer.secretShareForParticipantTraced d i : Traced F E _).val =
      Dealer.secretShareForParticipant d i) ∧
    (∀ ks i s, (ActiveParticipant.newTraced B ks i s).val = ActiveParticipant.new B ks i s) ∧
    (∀ p rng, (ActiveParticipant.proofOfPossessionTraced B p rng).val = ActiveParticipant.proofOfPossession B p rng) ∧
    (∀ p c rng, (ActiveParticipant.decryptShareTraced B p c rng).val = ActiveParticipant.decryptShare B p c rng) :=
  ⟨val_keypair B, val_encrypt B, val_encryptElement B, val_encryptZero B, val_encryptBool B, val_encryptRange B,
    val_decryptToElement, val_verifiable B, val_logEq B, val_logEqVerify B, val_pop B, val_commitment B, val_sumSq B,
    val_fromCiphertext B, val_addValue B, val_single B, fun _ => val_choice B, val_ballot B, val_dealer B,
    val_secretShare, val_participant B, val_participantPop B, val_decryptShare B⟩

-- a run with its operations
example : (SecretKey.decryptToElementTraced (7 : ZMod 101) ⟨3, 26⟩ : Traced (ZMod 101) (ZMod 101) _) =
    ⟨some 5, [.mulElem, .subElem]⟩ := rfl

/-- C87: key generation takes the same operations whatever the key. -/
theorem C87_keys {rng rng' : B.Rng} {r r' : Keypair F E × B.Rng} (h : Keypair.generate B rng = some r)
    (h' : Keypair.generate B rng' = some r') :
    (Keypair.generateTraced B rng).ops = (Keypair.generateTraced B rng').ops := by
  obtain ⟨tr, ht⟩ := does_keypair B
  exact (ht rng).unique (ht rng') ((val_keypair B rng).trans h) ((val_keypair B rng').trans h')

example : (Keypair.generateTraced B101 (3 : ℕ)).ops = [.genScalar, .mulGen, .encode] ∧
    ∃ r r', Keypair.generate B101 (3 : ℕ) = some r ∧ Keypair.generate B101 (4 : ℕ) = some r' ∧ r.1.secret ≠ r'.1.secret :=
  ⟨rfl, _, _, rfl, rfl, by decide⟩

/-- C87: encryption takes the same operations whatever the value and the randomness. -/
theorem C87_encryption (K K' : PublicKey E) (v v' : F) (e e' : E) (rng rng' : B.Rng) :
    (K.encryptTraced B v rng).ops = (K'.encryptTraced B v' rng').ops ∧
    (K.encryptElementTraced B e rng).ops = (K'.encryptElementTraced B e' rng').ops ∧
    (CiphertextWithValue.newTraced B v K rng).ops = (CiphertextWithValue.newTraced B v' K' rng').ops := by
  obtain ⟨t1, h1⟩ := does_encrypt B
  obtain ⟨t2, h2⟩ := does_encryptElement B
  obtain ⟨t3, h3⟩ := does_withValue B
  exact ⟨(h1 _ _ _).unique (h1 _ _ _) (val_encrypt B _ _ _) (val_encrypt B _ _ _),
    (h2 _ _ _).unique (h2 _ _ _) (val_encryptElement B _ _ _) (val_encryptElement B _ _ _),
    (h3 _ _ _).unique (h3 _ _ _) (val_withValue B _ _ _) (val_withValue B _ _ _)⟩

example : ((⟨[7], 7⟩ : PublicKey (ZMod 101)).encryptTraced B101 0 (3 : ℕ)).ops =
    [.mulGen, .genScalar, .mulGen, .mulElem, .addElem] := rfl

/-- C87: encryption of zero with a proof. -/
theorem C87_encrypt_zero (K : PublicKey E) {rng rng' : B.Rng} {r r' : (Ciphertext E × LogEqualityProof F) × B.Rng}
    (h : K.encryptZero B rng = some r) (h' : K.encryptZero B rng' = some r') :
    (K.encryptZeroTraced B rng).ops = (K.encryptZeroTraced B rng').ops := by
  obtain ⟨tr, ht⟩ := does_encryptZero B K
  exact (ht rng).unique (ht rng') ((val_encryptZero B K rng).trans h) ((val_encryptZero B K rng').trans h')

example : ∃ r r', (⟨[7], 7⟩ : PublicKey (ZMod 101)).encryptZero B101 (3 : ℕ) = some r ∧
    (⟨[7], 7⟩ : PublicKey (ZMod 101)).encryptZero B101 (4 : ℕ) = some r' ∧ r.1.1 ≠ r'.1.1 :=
  ⟨_, _, rfl, rfl, by decide⟩

/-- C87: decryption takes the same operations whatever the key. -/
theorem C87_decryption (s s' : SecretKey F) (c c' : Ciphertext E) :
    (s.decryptToElementTraced c).ops = (s'.decryptToElementTraced c').ops := by
  obtain ⟨tr, ht⟩ := does_decryptToElement (F := F) (E := E)
  exact (ht _ _).unique (ht _ _) (val_decryptToElement s c) (val_decryptToElement s' c')

/-- C87: decryption with a proof. -/
theorem C87_verifiable_decryption (c : Ciphertext E) {keys keys' : Keypair F E} {t t' : Transcript} {rng rng' : B.Rng}
    {r r' : (VerifiableDecryption E × LogEqualityProof F) × Transcript × B.Rng}
    (h : VerifiableDecryption.new B c keys t rng = some r)
    (h' : VerifiableDecryption.new B c keys' t' rng' = some r') :
    (VerifiableDecryption.newTraced B c keys t rng).ops = (VerifiableDecryption.newTraced B c keys' t' rng').ops := by
  obtain ⟨tr, ht⟩ := does_verifiable B c
  exact (ht _ _ _).unique (ht _ _ _) ((val_verifiable B _ _ _ _).trans h) ((val_verifiable B _ _ _ _).trans h')

example : ∃ r r', VerifiableDecryption.new B101 ⟨3, 26⟩ ⟨7, ⟨[7], 7⟩⟩ (Transcript.new "toy") (3 : ℕ) = some r ∧
    VerifiableDecryption.new B101 ⟨3, 26⟩ ⟨8, ⟨[8], 8⟩⟩ (Transcript.new "toy") (9 : ℕ) = some r' ∧
    r.1.1.dhElement ≠ r'.1.1.dhElement := ⟨_, _, rfl, rfl, by decide⟩

/-- C87 (`src/proofs/log_equality.rs:59`): proof generation is constant-time. -/
theorem C87_log_equality (K : PublicKey E) {s s' : SecretKey F} {p p' : E × E} {t t' : Transcript} {rng rng' : B.Rng}
    {r r' : LogEqualityProof F × Transcript × B.Rng} (h : LogEqualityProof.new B K s p t rng = some r)
    (h' : LogEqualityProof.new B K s' p' t' rng' = some r') :
    (LogEqualityProof.newTraced B K s p t rng).ops = (LogEqualityProof.newTraced B K s' p' t' rng').ops := by
  obtain ⟨tr, ht⟩ := does_logEq B K.bytes.length
  exact (ht K rfl _ _ _ _).unique (ht K rfl _ _ _ _) ((val_logEq B _ _ _ _ _).trans h)
    ((val_logEq B _ _ _ _ _).trans h')

-- a run and another one with a secret of zero
example : ∃ r r', LogEqualityProof.new B101 ⟨[7], 7⟩ 5 (5, 35) (Transcript.new "toy") (3 : ℕ) = some r ∧
    LogEqualityProof.new B101 ⟨[7], 7⟩ 0 (0, 0) (Transcript.new "toy") (8 : ℕ) = some r' ∧ r.1 ≠ r'.1 :=
  ⟨_, _, rfl, rfl, by decide⟩

/-- C87 (`src/proofs/log_equality.rs:59`): verification is not constant-time. The operations reveal the proof and the
elements it is about; all of these are public. -/
theorem C87_verification_reveals [DecidableEq F] {K K' : PublicKey E} {pf pf' : LogEqualityProof F} {p p' : E × E}
    {t t' : Transcript} (h : (pf.verifyTraced B K p t).ops = (pf'.verifyTraced B K' p' t').ops) :
    pf = pf' ∧ p = p' ∧ K.element = K'.element := by
  have key : ∀ (pf : LogEqualityProof F) (K : PublicKey E) (p : E × E) (t : Transcript),
      (pf.verifyTraced B K p t).ops.take 4 =
        [.negScalar, .vartime [-pf.challenge, pf.response] [p.1, B.gen], .negScalar,
          .vartime [-pf.challenge, pf.response] [p.2, K.element]] := by
    intro pf K p t
    unfold LogEqualityProof.verifyTraced
    simp only [Bind.bind, Traced.bind, negScalarTraced, Backend.vartimeDoubleMulGenTraced,
      Backend.vartimeMultiMulTraced, op, List.cons_append, List.nil_append]
    rfl
  have h2 := congrArg (List.take 4) h
  rw [key, key] at h2
  simp only [List.cons.injEq, Op.vartime.injEq, neg_inj, and_true, true_and] at h2
  obtain ⟨⟨⟨hc, hs⟩, hp1⟩, -, hp2, hK⟩ := h2
  refine ⟨?_, Prod.ext hp1 hp2, hK⟩
  cases pf; cases pf'; simp_all

-- operations for the same keys and elements with another proof
example : (LogEqualityProof.verifyTraced B101 ⟨3, 4⟩ ⟨[7], 7⟩ (5, 35) (Transcript.new "toy")).ops ≠
    (LogEqualityProof.verifyTraced B101 ⟨3, 5⟩ ⟨[7], 7⟩ (5, 35) (Transcript.new "toy")).ops := fun h => by
  have := (C87_verification_reveals B101 h).1
  revert this; decide

/-- C87 (`src/proofs/possession.rs:28`): proof generation is constant-time. -/
theorem C87_possession {keypairs keypairs' : List (Keypair F E)}
    (hk : keypairs.map (·.publicKey.bytes.length) = keypairs'.map (·.publicKey.bytes.length)) {t t' : Transcript}
    {rng rng' : B.Rng} {r r' : ProofOfPossession F × Transcript × B.Rng}
    (h : ProofOfPossession.new B keypairs t rng = some r) (h' : ProofOfPossession.new B keypairs' t' rng' = some r') :
    (ProofOfPossession.newTraced B keypairs t rng).ops = (ProofOfPossession.newTraced B keypairs' t' rng').ops := by
  obtain ⟨tr, ht⟩ := does_popNew B (keypairs.map (·.publicKey.bytes.length))
  exact (ht _ rfl _ _).unique (ht _ hk.symm _ _) ((val_pop B _ _ _).trans h) ((val_pop B _ _ _).trans h')

example : ∃ r r', ProofOfPossession.new B101 [⟨7, ⟨[7], 7⟩⟩, ⟨0, ⟨[0], 0⟩⟩] (Transcript.new "toy") (3 : ℕ) = some r ∧
    ProofOfPossession.new B101 [⟨8, ⟨[8], 8⟩⟩, ⟨9, ⟨[9], 9⟩⟩] (Transcript.new "toy") (5 : ℕ) = some r' ∧ r.1 ≠ r'.1 :=
  ⟨_, _, rfl, rfl, by decide⟩

/-- C87: proofs about commitments. -/
theorem C87_commitment (K : PublicKey E) {c c' : CiphertextWithValue F E} {b b' : SecretKey F} {H H' : E}
    {t t' : Transcript} {rng rng' : B.Rng} {r r' : (CommitmentEquivalenceProof F × E) × Transcript × B.Rng}
    (h : CommitmentEquivalenceProof.new B c K b H t rng = some r)
    (h' : CommitmentEquivalenceProof.new B c' K b' H' t' rng' = some r') :
    (CommitmentEquivalenceProof.newTraced B c K b H t rng).ops =
      (CommitmentEquivalenceProof.newTraced B c' K b' H' t' rng').ops := by
  obtain ⟨tr, ht⟩ := does_commitment B K
  exact (ht _ _ _ _ _).unique (ht _ _ _ _ _) ((val_commitment B _ _ _ _ _ _).trans h)
    ((val_commitment B _ _ _ _ _ _).trans h')

example : ∃ r r', CommitmentEquivalenceProof.new B101 ⟨⟨⟨1, 9⟩, 1⟩, 2⟩ ⟨[7], 7⟩ 5 11 (Transcript.new "toy") (3 : ℕ) =
      some r ∧
    CommitmentEquivalenceProof.new B101 ⟨⟨⟨2, 14⟩, 2⟩, 0⟩ ⟨[7], 7⟩ 0 11 (Transcript.new "toy") (3 : ℕ) = some r' ∧
    r.1.2 ≠ r'.1.2 := ⟨_, _, rfl, rfl, by decide⟩

/-- C87: proofs about sums of squares. -/
theorem C87_sum_of_squares (K : PublicKey E) {cs cs' : List (CiphertextWithValue F E)} (hl : cs.length = cs'.length)
    {c c' : CiphertextWithValue F E} {t t' : Transcript} {rng rng' : B.Rng}
    {r r' : SumOfSquaresProof F × Transcript × B.Rng} (h : SumOfSquaresProof.new B cs c K t rng = some r)
    (h' : SumOfSquaresProof.new B cs' c' K t' rng' = some r') :
    (SumOfSquaresProof.newTraced B cs c K t rng).ops = (SumOfSquaresProof.newTraced B cs' c' K t' rng').ops := by
  obtain ⟨tr, ht⟩ := does_sumOfSquares B cs.length K
  exact (ht _ rfl _ _ _).unique (ht _ hl.symm _ _ _) ((val_sumSq B _ _ _ _ _).trans h)
    ((val_sumSq B _ _ _ _ _).trans h')

example : ∃ r r',
    SumOfSquaresProof.new B101 [⟨⟨⟨1, 9⟩, 1⟩, 2⟩, ⟨⟨⟨3, 24⟩, 3⟩, 3⟩] ⟨⟨⟨1, 20⟩, 1⟩, 13⟩ ⟨[7], 7⟩
      (Transcript.new "toy") (3 : ℕ) = some r ∧
    SumOfSquaresProof.new B101 [⟨⟨⟨1, 7⟩, 1⟩, 0⟩, ⟨⟨⟨3, 21⟩, 3⟩, 0⟩] ⟨⟨⟨1, 7⟩, 1⟩, 0⟩ ⟨[7], 7⟩
      (Transcript.new "toy") (3 : ℕ) = some r' ∧ r.1 ≠ r'.1 := ⟨_, _, rfl, rfl, by decide⟩

/-- C87: dealing and shares. The number of coefficients is the threshold, which is public. -/
theorem C87_dealer (hB : B.Lawful) (params : Params) {rng rng' : B.Rng} {r r' : Dealer F E × B.Rng}
    (h : Dealer.new B params rng = some r) (h' : Dealer.new B params rng' = some r') :
    (Dealer.newTraced B params rng).ops = (Dealer.newTraced B params rng').ops ∧
    ∀ i < params.shares, ∀ i' < params.shares,
      (r.1.secretShareForParticipantTraced i).ops = (r'.1.secretShareForParticipantTraced i').ops := by
  obtain ⟨t1, h1⟩ := does_dealer B hB params
  refine ⟨(h1 _).unique (h1 _) ((val_dealer B _ _).trans h) ((val_dealer B _ _).trans h'), ?_⟩
  obtain ⟨t2, h2⟩ := does_secretShare (F := F) (E := E) params.threshold
  have key : ∀ {rng : B.Rng} {r : Dealer F E × B.Rng}, Dealer.new B params rng = some r →
      r.1.polynomial.length = params.threshold ∧ r.1.params = params := by
    intro rng r h
    rw [← val_dealer] at h
    unfold Dealer.newTraced at h
    simp only [val_bind] at h
    obtain ⟨⟨l, rng1⟩, hl, h⟩ := Option.bind_eq_some_iff.1 h
    obtain ⟨_, _, h⟩ := Option.bind_eq_some_iff.1 h
    obtain ⟨_, _, h⟩ := Option.bind_eq_some_iff.1 h
    obtain ⟨_, _, h⟩ := Option.bind_eq_some_iff.1 h
    obtain ⟨_, _, h⟩ := Option.bind_eq_some_iff.1 h
    cases h
    have := congrArg List.length (keys_generateKeypairs B hB hl)
    exact ⟨by simpa using this, rfl⟩
  intro i hi i' hi'
  obtain ⟨e1, e2⟩ := key h
  obtain ⟨e1', e2'⟩ := key h'
  have hv : ∀ {d : Dealer F E} {i : ℕ}, i < d.params.shares →
      ∃ s, (d.secretShareForParticipantTraced i).val = some s := by
    intro d i hi
    rw [val_secretShare]
    unfold Dealer.secretShareForParticipant
    simp [guard, hi]
  obtain ⟨s, hs⟩ := hv (d := r.1) (i := i) (by rw [e2]; exact hi)
  obtain ⟨s', hs'⟩ := hv (d := r'.1) (i := i') (by rw [e2']; exact hi')
  exact (h2 _ e1 i).unique (h2 _ e1' i') hs hs'

example : ∃ r r', Dealer.new B101 ⟨3, 2⟩ (3 : ℕ) = some r ∧ Dealer.new B101 ⟨3, 2⟩ (7 : ℕ) = some r' ∧
    r.1.polynomial ≠ r'.1.polynomial ∧ (r.1.secretShareForParticipantTraced 1).ops =
      [.mulScalar, .addScalar, .mulScalar, .addScalar] := ⟨_, _, rfl, rfl, by decide, rfl⟩

/-- C87: participants' proofs and shares of decryptions. -/
theorem C87_participant (ks : PublicKeySet E) (i : ℕ) (s s' : SecretKey F) (c : Ciphertext E) (rng rng' : B.Rng) :
    (∀ r r', ActiveParticipant.proofOfPossession B ⟨ks, i, s⟩ rng = some r →
      ActiveParticipant.proofOfPossession B ⟨ks, i, s'⟩ rng' = some r' →
      (ActiveParticipant.proofOfPossessionTraced B ⟨ks, i, s⟩ rng).ops =
        (ActiveParticipant.proofOfPossessionTraced B ⟨ks, i, s'⟩ rng').ops) ∧
    (∀ r r', ActiveParticipant.decryptShare B ⟨ks, i, s⟩ c rng = some r →
      ActiveParticipant.decryptShare B ⟨ks, i, s'⟩ c rng' = some r' →
      (ActiveParticipant.decryptShareTraced B ⟨ks, i, s⟩ c rng).ops =
        (ActiveParticipant.decryptShareTraced B ⟨ks, i, s'⟩ c rng').ops) := by
  obtain ⟨t1, h1⟩ := does_pop B ks i
  obtain ⟨t2, h2⟩ := does_decryptShare B ks i c
  exact ⟨fun r r' h h' => (h1 _ _).unique (h1 _ _) ((val_participantPop B _ _).trans h)
      ((val_participantPop B _ _).trans h'),
    fun r r' h h' => (h2 _ _).unique (h2 _ _) ((val_decryptShare B _ _ _).trans h)
      ((val_decryptShare B _ _ _).trans h')⟩

example : ∃ r r', ActiveParticipant.decryptShare B101 ⟨⟨⟨2, 1⟩, ⟨[7], 7⟩, [⟨[7], 7⟩, ⟨[7], 7⟩]⟩, 1, 7⟩ ⟨3, 26⟩ (3 : ℕ) =
      some r ∧
    ActiveParticipant.decryptShare B101 ⟨⟨⟨2, 1⟩, ⟨[7], 7⟩, [⟨[7], 7⟩, ⟨[7], 7⟩]⟩, 1, 0⟩ ⟨3, 26⟩ (9 : ℕ) = some r' ∧
    r.1.1.dhElement ≠ r'.1.1.dhElement := ⟨_, _, rfl, rfl, by decide⟩

/-- C87: a participant's check of its share reveals the outcome only. -/
theorem C87_check_share [DecidableEq E] (ks : PublicKeySet E) (i : ℕ) {s s' : SecretKey F}
    {r r' : Except SharingError (ActiveParticipant F E)}
    (h : ActiveParticipant.new B ks i s = some r) (h' : ActiveParticipant.new B ks i s' = some r')
    (hr : r.isOk = r'.isOk) :
    (ActiveParticipant.newTraced B ks i s).ops = (ActiveParticipant.newTraced B ks i s').ops := by
  rw [← val_participant] at h h'
  unfold ActiveParticipant.newTraced at h h' ⊢
  cases hK : ks.participantKeys[i]? with
  | none => rfl
  | some K =>
    rw [hK] at h h'
    simp only [Bind.bind, Traced.bind, ofOption, Backend.mulGenTraced, op] at h h' ⊢
    by_cases h1 : B.mulGen s = K.element <;> by_cases h2 : B.mulGen s' = K.element <;>
      simp [h1, h2, Pure.pure] at h h' ⊢ <;> subst h <;> subst h' <;> simp [Except.isOk, Except.toBool] at hr

example : (ActiveParticipant.newTraced B101 ⟨⟨2, 1⟩, ⟨[7], 7⟩, [⟨[7], 7⟩, ⟨[7], 7⟩]⟩ 1 8).ops =
    (ActiveParticipant.newTraced B101 ⟨⟨2, 1⟩, ⟨[7], 7⟩, [⟨[7], 7⟩, ⟨[7], 7⟩]⟩ 1 9).ops :=
  C87_check_share B101 _ _ (r := .error .InvalidSecret) (r' := .error .InvalidSecret) rfl rfl rfl

section Rings
variable [DecidableEq F] [DecidableEq E]

/-- C87: encryption of a boolean takes the same operations whatever the value, in some order. -/
theorem C87_encrypt_bool (K : PublicKey E) {v v' : Bool} {rng rng' : B.Rng}
    {r r' : (Ciphertext E × RingProof F) × B.Rng} (h : K.encryptBool B v rng = some r)
    (h' : K.encryptBool B v' rng' = some r') :
    (K.encryptBoolTraced B v rng).ops.Perm (K.encryptBoolTraced B v' rng').ops := by
  obtain ⟨m, hm⟩ := cost_encryptBool B K
  exact (hm _ _).perm (hm _ _) ((val_encryptBool B _ _ _).trans h) ((val_encryptBool B _ _ _).trans h')

example : ∃ r r', (⟨[7], 7⟩ : PublicKey (ZMod 101)).encryptBool B101 true (3 : ℕ) = some r ∧
    (⟨[7], 7⟩ : PublicKey (ZMod 101)).encryptBool B101 false (3 : ℕ) = some r' ∧ r.1.1 ≠ r'.1.1 :=
  ⟨_, _, rfl, rfl, by decide⟩

/-- C87 (`src/proofs/ring.rs:417-419`): the operations of one call `add_value` do depend on the position of the value:
each position further to the front takes 13 more operations, which `build` makes up for. -/
theorem C87_ring_order {b b' : RingProofBuilder B} {vs : List E} {i i' : ℕ}
    {r r' : ExtendedCiphertext F E × RingProofBuilder B} (h : b.addValue B vs i = some r)
    (h' : b'.addValue B vs i' = some r') :
    (b.addValueTraced B vs i).ops.length + 13 * i = (b'.addValueTraced B vs i').ops.length + 13 * i' := by
  obtain ⟨m, hm⟩ := cost_addValue B vs.length
  have key : ∀ {b : RingProofBuilder B} {i : ℕ} {r : ExtendedCiphertext F E × RingProofBuilder B},
      b.addValue B vs i = some r → (b.addValueTraced B vs i).ops.length + 13 * i = m.card := by
    intro b i r h
    rw [← val_addValue] at h
    have h1 := hm b vs rfl i r h
    obtain ⟨-, h2⟩ := owed_addValue B h
    simp only [h2] at h1
    have h3 := congrArg Multiset.card h1
    have h4 : (eqOps B : Multiset (Op F E)).card = 13 := rfl
    simp only [Multiset.card_add, Multiset.card_nsmul, Multiset.coe_card, h4] at h3
    omega
  rw [key h, key h']

-- a ring with two values: the position shows when only `add_value` is observed
example : ∃ r r', (RingProofBuilder.new B101 ⟨[7], 7⟩ [0, 0] (Transcript.new "toy") (3 : ℕ)).addValue B101 [0, 1] 0 =
      some r ∧
    (RingProofBuilder.new B101 ⟨[7], 7⟩ [0, 0] (Transcript.new "toy") (3 : ℕ)).addValue B101 [0, 1] 1 = some r' ∧
    ((RingProofBuilder.new B101 ⟨[7], 7⟩ [0, 0] (Transcript.new "toy") (3 : ℕ)).addValueTraced B101 [0, 1] 0).ops.length =
    ((RingProofBuilder.new B101 ⟨[7], 7⟩ [0, 0] (Transcript.new "toy") (3 : ℕ)).addValueTraced B101 [0, 1] 1).ops.length
      + 13 := ⟨_, _, rfl, rfl, rfl⟩

/-- C87 (`src/proofs/range.rs:203-204`): range proofs take the same operations whatever the value. -/
theorem C87_ranges (K : PublicKey E) (range : PreparedRange E) :
    (∀ v v' rng rng' r r', K.encryptRange B range v rng = some r → K.encryptRange B range v' rng' = some r' →
      (K.encryptRangeTraced B range v rng).ops.Perm (K.encryptRangeTraced B range v' rng').ops) ∧
    (∀ c c' t t' rng rng' r r', RangeProof.fromCiphertext B K range c t rng = some r →
      RangeProof.fromCiphertext B K range c' t' rng' = some r' →
      (RangeProof.fromCiphertextTraced B K range c t rng).ops.Perm
        (RangeProof.fromCiphertextTraced B K range c' t' rng').ops) := by
  obtain ⟨m, hm⟩ := cost_encryptRange B K range
  obtain ⟨m', hm'⟩ := cost_fromCiphertext B K range
  exact ⟨fun v v' rng rng' r r' h h' => (hm _ _).perm (hm _ _) ((val_encryptRange B _ _ _ _).trans h)
      ((val_encryptRange B _ _ _ _).trans h'),
    fun c c' t t' rng rng' r r' h h' => (hm' _ _ _).perm (hm' _ _ _) ((val_fromCiphertext B _ _ _ _ _).trans h)
      ((val_fromCiphertext B _ _ _ _ _).trans h')⟩

example : ∃ r r', (⟨[7], 7⟩ : PublicKey (ZMod 101)).encryptRange B101 exampleRange 13 (3 : ℕ) = some r ∧
    (⟨[7], 7⟩ : PublicKey (ZMod 101)).encryptRange B101 exampleRange 0 (3 : ℕ) = some r' ∧ r.1.1 ≠ r'.1.1 :=
  ⟨_, _, rfl, rfl, by decide⟩

/-- C87: ballots with choices take the same operations whatever is chosen. -/
theorem C87_choices (params : ChoiceParams E .single) {kind : ChoiceKind} (params' : ChoiceParams E kind) :
    (∀ c c' rng rng' r r', EncryptedChoice.single B params c rng = some r →
      EncryptedChoice.single B params c' rng' = some r' →
      (EncryptedChoice.singleTraced B params c rng).ops.Perm (EncryptedChoice.singleTraced B params c' rng').ops) ∧
    (∀ choices choices' rng rng' r r', EncryptedChoice.new B params' choices rng = some r →
      EncryptedChoice.new B params' choices' rng' = some r' →
      (EncryptedChoice.newTraced B params' choices rng).ops.Perm
        (EncryptedChoice.newTraced B params' choices' rng').ops) := by
  obtain ⟨m, hm⟩ := cost_single B params
  obtain ⟨m', hm'⟩ := cost_choice B params'
  exact ⟨fun c c' rng rng' r r' h h' => (hm _ _).perm (hm _ _) ((val_single B _ _ _).trans h)
      ((val_single B _ _ _).trans h'),
    fun c c' rng rng' r r' h h' => (hm' _ _).perm (hm' _ _) ((val_choice B _ _ _).trans h)
      ((val_choice B _ _ _).trans h')⟩

example : ∃ r r', EncryptedChoice.new B101 (kind := .multi) ⟨3, ⟨[7], 7⟩⟩ [true, false, true] (3 : ℕ) = some r ∧
    EncryptedChoice.new B101 (kind := .multi) ⟨3, ⟨[7], 7⟩⟩ [false, false, false] (3 : ℕ) = some r' ∧
    r.1.choices ≠ r'.1.choices := ⟨_, _, rfl, rfl, by decide⟩

/-- C87: ballots for quadratic voting take the same operations whatever the votes. -/
theorem C87_voting (params : QuadraticVotingParams E) {votes votes' : List ℕ} {rng rng' : B.Rng}
    {r r' : QuadraticVotingBallot F E × B.Rng} (h : QuadraticVotingBallot.new B params votes rng = some r)
    (h' : QuadraticVotingBallot.new B params votes' rng' = some r') :
    (QuadraticVotingBallot.newTraced B params votes rng).ops.Perm
      (QuadraticVotingBallot.newTraced B params votes' rng').ops := by
  obtain ⟨m, hm⟩ := cost_ballot B params
  exact (hm _ _).perm (hm _ _) ((val_ballot B _ _ _).trans h) ((val_ballot B _ _ _).trans h')

example : ∃ r r', QuadraticVotingBallot.new B101 ⟨exampleRange, exampleRange, 2, ⟨[7], 7⟩⟩ [2, 3] (3 : ℕ) = some r ∧
    QuadraticVotingBallot.new B101 ⟨exampleRange, exampleRange, 2, ⟨[7], 7⟩⟩ [0, 0] (3 : ℕ) = some r' ∧
    r.1.credit.ciphertext ≠ r'.1.credit.ciphertext := ⟨_, _, rfl, rfl, by decide⟩

end Rings

end ElasticElgamal
