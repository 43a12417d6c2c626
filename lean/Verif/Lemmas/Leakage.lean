import Verif.Model.Leakage.Rings

/-!
# Traced functions compute the same, and what they perform
-/

set_option autoImplicit false
set_option linter.unusedSectionVars false

namespace ElasticElgamal

open Traced

variable {F E : Type}

namespace Traced
variable {α β : Type}

theorem val_bind (x : Traced F E α) (f : α → Traced F E β) :
    (x >>= f).val = x.val >>= fun a => (f a).val := by
  show (Traced.bind x f).val = _
  unfold Traced.bind
  cases x.val <;> rfl

theorem val_pure (a : α) : (pure a : Traced F E α).val = some a := rfl
theorem val_op (o : Op F E) (a : α) : (op o a).val = some a := rfl
theorem val_ofOption (a : Option α) : (ofOption a : Traced F E α).val = a := rfl
theorem val_assert (p : Prop) [Decidable p] : (assert p : Traced F E Unit).val = guard p := by
  unfold assert guard; rfl

end Traced

theorem some_bind' {α β : Type} (a : α) (f : α → Option β) : (some a >>= f) = f a := rfl

section
variable [Field F] [AddCommGroup E] [Module F E] (B : Backend F E)

theorem val_appendElement (t : Transcript) (label : String) (e : E) :
    (B.appendElementTraced t label e).val = B.appendElement t label e := by
  unfold Backend.appendElementTraced
  rw [val_bind]; rfl

theorem val_debugAssert (ops : List (Op F E)) (p : Prop) [Decidable p] :
    (B.debugAssertTraced ops p).val = B.debugAssert p := rfl

theorem val_genScalar (rng : B.Rng) : (B.genScalarTraced rng : Traced F E _).val = some (B.genScalar rng) := rfl
theorem val_generate (rng : B.Rng) :
    (SecretKey.generateTraced B rng : Traced F E _).val = some (SecretKey.generate B rng) := rfl
theorem val_mulGen (k : F) : (B.mulGenTraced k).val = some (B.mulGen k) := rfl
theorem val_multiMul (ks : List F) (es : List E) :
    (Backend.multiMulTraced ks es).val = some (Backend.multiMul ks es) := rfl
theorem val_vmultiMul (ks : List F) (es : List E) :
    (Backend.vartimeMultiMulTraced ks es).val = some (Backend.multiMul ks es) := rfl
theorem val_vdouble (k : F) (e : E) (r : F) :
    (B.vartimeDoubleMulGenTraced k e r).val = some (B.doubleMulGen k e r) := rfl
theorem val_serElem (e : E) : (B.serElemTraced e : Traced F E _).val = B.serElem e := rfl
theorem val_challenge (t : Transcript) (label : String) :
    (B.challengeScalarTraced t label : Traced F E _).val = some (B.challengeScalar t label) := rfl
theorem val_mulElem (k : F) (e : E) : (mulElemTraced k e).val = some (k • e) := rfl
theorem val_addElem (a b : E) : (addElemTraced a b : Traced F E E).val = some (a + b) := rfl
theorem val_subElem (a b : E) : (subElemTraced a b : Traced F E E).val = some (a - b) := rfl
theorem val_addScalar (a b : F) : (addScalarTraced a b : Traced F E F).val = some (a + b) := rfl
theorem val_subScalar (a b : F) : (subScalarTraced a b : Traced F E F).val = some (a - b) := rfl
theorem val_mulScalar (a b : F) : (mulScalarTraced a b : Traced F E F).val = some (a * b) := rfl
theorem val_negScalar (a : F) : (negScalarTraced a : Traced F E F).val = some (-a) := rfl
theorem val_startProof (t : Transcript) (label : String) :
    (t.startProofTraced label : Traced F E _).val = some (t.startProof label) := rfl
theorem val_newTranscript (label : String) :
    (Transcript.newTraced label : Traced F E _).val = some (Transcript.new label) := rfl
theorem val_appendElementBytes (t : Transcript) (label : String) (b : Bytes) :
    (t.appendElementBytesTraced label b : Traced F E _).val = some (t.appendElementBytes label b) := rfl
theorem val_appendMessage (t : Transcript) (label : String) (b : Bytes) :
    (t.appendMessageTraced label b : Traced F E _).val = some (t.appendMessage label b) := rfl
theorem val_appendU64 (t : Transcript) (label : String) (x : Nat) :
    (t.appendU64Traced label x : Traced F E _).val = some (t.appendU64 label x) := rfl
theorem val_addU64 (d : Bool) (a b : Nat) : (addU64Traced d a b : Traced F E Nat).val = addU64 d a b := rfl
theorem val_subU64 (d : Bool) (a b : Nat) : (subU64Traced d a b : Traced F E Nat).val = subU64 d a b := rfl
theorem val_mulU64 (d : Bool) (a b : Nat) : (mulU64Traced d a b : Traced F E Nat).val = mulU64 d a b := rfl

local macro "vals" : tactic => `(tactic| simp only [val_bind, val_pure, val_op, val_ofOption, val_assert,
  val_appendElement, val_debugAssert, val_genScalar, val_generate, val_mulGen, val_multiMul, val_vmultiMul,
  val_vdouble, val_serElem, val_challenge, val_mulElem, val_addElem, val_subElem, val_addScalar, val_subScalar,
  val_mulScalar, val_negScalar, val_startProof, val_newTranscript, val_appendElementBytes, val_appendMessage,
  val_appendU64, val_addU64, val_subU64, val_mulU64, some_bind'])

theorem val_fromElement (e : E) : (PublicKey.fromElementTraced B e : Traced F E _).val = PublicKey.fromElement B e := by
  unfold PublicKey.fromElementTraced PublicKey.fromElement
  vals; rfl

theorem val_keypair (rng : B.Rng) : (Keypair.generateTraced B rng).val = Keypair.generate B rng := by
  unfold Keypair.generateTraced Keypair.generate PublicKey.ofSecret
  vals; simp only [val_fromElement]; rfl

theorem val_extNew (v : E) (K : PublicKey E) (rng : B.Rng) :
    (ExtendedCiphertext.newTraced B v K rng).val = some (ExtendedCiphertext.new B v K rng) := by
  unfold ExtendedCiphertext.newTraced
  vals; rfl

theorem val_extAdd (a b : ExtendedCiphertext F E) : (a.addTraced b).val = some (a.add b) := by
  unfold ExtendedCiphertext.addTraced
  vals; rfl

theorem val_extSub (a b : ExtendedCiphertext F E) : (a.subTraced b).val = some (a.sub b) := by
  unfold ExtendedCiphertext.subTraced
  vals; rfl

theorem val_withValue (v : F) (K : PublicKey E) (rng : B.Rng) :
    (CiphertextWithValue.newTraced B v K rng).val = some (CiphertextWithValue.new B v K rng) := by
  unfold CiphertextWithValue.newTraced
  vals; simp only [val_extNew]; rfl

theorem val_withValueU64 (v : Nat) (K : PublicKey E) (rng : B.Rng) :
    (CiphertextWithValue.newU64Traced B v K rng).val = some (CiphertextWithValue.newU64 B v K rng) := by
  unfold CiphertextWithValue.newU64Traced
  vals; simp only [val_extNew]; rfl

theorem val_encrypt (K : PublicKey E) (v : F) (rng : B.Rng) :
    (K.encryptTraced B v rng).val = some (K.encrypt B v rng) := by
  unfold PublicKey.encryptTraced
  vals; simp only [val_extNew]; rfl

theorem val_encryptElement (K : PublicKey E) (v : E) (rng : B.Rng) :
    (K.encryptElementTraced B v rng).val = some (K.encryptElement B v rng) := by
  unfold PublicKey.encryptElementTraced
  vals; simp only [val_extNew]; rfl

theorem val_decryptToElement (k : F) (c : Ciphertext E) :
    (SecretKey.decryptToElementTraced k c).val = some (SecretKey.decryptToElement k c) := by
  unfold SecretKey.decryptToElementTraced
  vals; rfl

theorem val_logEq (K : PublicKey E) (k : F) (p : E × E) (t : Transcript) (rng : B.Rng) :
    (LogEqualityProof.newTraced B K k p t rng).val = LogEqualityProof.new B K k p t rng := by
  unfold LogEqualityProof.newTraced LogEqualityProof.new
  vals; rfl

theorem val_logEqVerify [DecidableEq F] (pf : LogEqualityProof F) (K : PublicKey E) (p : E × E) (t : Transcript) :
    (pf.verifyTraced B K p t).val = pf.verify B K p t := by
  unfold LogEqualityProof.verifyTraced LogEqualityProof.verify
  vals; rfl

theorem val_encryptZero (K : PublicKey E) (rng : B.Rng) :
    (K.encryptZeroTraced B rng).val = K.encryptZero B rng := by
  unfold PublicKey.encryptZeroTraced PublicKey.encryptZero
  vals; simp only [val_logEq]; rfl

theorem val_verifiable (c : Ciphertext E) (k : Keypair F E) (t : Transcript) (rng : B.Rng) :
    (VerifiableDecryption.newTraced B c k t rng).val = VerifiableDecryption.new B c k t rng := by
  unfold VerifiableDecryption.newTraced VerifiableDecryption.new
  vals; simp only [val_logEq, val_fromElement]; rfl

theorem val_drawRandomScalars (n : Nat) (t : Transcript) (rng : B.Rng) :
    (ProofOfPossession.drawRandomScalarsTraced B n t rng).val = ProofOfPossession.drawRandomScalars B n t rng := by
  induction n generalizing t rng with
  | zero => rfl
  | succ n ih =>
    unfold ProofOfPossession.drawRandomScalarsTraced ProofOfPossession.drawRandomScalars
    vals; simp only [ih]; rfl

theorem val_appendKeys (t : Transcript) (ks : List (PublicKey E)) :
    (ProofOfPossession.appendKeysTraced t ks : Traced F E _).val = some (ProofOfPossession.appendKeys t ks) := by
  induction ks generalizing t with
  | nil => rfl
  | cons k ks ih =>
    unfold ProofOfPossession.appendKeysTraced
    vals; rw [ih]; rfl

theorem val_popResponses (c : F) (l : List (F × F)) :
    (ProofOfPossession.responsesTraced c l : Traced F E _).val =
      some (l.map fun (log, randomness) => SecretKey.add randomness (SecretKey.mul log c)) := by
  induction l with
  | nil => rfl
  | cons x l ih =>
    obtain ⟨a, b⟩ := x
    unfold ProofOfPossession.responsesTraced
    vals; rw [ih]; rfl

theorem val_fromKeys (ss : List F) (ks : List (PublicKey E)) (t : Transcript) (rng : B.Rng) :
    (ProofOfPossession.fromKeysTraced B ss ks t rng).val = ProofOfPossession.fromKeys B ss ks t rng := by
  unfold ProofOfPossession.fromKeysTraced ProofOfPossession.fromKeys
  vals; simp only [val_appendKeys, val_drawRandomScalars, val_popResponses, some_bind']; rfl

theorem val_pop (ks : List (Keypair F E)) (t : Transcript) (rng : B.Rng) :
    (ProofOfPossession.newTraced B ks t rng).val = ProofOfPossession.new B ks t rng :=
  val_fromKeys B _ _ t rng

theorem val_commitment (c : CiphertextWithValue F E) (K : PublicKey E) (b : F) (H : E) (t : Transcript)
    (rng : B.Rng) : (CommitmentEquivalenceProof.newTraced B c K b H t rng).val =
      CommitmentEquivalenceProof.new B c K b H t rng := by
  unfold CommitmentEquivalenceProof.newTraced CommitmentEquivalenceProof.new
  vals; rfl

theorem val_commitLoop (K : PublicKey E) (cs : List (CiphertextWithValue F E)) (s : F) (t : Transcript)
    (rng : B.Rng) : (SumOfSquaresProof.commitLoopTraced B K cs s t rng).val =
      SumOfSquaresProof.commitLoop B K cs s t rng := by
  induction cs generalizing s t rng with
  | nil => rfl
  | cons c cs ih =>
    unfold SumOfSquaresProof.commitLoopTraced SumOfSquaresProof.commitLoop
    vals; simp only [ih]; rfl

theorem val_sumSqResponses (c : F) (l : List (CiphertextWithValue F E × F × F)) :
    (SumOfSquaresProof.responsesTraced c l : Traced F E _).val =
      some (l.flatMap fun (ciphertext, randomScalar, valueScalar) =>
        [c * ciphertext.randomness + randomScalar, c * ciphertext.value + valueScalar]) := by
  induction l with
  | nil => rfl
  | cons x l ih =>
    obtain ⟨a, b, d⟩ := x
    unfold SumOfSquaresProof.responsesTraced
    vals; rw [ih]; rfl

theorem val_sumSq (cs : List (CiphertextWithValue F E)) (s : CiphertextWithValue F E) (K : PublicKey E)
    (t : Transcript) (rng : B.Rng) :
    (SumOfSquaresProof.newTraced B cs s K t rng).val = SumOfSquaresProof.new B cs s K t rng := by
  unfold SumOfSquaresProof.newTraced SumOfSquaresProof.new
  vals; simp only [val_commitLoop, val_sumSqResponses, some_bind']; rfl

theorem val_generateKeypairs (n : Nat) (rng : B.Rng) :
    (Dealer.generateKeypairsTraced B n rng).val = Dealer.generateKeypairs B n rng := by
  induction n generalizing rng with
  | zero => rfl
  | succ n ih =>
    unfold Dealer.generateKeypairsTraced Dealer.generateKeypairs
    vals; simp only [ih, val_keypair]; rfl

theorem val_dealer (p : Params) (rng : B.Rng) : (Dealer.newTraced B p rng).val = Dealer.new B p rng := by
  unfold Dealer.newTraced Dealer.new
  vals; simp only [val_generateKeypairs, val_pop]; rfl

theorem val_horner (x : F) (l : List (Keypair F E)) (v : F) :
    (Dealer.hornerTraced x l v).val = some (l.foldl
      (fun polyValue keypair => SecretKey.add (SecretKey.mul polyValue x) keypair.secret) v) := by
  induction l generalizing v with
  | nil => rfl
  | cons k l ih =>
    unfold Dealer.hornerTraced
    vals; rw [ih]; rfl

theorem val_secretShare (d : Dealer F E) (i : Nat) :
    (d.secretShareForParticipantTraced i).val = d.secretShareForParticipant i := by
  unfold Dealer.secretShareForParticipantTraced Dealer.secretShareForParticipant
  vals; simp only [val_horner]; rfl

theorem val_commit (ks : PublicKeySet E) (t : Transcript) :
    (ks.commitTraced t : Traced F E _).val = some (ks.commit t) := by
  unfold PublicKeySet.commitTraced
  vals; rfl

theorem val_participant [DecidableEq E] (ks : PublicKeySet E) (i : Nat) (s : F) :
    (ActiveParticipant.newTraced B ks i s).val = ActiveParticipant.new B ks i s := by
  unfold ActiveParticipant.newTraced ActiveParticipant.new
  vals
  congr 1; funext e
  by_cases h : B.mulGen s = e.element
  · simp only [h, decide_true, if_true]; rfl
  · simp only [h, decide_false, if_false]; rfl

theorem val_participantPop (p : ActiveParticipant F E) (rng : B.Rng) :
    (p.proofOfPossessionTraced B rng).val = p.proofOfPossession B rng := by
  unfold ActiveParticipant.proofOfPossessionTraced ActiveParticipant.proofOfPossession
  vals; simp only [val_commit, val_fromKeys, some_bind']; rfl

theorem val_decryptShare (p : ActiveParticipant F E) (c : Ciphertext E) (rng : B.Rng) :
    (p.decryptShareTraced B c rng).val = p.decryptShare B c rng := by
  unfold ActiveParticipant.decryptShareTraced ActiveParticipant.decryptShare
  vals; simp only [val_commit, val_logEq, val_fromElement, some_bind']; rfl

section Rings
variable [DecidableEq F] [DecidableEq E]

theorem val_newLoop (K : E) (c : Ciphertext E) (t : Transcript) (i : Nat) (vs : List E) (cm : E × E)
    (rs : List F) (rng : B.Rng) :
    (Ring.newLoopTraced B K c t i vs cm rs rng).val = Ring.newLoop B K c t i vs cm rs rng := by
  induction vs generalizing i cm rs rng with
  | nil => rfl
  | cons v vs ih =>
    unfold Ring.newLoopTraced Ring.newLoop
    vals; simp only [ih]

theorem val_toBytes (c : Ciphertext E) : (c.toBytesTraced B : Traced F E _).val = c.toBytes B := by
  unfold Ciphertext.toBytesTraced Ciphertext.toBytes
  vals; rfl

theorem val_ringNew (i : Nat) (K : E) (c : ExtendedCiphertext F E) (vs : List E) (vi : Nat) (t : Transcript)
    (rs : List F) (rng : B.Rng) :
    (Ring.newTraced B i K c vs vi t rs rng).val = Ring.new B i K c vs vi t rs rng := by
  unfold Ring.newTraced Ring.new
  vals; simp only [val_toBytes, val_newLoop]; rfl

theorem val_finalizeLoop (K : E) (c : Ciphertext E) (t : Transcript) (i : Nat) (vs : List E) (ch : F)
    (rs : List F) (rng : B.Rng) :
    (Ring.finalizeLoopTraced B K c t i vs ch rs rng).val = Ring.finalizeLoop B K c t i vs ch rs rng := by
  induction vs generalizing i ch rs rng with
  | nil => rfl
  | cons v vs ih =>
    unfold Ring.finalizeLoopTraced Ring.finalizeLoop
    vals; simp only [ih]

theorem val_finalize (r : Ring F E) (K : E) (ch : F) (rng : B.Rng) :
    (r.finalizeTraced B K ch rng).val = r.finalize B K ch rng := by
  unfold Ring.finalizeTraced Ring.finalize
  vals; simp only [val_finalizeLoop]; rfl

theorem val_appendTerminal (rings : List (Ring F E)) (t : Transcript) :
    (Ring.appendTerminalTraced B rings t).val = Ring.appendTerminal B rings t := by
  induction rings generalizing t with
  | nil => rfl
  | cons r rings ih =>
    unfold Ring.appendTerminalTraced Ring.appendTerminal
    vals; simp only [ih]

theorem val_finalizeAll (K : E) (ch : F) (rings : List (Ring F E)) (rng : B.Rng) :
    (Ring.finalizeAllTraced B K ch rings rng).val = Ring.finalizeAll B K ch rings rng := by
  induction rings generalizing rng with
  | nil => rfl
  | cons r rings ih =>
    unfold Ring.finalizeAllTraced Ring.finalizeAll
    vals; simp only [ih, val_finalize]; rfl

theorem val_aggregate (rings : List (Ring F E)) (K : E) (t : Transcript) (rng : B.Rng) :
    (Ring.aggregateTraced B rings K t rng).val = Ring.aggregate B rings K t rng := by
  unfold Ring.aggregateTraced Ring.aggregate
  vals; simp only [val_appendTerminal, val_finalizeAll]; rfl

theorem val_builderNew (K : PublicKey E) (rs : List F) (t : Transcript) (rng : B.Rng) :
    (RingProofBuilder.newTraced B K rs t rng : Traced F E _).val = some (RingProofBuilder.new B K rs t rng) := by
  unfold RingProofBuilder.newTraced
  vals; rfl

theorem val_addPrecomputed (b : RingProofBuilder B) (c : ExtendedCiphertext F E) (vs : List E) (i : Nat) :
    (b.addPrecomputedValueTraced B c vs i).val = b.addPrecomputedValue B c vs i := by
  unfold RingProofBuilder.addPrecomputedValueTraced RingProofBuilder.addPrecomputedValue
  vals; simp only [val_ringNew]; rfl

theorem val_addValue (b : RingProofBuilder B) (vs : List E) (i : Nat) :
    (b.addValueTraced B vs i).val = b.addValue B vs i := by
  unfold RingProofBuilder.addValueTraced RingProofBuilder.addValue
  vals; simp only [val_extNew, val_addPrecomputed, some_bind']; rfl

theorem val_build (b : RingProofBuilder B) : (b.buildTraced B).val = b.build B := by
  unfold RingProofBuilder.buildTraced RingProofBuilder.build
  vals; simp only [val_aggregate]; rfl

theorem val_encryptBool (K : PublicKey E) (v : Bool) (rng : B.Rng) :
    (K.encryptBoolTraced B v rng).val = K.encryptBool B v rng := by
  unfold PublicKey.encryptBoolTraced PublicKey.encryptBool
  vals; simp only [val_builderNew, val_addValue, val_build, some_bind']; rfl

theorem val_decomposeLoop (d : Bool) (rings : List RingSpec) (v : Nat) :
    (RangeDecomposition.decomposeLoopTraced d rings v : Traced F E _).val =
      RangeDecomposition.decomposeLoop d rings v := by
  induction rings generalizing v with
  | nil => rfl
  | cons r rings ih =>
    unfold RangeDecomposition.decomposeLoopTraced RangeDecomposition.decomposeLoop
    vals; simp only [ih, decide_eq_true_eq]; rfl

theorem val_decompose (d : Bool) (range : PreparedRange E) (v : Nat) :
    (range.decomposeTraced d v : Traced F E _).val = range.decompose d v := by
  unfold PreparedRange.decomposeTraced PreparedRange.decompose RangeDecomposition.decompose
  vals; simp only [val_decomposeLoop]; rfl

theorem val_addValues (items : List (Nat × List E)) (c : ExtendedCiphertext F E) (b : RingProofBuilder B) :
    (RangeProof.addValuesTraced B items c b).val = RangeProof.addValues B items c b := by
  induction items generalizing c b with
  | nil => rfl
  | cons x items ih =>
    obtain ⟨i, vs⟩ := x
    unfold RangeProof.addValuesTraced RangeProof.addValues
    vals; simp only [val_addValue, val_extAdd, ih, some_bind']; rfl

theorem val_fromCiphertext (K : PublicKey E) (range : PreparedRange E) (c : CiphertextWithValue F E Nat)
    (t : Transcript) (rng : B.Rng) :
    (RangeProof.fromCiphertextTraced B K range c t rng).val = RangeProof.fromCiphertext B K range c t rng := by
  unfold RangeProof.fromCiphertextTraced RangeProof.fromCiphertext
  vals
  simp only [val_decompose, val_builderNew, val_addValues, val_extSub, val_addPrecomputed, val_build, some_bind']
  rfl

theorem val_rangeNew (K : PublicKey E) (range : PreparedRange E) (v : Nat) (t : Transcript) (rng : B.Rng) :
    (RangeProof.newTraced B K range v t rng).val = RangeProof.new B K range v t rng := by
  unfold RangeProof.newTraced RangeProof.new
  vals; simp only [val_withValueU64, val_fromCiphertext, some_bind']; rfl

theorem val_encryptRange (K : PublicKey E) (range : PreparedRange E) (v : Nat) (rng : B.Rng) :
    (K.encryptRangeTraced B range v rng).val = K.encryptRange B range v rng := by
  unfold PublicKey.encryptRangeTraced PublicKey.encryptRange
  vals; simp only [val_rangeNew]; rfl

theorem val_sumProof (kind : ChoiceKind) (c : CiphertextWithValue F E Nat) (K : PublicKey E) (rng : B.Rng) :
    (SumProof.proveTraced B kind c K rng).val = SumProof.prove B kind c K rng := by
  cases kind
  · unfold SumProof.proveTraced SumProof.prove
    vals; simp only [val_logEq]; rfl
  · rfl

theorem val_addChoices (vs : List E) (flags : List Bool) (b : RingProofBuilder B) :
    (EncryptedChoice.addChoicesTraced B vs flags b).val = EncryptedChoice.addChoices B vs flags b := by
  induction flags generalizing b with
  | nil => rfl
  | cons f flags ih =>
    unfold EncryptedChoice.addChoicesTraced EncryptedChoice.addChoices
    vals; simp only [val_addValue, ih]; rfl

theorem val_sum (flags : List Bool) (s : Nat) :
    (EncryptedChoice.sumTraced flags s : Traced F E _).val =
      some (s + (flags.map fun flag => if flag then 1 else 0).sum) := by
  induction flags generalizing s with
  | nil => rfl
  | cons f flags ih =>
    unfold EncryptedChoice.sumTraced
    vals; rw [ih]; simp [Nat.add_assoc]

theorem val_sumCiphertexts (l : List (ExtendedCiphertext F E)) (s : ExtendedCiphertext F E) :
    (EncryptedChoice.sumCiphertextsTraced l s).val = some (l.foldl ExtendedCiphertext.add s) := by
  induction l generalizing s with
  | nil => rfl
  | cons c l ih =>
    unfold EncryptedChoice.sumCiphertextsTraced
    vals; simp only [val_extAdd, some_bind', ih]; rfl

theorem val_choice {kind : ChoiceKind} (params : ChoiceParams E kind) (flags : List Bool) (rng : B.Rng) :
    (EncryptedChoice.newTraced B params flags rng).val = EncryptedChoice.new B params flags rng := by
  have hr : ∀ l : List (ExtendedCiphertext F E),
      (l.head? >>= fun first => some (l.tail.foldl ExtendedCiphertext.add first)) =
        reduce ExtendedCiphertext.add l := by
    intro l; cases l <;> rfl
  unfold EncryptedChoice.newTraced EncryptedChoice.new
  vals
  simp only [val_builderNew, val_sum, val_addChoices, val_build, val_sumCiphertexts, val_sumProof, some_bind',
    Nat.zero_add, ← hr, Option.bind_eq_bind, Option.bind_assoc, Option.bind_some]
  rfl

theorem val_single (params : ChoiceParams E .single) (c : Nat) (rng : B.Rng) :
    (EncryptedChoice.singleTraced B params c rng).val = EncryptedChoice.single B params c rng := by
  unfold EncryptedChoice.singleTraced EncryptedChoice.single
  vals; simp only [val_choice]

theorem val_creditOf (d : Bool) (votes : List Nat) (c : Nat) :
    (QuadraticVotingBallot.creditOfTraced d votes c : Traced F E _).val =
      votes.foldlM (fun acc x => do addU64 d acc (← mulU64 d x x)) c := by
  induction votes generalizing c with
  | nil => rfl
  | cons v votes ih =>
    unfold QuadraticVotingBallot.creditOfTraced
    vals; simp only [ih, List.foldlM_cons, Option.bind_eq_bind, Option.bind_assoc]

theorem val_encryptVotes (K : PublicKey E) (range : PreparedRange E) (votes : List Nat) (rng : B.Rng) :
    (QuadraticVotingBallot.encryptVotesTraced B K range votes rng).val =
      QuadraticVotingBallot.encryptVotes B K range votes rng := by
  induction votes generalizing rng with
  | nil => rfl
  | cons v votes ih =>
    unfold QuadraticVotingBallot.encryptVotesTraced QuadraticVotingBallot.encryptVotes
    vals; simp only [val_rangeNew, ih]; rfl

theorem val_ballot (params : QuadraticVotingParams E) (votes : List Nat) (rng : B.Rng) :
    (QuadraticVotingBallot.newTraced B params votes rng).val = QuadraticVotingBallot.new B params votes rng := by
  unfold QuadraticVotingBallot.newTraced QuadraticVotingBallot.new QuadraticVotingBallot.creditOf
  vals; simp only [val_creditOf, val_encryptVotes, val_rangeNew, val_sumSq]; rfl

end Rings

end

end ElasticElgamal
