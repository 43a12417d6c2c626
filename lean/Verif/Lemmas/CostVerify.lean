import Verif.Model.Leakage.Verification
import Verif.Lemmas.Leakage
import Verif.Spec.Cost

/-!
# Verifiers with operations compute the same, and how many products they compute
-/

set_option autoImplicit false
set_option linter.unusedSectionVars false

namespace ElasticElgamal

open Traced Spec

variable {F E : Type}

section
variable [Field F] [AddCommGroup E] [Module F E] (B : Backend F E)

local macro "vals" : tactic => `(tactic| simp only [val_bind, val_pure, val_op, val_ofOption, val_assert,
  val_appendElement, val_debugAssert, val_genScalar, val_generate, val_mulGen, val_multiMul, val_vmultiMul,
  val_vdouble, val_serElem, val_challenge, val_mulElem, val_addElem, val_subElem, val_addScalar, val_subScalar,
  val_mulScalar, val_negScalar, val_startProof, val_newTranscript, val_appendElementBytes, val_appendMessage,
  val_appendU64, val_addU64, val_subU64, val_mulU64, some_bind'])

theorem val_ctAdd (a b : Ciphertext E) : (a.addTraced b : Traced F E _).val = some (a.add b) := by
  unfold Ciphertext.addTraced; vals; rfl

theorem val_ctSub (a b : Ciphertext E) : (a.subTraced b : Traced F E _).val = some (a.sub b) := by
  unfold Ciphertext.subTraced; vals; rfl

theorem val_ctSum (l : List (Ciphertext E)) (a : Ciphertext E) :
    (Ciphertext.sumTraced l a : Traced F E _).val = some (l.foldl Ciphertext.add a) := by
  induction l generalizing a with
  | nil => rfl
  | cons c l ih => unfold Ciphertext.sumTraced; vals; rw [val_ctAdd, some_bind', ih]; rfl

theorem val_checkChallenge [DecidableEq F] (a b : F) :
    (checkChallengeTraced a b : Traced F E _).val = some (checkChallenge a b) := by
  unfold checkChallengeTraced; vals

theorem val_ctBytes (c : Ciphertext E) : (c.toBytesTraced B : Traced F E _).val = c.toBytes B := by
  unfold Ciphertext.toBytesTraced Ciphertext.toBytes
  vals; rfl

theorem val_nextChallenge (t : Transcript) (i : Nat) (c : E × E) :
    (RingProof.nextChallengeTraced B t i c).val = (do
      let eqT := t.appendU64 "j" i
      let eqT ← B.appendElement eqT "R_G" c.1
      let eqT ← B.appendElement eqT "R_K" c.2
      pure (B.challengeScalar eqT "c").1) := by
  unfold RingProof.nextChallengeTraced; vals; rfl

theorem val_verifyRingLoop (K : PublicKey E) (c : Ciphertext E) (t : Transcript) (n i : Nat) (l : List (E × F))
    (ch : F) (cm : E × E) :
    (RingProof.verifyRingLoopTraced B K c t n i l ch cm).val = RingProof.verifyRingLoop B K c t n i l ch cm := by
  induction l generalizing i ch cm with
  | nil => rfl
  | cons x l ih =>
    obtain ⟨v, r⟩ := x
    unfold RingProof.verifyRingLoopTraced RingProof.verifyRingLoop
    vals
    split
    · rw [val_bind, val_nextChallenge]; simp only [ih, bind_assoc]
    · rw [val_bind, val_pure]; exact ih _ _ _

theorem val_verifyLoop (p : RingProof F) (K : PublicKey E) (t0 : Transcript) (i s : Nat)
    (l : List (List E × Ciphertext E)) (t : Transcript) :
    (p.verifyLoopTraced B K t0 i s l t).val = p.verifyLoop B K t0 i s l t := by
  induction l generalizing i s t with
  | nil => rfl
  | cons x l ih =>
    obtain ⟨v, r⟩ := x
    unfold RingProof.verifyLoopTraced RingProof.verifyLoop
    vals; simp only [ih, val_ctBytes, val_verifyRingLoop]

section
variable [DecidableEq F]

theorem val_ringVerify (p : RingProof F) (K : PublicKey E) (vs : List (List E)) (cs : List (Ciphertext E))
    (t : Transcript) : (p.verifyTraced B K vs cs t).val = p.verify B K vs cs t := by
  unfold RingProof.verifyTraced RingProof.verify
  rcases h : VerificationError.checkLengths "items in all rings" p.totalRingsSize (vs.map List.length).sum with e | u
  · simp only [h]; rfl
  · simp only [h]; vals; simp only [val_verifyLoop, val_checkChallenge]; rfl

theorem val_verifyBool (K : PublicKey E) (c : Ciphertext E) (p : RingProof F) :
    (K.verifyBoolTraced B c p).val = K.verifyBool B c p := by
  unfold PublicKey.verifyBoolTraced PublicKey.verifyBool
  vals; simp only [val_ringVerify]; rfl

theorem val_rangeVerify (p : RangeProof F E) (K : PublicKey E) (range : PreparedRange E) (c : Ciphertext E)
    (t : Transcript) : (p.verifyTraced B K range c t).val = p.verify B K range c t := by
  unfold RangeProof.verifyTraced RangeProof.verify
  rcases h : VerificationError.checkLengths "admissible values" (p.partialCiphertexts.length + 1)
    range.admissibleValues.length with e | u
  · simp only []; rfl
  · simp only []; vals; simp only [val_ctSum, val_ctSub, some_bind', val_ringVerify]

theorem val_verifyRange (K : PublicKey E) (range : PreparedRange E) (c : Ciphertext E) (p : RangeProof F E) :
    (K.verifyRangeTraced B range c p).val = K.verifyRange B range c p := by
  unfold PublicKey.verifyRangeTraced PublicKey.verifyRange
  vals; simp only [val_rangeVerify]; rfl

theorem val_appendCommitments (ch : F) (l : List (PublicKey E × F)) (t : Transcript) :
    (ProofOfPossession.appendCommitmentsTraced B ch l t).val = ProofOfPossession.appendCommitments B ch l t := by
  induction l generalizing t with
  | nil => rfl
  | cons x l ih =>
    obtain ⟨k, r⟩ := x
    unfold ProofOfPossession.appendCommitmentsTraced ProofOfPossession.appendCommitments
    vals; simp only [ih]

theorem val_popVerify (p : ProofOfPossession F) (ks : List (PublicKey E)) (t : Transcript) :
    (p.verifyTraced B ks t).val = p.verify B ks t := by
  unfold ProofOfPossession.verifyTraced ProofOfPossession.verify
  vals; simp only [val_appendKeys, some_bind']
  rcases h : VerificationError.checkLengths "public keys" p.responses.length ks.length with e | u
  · simp only []; rfl
  · simp only []; vals; simp only [val_appendCommitments, val_checkChallenge]; rfl

theorem val_sumSqLoop (K : PublicKey E) (ch nch : F) (l : List (List F × Ciphertext E)) (t : Transcript) :
    (SumOfSquaresProof.verifyLoopTraced B K ch nch l t).val = SumOfSquaresProof.verifyLoop B K ch nch l t := by
  induction l generalizing t with
  | nil => rfl
  | cons x l ih =>
    obtain ⟨k, r⟩ := x
    unfold SumOfSquaresProof.verifyLoopTraced SumOfSquaresProof.verifyLoop
    vals; simp only [ih]

theorem val_sumSqVerify (p : SumOfSquaresProof F) (cs : List (Ciphertext E)) (s : Ciphertext E) (K : PublicKey E)
    (t : Transcript) : (p.verifyTraced B cs s K t).val = p.verify B cs s K t := by
  unfold SumOfSquaresProof.verifyTraced SumOfSquaresProof.verify
  rcases h : VerificationError.checkLengths "ciphertext responses" p.ciphertextResponses.length
    (cs.length * 2) with e | u
  · simp only [h]; rfl
  · simp only [h]; vals; simp only [val_sumSqLoop, val_checkChallenge]; rfl

theorem val_sumVerify (kind : ChoiceKind) (c : Ciphertext E) (p : SumProof F kind) (K : PublicKey E) :
    (SumProof.verifyTraced B kind c p K).val = SumProof.verify B kind c p K := by
  cases kind with
  | single =>
    unfold SumProof.verifyTraced SumProof.verify
    rw [val_bind, val_subElem, some_bind', val_bind, val_newTranscript, some_bind', val_bind]
    exact congrArg (· >>= fun x : Except VerificationError Unit × Transcript =>
      (some (x.1.mapError .Sum) : Option (Except ChoiceVerificationError Unit))) (val_logEqVerify B p K _ _)
  | multi => rfl

theorem val_choiceVerify {kind : ChoiceKind} (b : EncryptedChoice F E kind) (params : ChoiceParams E kind) :
    (b.verifyTraced B params).val = b.verify B params := by
  unfold EncryptedChoice.verifyTraced EncryptedChoice.verify
  rcases h : params.checkOptionsCount b.choices.length with e | u
  · rfl
  · simp only []
    cases hc : b.choices with
    | nil => rfl
    | cons c cs =>
      vals
      simp only [List.head?_cons, List.tail_cons, val_ctSum, some_bind', val_sumVerify, reduce]
      congr 1; funext r
      cases r with
      | error e => rfl
      | ok u => vals; simp only [val_ringVerify]; rfl

theorem val_verifyVotes (K : PublicKey E) (range : PreparedRange E) (i : Nat) (l : List (CiphertextWithRangeProof F E)) :
    (QuadraticVotingBallot.verifyVotesTraced B K range i l).val = QuadraticVotingBallot.verifyVotes B K range i l := by
  induction l generalizing i with
  | nil => rfl
  | cons x l ih =>
    unfold QuadraticVotingBallot.verifyVotesTraced QuadraticVotingBallot.verifyVotes
    vals; simp only [val_rangeVerify]
    congr 1; funext r
    obtain ⟨r, t⟩ := r
    cases r with
    | error e => rfl
    | ok u => exact ih _

theorem val_ballotVerify (b : QuadraticVotingBallot F E) (params : QuadraticVotingParams E) :
    (b.verifyTraced B params).val = b.verify B params := by
  unfold QuadraticVotingBallot.verifyTraced QuadraticVotingBallot.verify
  rcases h : params.checkOptionsCount b.votes.length with e | u
  · rfl
  · simp only []; vals; simp only [val_verifyVotes]
    congr 1; funext r
    cases r with
    | error e => rfl
    | ok u =>
      vals; simp only [val_rangeVerify]
      congr 1; funext r
      obtain ⟨r, t⟩ := r
      cases r with
      | error e => rfl
      | ok u =>
        vals; simp only [val_sumSqVerify]
        congr 1; funext r
        obtain ⟨r, t⟩ := r
        cases r <;> rfl

end
end

end ElasticElgamal
