import Verif.Spec.Transcript
import Verif.Lemmas.Basic

/-!
# Lemmas about log equality proofs
-/

set_option autoImplicit false
set_option linter.unusedSectionVars false

namespace ElasticElgamal

open Spec

variable {F E : Type} [Field F] [AddCommGroup E] [Module F E]

theorem Backend.Lawful.withHash {B : Backend F E} (hB : B.Lawful) (H : List Entry → F) :
    (B.withHash H).Lawful :=
  ⟨hB.1, hB.2, hB.3, hB.4, hB.5, hB.6, hB.7, hB.8, hB.9, hB.10, hB.11⟩

theorem checkChallenge_ok [DecidableEq F] {a b : F} : checkChallenge a b = .ok () ↔ a = b := by
  unfold checkChallenge; split <;> simp_all

theorem checkChallenge_self [DecidableEq F] (a : F) : checkChallenge a a = .ok () :=
  checkChallenge_ok.mpr rfl

theorem checkChallenge_err [DecidableEq F] {a b : F} {e : VerificationError} :
    checkChallenge a b = .error e ↔ a ≠ b ∧ e = .ChallengeMismatch := by
  unfold checkChallenge; split <;> simp_all [eq_comm]

namespace LogEqualityProof

/-- What `verify` does, in closed form. -/
theorem verify_eq_some [DecidableEq F] {B : Backend F E} {proof : LogEqualityProof F}
    {K : PublicKey E} {powers : E × E} {t t' : Transcript} {r : Except VerificationError Unit} :
    proof.verify B K powers t = some (r, t') ↔
      ∃ a d x y, B.serElem powers.1 = some a ∧ B.serElem powers.2 = some d ∧
        B.serElem (proof.response • B.gen - proof.challenge • powers.1) = some x ∧
        B.serElem (proof.response • K.element - proof.challenge • powers.2) = some y ∧
        t' = ⟨logEqQuery t.log K.bytes a d x y⟩ ∧
        r = checkChallenge (B.challenge (logEqQuery t.log K.bytes a d x y)) proof.challenge := by
  have e1 : B.doubleMulGen (-proof.challenge) powers.1 proof.response =
      proof.response • B.gen - proof.challenge • powers.1 := by
    simp only [Backend.doubleMulGen]; module
  have e2 : Backend.multiMul [-proof.challenge, proof.response] [powers.2, K.element] =
      proof.response • K.element - proof.challenge • powers.2 := by
    simp only [Backend.multiMul_cons, Backend.multiMul_nil]; module
  simp only [verify, e1, e2, Option.bind_eq_bind, Option.bind_eq_some_iff, Option.pure_def,
    Option.some.injEq, Prod.mk.injEq, Backend.appendElement_eq_some, Backend.challengeScalar,
    Transcript.appendElementBytes, Transcript.appendMessage, Transcript.startProof, logEqQuery,
    List.append_assoc, List.cons_append, List.nil_append]
  constructor
  · rintro ⟨_, ⟨a, ha, rfl⟩, _, ⟨d, hd, rfl⟩, _, ⟨x, hx, rfl⟩, _, ⟨y, hy, rfl⟩, rfl, rfl⟩
    exact ⟨a, d, x, y, ha, hd, hx, hy, by simp, by simp⟩
  · rintro ⟨a, d, x, y, ha, hd, hx, hy, rfl, rfl⟩
    exact ⟨_, ⟨a, ha, rfl⟩, _, ⟨d, hd, rfl⟩, _, ⟨x, hx, rfl⟩, _, ⟨y, hy, rfl⟩, by simp, by simp⟩

/-- What `new` does, in closed form. -/
theorem new_eq_some {B : Backend F E} {K : PublicKey E} {secret : F} {powers : E × E}
    {t t' : Transcript} {rng rng' : B.Rng} {proof : LogEqualityProof F} :
    LogEqualityProof.new B K secret powers t rng = some (proof, t', rng') ↔
      ∃ a d x y, B.serElem powers.1 = some a ∧ B.serElem powers.2 = some d ∧
        B.serElem ((B.genScalar rng).1 • B.gen) = some x ∧
        B.serElem ((B.genScalar rng).1 • K.element) = some y ∧
        t' = ⟨logEqQuery t.log K.bytes a d x y⟩ ∧
        proof.challenge = B.challenge (logEqQuery t.log K.bytes a d x y) ∧
        proof.response = proof.challenge * secret + (B.genScalar rng).1 ∧
        rng' = (B.genScalar rng).2 := by
  simp only [LogEqualityProof.new, Option.bind_eq_bind, Option.bind_eq_some_iff, Option.pure_def,
    Option.some.injEq, Prod.mk.injEq, Backend.appendElement_eq_some, Backend.challengeScalar,
    SecretKey.generate, Backend.mulGen, LogEqualityProof.ext_iff,
    Transcript.appendElementBytes, Transcript.appendMessage, Transcript.startProof, logEqQuery,
    List.append_assoc, List.cons_append, List.nil_append]
  constructor
  · rintro ⟨_, ⟨a, ha, rfl⟩, _, ⟨d, hd, rfl⟩, _, ⟨x, hx, rfl⟩, _, ⟨y, hy, rfl⟩, ⟨h1, h2⟩, rfl, rfl⟩
    refine ⟨a, d, x, y, ha, hd, hx, hy, by simp, ?_, ?_, rfl⟩
    · rw [← h1]; simp
    · rw [← h2, ← h1]
  · rintro ⟨a, d, x, y, ha, hd, hx, hy, rfl, h1, h2, rfl⟩
    refine ⟨_, ⟨a, ha, rfl⟩, _, ⟨d, hd, rfl⟩, _, ⟨x, hx, rfl⟩, _, ⟨y, hy, rfl⟩, ⟨?_, ?_⟩, by simp, rfl⟩
    · rw [h1]; simp
    · rw [h2, h1]; simp

end LogEqualityProof

/-- Equal queries come from equal contexts and messages. -/
theorem logEqQuery_inj {c c' : List Entry} {k a d x y k' a' d' x' y' : Bytes}
    (h : logEqQuery c k a d x y = logEqQuery c' k' a' d' x' y') :
    c = c' ∧ k = k' ∧ a = a' ∧ d = d' ∧ x = x' ∧ y = y' := by
  have := List.append_inj' h rfl
  simpa using this

/-- The only challenge for which the commitments and statement recorded in a log can be completed to an
accepting proof, when the statement is false. -/
noncomputable def badLogEq (B : Backend F E) (log : List Entry) : F :=
  match log.reverse with
  | .chal _ :: .msg _ y :: .msg _ x :: .msg _ d :: .msg _ a :: .msg _ k :: _ =>
    let dl (b : Bytes) : F := B.dlog ((B.deElem b).getD 0)
    (dl y - dl k * dl x) / (dl k * dl a - dl d)
  | _ => 0

theorem badLogEq_query (B : Backend F E) (c : List Entry) (k a d x y : Bytes) :
    badLogEq B (logEqQuery c k a d x y) =
      (B.dlog ((B.deElem y).getD 0) - B.dlog ((B.deElem k).getD 0) * B.dlog ((B.deElem x).getD 0)) /
      (B.dlog ((B.deElem k).getD 0) * B.dlog ((B.deElem a).getD 0) - B.dlog ((B.deElem d).getD 0)) := by
  simp [badLogEq, logEqQuery]

end ElasticElgamal
