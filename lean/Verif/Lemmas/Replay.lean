import Verif.Spec.Replay
import Verif.Lemmas.MerlinBound
import Verif.Lemmas.RingOracle
import Verif.Props.LogEq
import Verif.Props.Possession
import Verif.Props.Commitment
import Verif.Props.SumOfSquares
import Verif.Props.Ring
import Verif.Props.Range
import Verif.Lemmas.KeySet
import Mathlib.Algebra.BigOperators.Intervals
import Mathlib.Data.Nat.Choose.Sum

/-!
# Collisions of a random hash function, and the data hashed by verifiers
-/

set_option autoImplicit false
set_option linter.unusedSectionVars false

namespace ElasticElgamal

open Spec

section
variable {Q A α : Type}

/-- Answers that were given before. -/
def repeated (H : Q → A) (hist : List Q) (_ : Q) : Set A := {a | ∃ q ∈ hist, a = H q}

theorem ncard_repeated [Finite A] (H : Q → A) (hist : List Q) (q : Q) : (repeated H hist q).ncard ≤ hist.length := by
  classical
  have : repeated H hist q = ((hist.map H).toFinset : Set A) := by
    ext a; simp [repeated, eq_comm]
  rw [this, Set.ncard_coe_finset]
  exact (List.toFinset_card_le _).trans (by simp)

open Classical in
theorem hitDep_of_repeated {H : Q → A} (x : OracleAlg Q A α) : ∀ {hist : List Q},
    (∃ a b, (a ∈ x.queries H ∨ a ∈ hist) ∧ (b ∈ x.queries H ∨ b ∈ hist) ∧ ¬ (a ∈ hist ∧ b ∈ hist) ∧
      a ≠ b ∧ H a = H b) → x.HitDep repeated H hist := by
  induction x with
  | done a =>
    intro hist h
    simp only [OracleAlg.queries, List.not_mem_nil, false_or] at h
    obtain ⟨a, b, ha, hb, h, -⟩ := h
    exact absurd ⟨ha, hb⟩ h
  | ask q next ih =>
    intro hist h
    simp only [OracleAlg.queries, List.mem_cons] at h
    obtain ⟨a, b, ha, hb, hab, hne, h⟩ := h
    rw [OracleAlg.HitDep]
    by_cases hq : q ∈ hist
    · rw [if_pos hq]
      refine ih _ ⟨a, b, ?_, ?_, hab, hne, h⟩
      · rcases ha with (rfl | ha) | ha
        exacts [.inr hq, .inl ha, .inr ha]
      · rcases hb with (rfl | hb) | hb
        exacts [.inr hq, .inl hb, .inr hb]
    · rw [if_neg hq]
      by_cases hbad : H q ∈ repeated H hist q
      · exact .inl hbad
      · refine .inr (ih _ ⟨a, b, ?_, ?_, ?_, hne, h⟩)
        · simp only [List.mem_append, List.mem_singleton]; tauto
        · simp only [List.mem_append, List.mem_singleton]; tauto
        · simp only [repeated, Set.mem_ofPred_eq, not_exists, not_and] at hbad
          simp only [List.mem_append, List.mem_singleton]
          rintro ⟨ha' | rfl, hb' | rfl⟩
          · exact hab ⟨ha', hb'⟩
          · exact hbad a ha' h.symm
          · exact hbad b hb' h
          · exact hne rfl

/-- The probability of a collision among `n` values of the hash function. -/
theorem probLe_collision [Fintype A] [Nonempty A] {P : (Q → A) → Prop} (x : OracleAlg Q A α) {n : ℕ}
    (hn : x.AtMost n) (hP : ∀ H, P H → ∃ a ∈ x.queries H, ∃ b ∈ x.queries H, a ≠ b ∧ H a = H b) :
    ProbLe P (collisionBound (Fintype.card A) n) := by
  have h := probLe_of_hitDep (P := P) (fun H hist q => repeated H hist q) (fun i => i)
    (fun H hist q => ncard_repeated H hist q)
    (fun H H' hist q h => by
      ext a
      simp only [repeated, Set.mem_ofPred_eq]
      exact exists_congr fun q' => and_congr_right fun hq' => by rw [h q' hq']) x hn
    (fun H hH => by
      obtain ⟨a, ha, b, hb, hne, he⟩ := hP H hH
      exact hitDep_of_repeated x ⟨a, b, .inl ha, .inl hb, by simp, hne, he⟩)
  rwa [Finset.sum_range_id, ← Nat.choose_two_right] at h

/-- The probability of a collision between data hashed by two verifiers of the output. -/
theorem probLe_replay [Fintype A] [Nonempty A] {P : (Q → A) → Prop} {x : OracleAlg Q A α} {n m₁ m₂ : ℕ}
    (hn : x.AtMost n) (v₁ v₂ : α → OracleAlg Q A Unit) (h₁ : ∀ o, (v₁ o).AtMost m₁) (h₂ : ∀ o, (v₂ o).AtMost m₂)
    (hP : ∀ H, P H → ∃ a ∈ (v₁ (x.run H)).queries H, ∃ b ∈ (v₂ (x.run H)).queries H, a ≠ b ∧ H a = H b) :
    ProbLe P (collisionBound (Fintype.card A) (n + m₁ + m₂)) := by
  refine probLe_collision (x.bind fun o => (v₁ o).bind fun _ => v₂ o)
    ((hn.bind fun o => (h₁ o).bind fun _ => h₂ o).mono (by omega)) fun H hH => ?_
  obtain ⟨a, ha, b, hb, h⟩ := hP H hH
  refine ⟨a, ?_, b, ?_, h⟩ <;> simp only [OracleAlg.queries_bind, List.mem_append] <;> tauto

/-- Hash the log of a transcript, if there is one. -/
def logAlg {A β : Type} (v : Option (β × Transcript)) : OracleAlg (List Entry) A Unit :=
  match v with
  | some (_, t) => .ask t.log fun _ => .done ()
  | none => .done ()

theorem logAlg_atMost {β : Type} (v : Option (β × Transcript)) : (logAlg (A := A) v).AtMost 1 := by
  unfold logAlg
  split
  · exact fun _ => OracleAlg.atMost_done _ _
  · exact OracleAlg.atMost_done _ _

theorem mem_logAlg {β : Type} {v : Option (β × Transcript)} {r : β} {t : Transcript} (h : v = some (r, t))
    (H : List Entry → A) : t.log ∈ (logAlg v).queries H := by
  subst h
  simp [logAlg, OracleAlg.queries]

end

variable {F E : Type} [Field F] [AddCommGroup E] [Module F E] [DecidableEq F] [DecidableEq E]

/-! ## The transcript after verification of most proofs does not depend on the hash function -/

theorem LogEqualityProof.verify_log {B : Backend F E} {H : List Entry → F} {proof : LogEqualityProof F}
    {K : PublicKey E} {powers : E × E} {t t' : Transcript} {r}
    (h : proof.verify (B.withHash H) K powers t = some (r, t')) : ∃ r', proof.verify B K powers t = some (r', t') := by
  obtain ⟨a, d, x, y, ha, hd, hx, hy, rfl, -⟩ := LogEqualityProof.verify_eq_some.mp h
  exact ⟨_, LogEqualityProof.verify_eq_some.mpr ⟨a, d, x, y, ha, hd, hx, hy, rfl, rfl⟩⟩

theorem ProofOfPossession.verify_log {B : Backend F E} {H : List Entry → F} {proof : ProofOfPossession F}
    {pks : List (PublicKey E)} {t t' : Transcript} (h : proof.verify (B.withHash H) pks t = some (.ok (), t')) :
    ∃ r', proof.verify B pks t = some (r', t') := by
  have hl := ProofOfPossession.verify_ok h
  obtain ⟨rs, hrs, rfl, -⟩ := (ProofOfPossession.verify_eq_some hl).mp h
  exact ⟨_, (ProofOfPossession.verify_eq_some hl).mpr ⟨rs, hrs, rfl, rfl⟩⟩

theorem CommitmentEquivalenceProof.verify_log {B : Backend F E} {H : List Entry → F}
    {proof : CommitmentEquivalenceProof F} {ct : Ciphertext E} {K : PublicKey E} {C base : E} {t t' : Transcript} {r}
    (h : proof.verify (B.withHash H) ct K C base t = some (r, t')) :
    ∃ r', proof.verify B ct K C base t = some (r', t') := by
  obtain ⟨a, b, c, x, y, z, ha, hb, hc, hx, hy, hz, rfl, -⟩ := CommitmentEquivalenceProof.verify_eq_some.mp h
  exact ⟨_, CommitmentEquivalenceProof.verify_eq_some.mpr ⟨a, b, c, x, y, z, ha, hb, hc, hx, hy, hz, rfl, rfl⟩⟩

theorem SumOfSquaresProof.verify_log {B : Backend F E} {H : List Entry → F} {proof : SumOfSquaresProof F}
    {cts : List (Ciphertext E)} {z : Ciphertext E} {K : PublicKey E} {t t' : Transcript}
    (h : proof.verify (B.withHash H) cts z K t = some (.ok (), t')) :
    ∃ r', proof.verify B cts z K t = some (r', t') := by
  obtain ⟨ps, hps, hl⟩ := SumOfSquaresProof.verify_ok h
  rw [hps] at h ⊢
  obtain ⟨items, rz, z', u, v, hi, hrz, hz, hu, hv, rfl, -⟩ := (SumOfSquaresProof.verify_eq_some hl).mp h
  exact ⟨_, (SumOfSquaresProof.verify_eq_some hl).mpr ⟨items, rz, z', u, v, hi, hrz, hz, hu, hv, rfl, rfl⟩⟩

/-! ## Ring proofs -/

/-- The verifier of a ring proof hashes the final log. -/
theorem RingProof.verify_log_mem {B : Backend F E} {H : List Entry → F} {proof : RingProof F} {K : PublicKey E}
    {values : List (List E)} {cts : List (Ciphertext E)} {t t' : Transcript} (hne : ∀ vs ∈ values, vs ≠ [])
    (h : proof.verify (B.withHash H) K values cts t = some (.ok (), t')) :
    t'.log ∈ (ringVerifierAlg B K t.log values cts proof).queries H := by
  have hl := RingProof.verify_ok_length h
  obtain ⟨t1, hloop, hlog, -⟩ := (RingProof.verify_eq_some hl).mp h
  have hzsum : ∀ (values : List (List E)) (cts : List (Ciphertext E)),
      ((values.zip cts).map (·.1.length)).sum ≤ (values.map List.length).sum := by
    intro values
    induction values with
    | nil => simp
    | cons vs values ih =>
      intro cts
      cases cts with
      | nil => simp
      | cons ct cts => simpa using ih cts
  have hz := hzsum values cts
  obtain ⟨terms, hrun, -, hlog1, -⟩ := ringsAlg_spec (B := B) (H := H) (t₀ := t) (values.zip cts)
    (fun p hp => hne p.1 (List.of_mem_zip hp).1) (by omega) hloop
  rw [ringVerifierAlg, OracleAlg.queries_bind, hrun, List.mem_append]
  right
  simp only [OracleAlg.queries, List.mem_singleton]
  rw [hlog, hlog1, RingProof.initializeTranscript_log, commonQuery]

/-- The verifier of a ring proof, if it needs at most `m` hash values. -/
def ringLogAlg (B : Backend F E) (m : ℕ) (K : PublicKey E) (ctx : List Entry) (values : List (List E))
    (cts : List (Ciphertext E)) (proof : RingProof F) : OracleAlg (List Entry) F Unit :=
  if ringHashes (values.map List.length) ≤ m then ringVerifierAlg B K ctx values cts proof else .done ()

theorem ringLogAlg_atMost (B : Backend F E) (m : ℕ) (K : PublicKey E) (ctx : List Entry) (values : List (List E))
    (cts : List (Ciphertext E)) (proof : RingProof F) : (ringLogAlg B m K ctx values cts proof).AtMost m := by
  unfold ringLogAlg
  split_ifs with h
  · refine (ringVerifierAlg_atMost ..).mono ?_
    simpa [ringHashes, Function.comp_def] using h
  · exact OracleAlg.atMost_done _ _

theorem mem_ringLogAlg {B : Backend F E} {H : List Entry → F} {proof : RingProof F} {K : PublicKey E} {m : ℕ}
    {values : List (List E)} {cts : List (Ciphertext E)} {t t' : Transcript} (hne : ∀ vs ∈ values, vs ≠ [])
    (hm : ringHashes (values.map List.length) ≤ m)
    (h : proof.verify (B.withHash H) K values cts t = some (.ok (), t')) :
    t'.log ∈ (ringLogAlg B m K t.log values cts proof).queries H := by
  rw [ringLogAlg, if_pos hm]
  exact RingProof.verify_log_mem hne h

/-- The verifier of a range proof. -/
def rangeLogAlg (B : Backend F E) (K : PublicKey E) (range : PreparedRange E) (ct : Ciphertext E) (t : Transcript)
    (proof : RangeProof F E) : OracleAlg (List Entry) F Unit :=
  ringLogAlg B (ringHashes (range.inner.rings.map (·.size))) K (RangeProof.context range t).log
    range.admissibleValues (rangeCiphertexts proof.partialCiphertexts ct) proof.inner

theorem mem_rangeLogAlg {B : Backend F E} {H : List Entry → F} {proof : RangeProof F E} {K : PublicKey E} {n : ℕ}
    {range : PreparedRange E} (hr : PreparedFor B n range) {ct : Ciphertext E} {t t' : Transcript}
    (h : proof.verify (B.withHash H) K range ct t = some (.ok (), t')) :
    t'.log ∈ (rangeLogAlg B K range ct t proof).queries H := by
  have hl := RangeProof.verify_ok_length h
  rw [RangeProof.verify_eq hl] at h
  have hf := hr.facts
  have hsz : range.admissibleValues.map List.length = range.inner.rings.map (·.size) := by
    rw [hf.values, List.map_map]
    exact List.map_congr_left fun s _ => by simp [ringValues]
  refine mem_ringLogAlg (fun vs hvs h0 => ?_) (by rw [hsz]) h
  have : vs.length ∈ range.inner.rings.map (·.size) := by rw [← hsz]; exact List.mem_map_of_mem hvs
  obtain ⟨s, hs, he⟩ := List.mem_map.mp this
  have := (hf.nested.size_step s hs).1
  rw [h0] at he
  simp at he
  omega

end ElasticElgamal
