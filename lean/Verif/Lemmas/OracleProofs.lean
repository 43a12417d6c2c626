import Verif.Lemmas.RingOracle
import Verif.Props.Tally
import Verif.Spec.Bounds

/-!
# Lemmas: probability of forging the proofs of the crate
-/

set_option autoImplicit false
set_option linter.unusedSectionVars false

namespace ElasticElgamal

open Spec

variable {F E : Type} [Field F] [AddCommGroup E] [Module F E] [DecidableEq F] [DecidableEq E] [Fintype F]
variable {α : Type}

theorem Spec.LogEqForged.hash {B : Backend F E} (hB : B.Lawful) {H : List Entry → F} {ctx : List Entry}
    {K : PublicKey E} (hK : WellFormedKey B K) {powers : E × E} {proof : LogEqualityProof F}
    (h : LogEqForged (B.withHash H) ctx K powers proof) :
    ∃ a d x y, B.serElem powers.1 = some a ∧ B.serElem powers.2 = some d ∧
      B.serElem (proof.response • B.gen - proof.challenge • powers.1) = some x ∧
      B.serElem (proof.response • K.element - proof.challenge • powers.2) = some y ∧
      H (logEqQuery ctx K.bytes a d x y) = badLogEq B (logEqQuery ctx K.bytes a d x y) := by
  obtain ⟨m, a, d, x, y, rfl, ha, hd, hx, hy, hns, s, h1, h2⟩ := h
  refine ⟨a, d, x, y, ha, hd, hx, hy, ?_⟩
  change B.serElem _ = _ at ha hd hx hy
  change ¬ SameLog B _ _ at hns
  dsimp only at h1 h2 hx hy
  change _ = s • B.gen - H _ • _ at h1
  change _ = s • _ - H _ • _ at h2
  generalize H (logEqQuery ctx K.bytes a d x y) = c at h1 h2
  change proof.response • B.gen - proof.challenge • powers.1 = _ at h1
  rw [badLogEq_query, hB.deElem_serElem _ _ ha, hB.deElem_serElem _ _ hd,
    hB.deElem_serElem _ _ hx, hB.deElem_serElem _ _ hy, hK]
  simp only [Option.getD_some]
  have hs : B.dlog K.element * B.dlog powers.1 - B.dlog powers.2 ≠ 0 := by
    intro hs
    refine hns ⟨B.dlog powers.1, (hB.dlog_smul_gen _).symm, ?_⟩
    apply hB.dlog_inj
    rw [hB.dlog_smul]
    linear_combination -hs
  rw [eq_div_iff hs]
  rw [h1, h2]
  simp only [hB.dlog_sub, hB.dlog_smul, hB.dlog_gen]
  ring

/-- A log equality proof taken from the output of an algorithm with `n` hash evaluations is forged with
probability at most `(n + 1) / |F|`. -/
theorem probLe_logEqForged {B : Backend F E} (hB : B.Lawful) {adv : OracleAlg (List Entry) F α} {n : ℕ}
    (hadv : adv.AtMost n)
    (out : α → Option (List Entry × PublicKey E × (E × E) × LogEqualityProof F)) :
    ProbLe (fun H => ∃ ctx K powers proof, out (adv.run H) = some (ctx, K, powers, proof) ∧
        WellFormedKey B K ∧ LogEqForged (B.withHash H) ctx K powers proof)
      (hashBound (Fintype.card F) n) := by
  refine probLe_single (badLogEq B) adv hadv (fun o => (out o).bind fun p =>
    (B.serElem p.2.2.1.1).bind fun a => (B.serElem p.2.2.1.2).bind fun d =>
    (B.serElem (p.2.2.2.response • B.gen - p.2.2.2.challenge • p.2.2.1.1)).bind fun x =>
    (B.serElem (p.2.2.2.response • p.2.1.element - p.2.2.2.challenge • p.2.2.1.2)).bind fun y =>
      some (logEqQuery p.1 p.2.1.bytes a d x y)) ?_
  rintro H ⟨ctx, K, powers, proof, hrun, hK, hf⟩
  obtain ⟨a, d, x, y, ha, hd, hx, hy, h⟩ := hf.hash hB hK
  exact ⟨_, by simp [hrun, ha, hd, hx, hy], h⟩

theorem SumOfSquaresProof.verify_transcript {B : Backend F E} {H : List Entry → F} {proof : SumOfSquaresProof F}
    {cts : List (Ciphertext E)} {zc : Ciphertext E} {K : PublicKey E} {t t' : Transcript}
    (h : proof.verify (B.withHash H) cts zc K t = some (.ok (), t')) :
    (proof.verify B cts zc K t).map (·.2) = some t' := by
  obtain ⟨ps, hps, hl⟩ := SumOfSquaresProof.verify_ok h
  rw [hps] at h ⊢
  obtain ⟨items, rz, z, u, v, h1, h2, h3, h4, h5, rfl, -⟩ := (SumOfSquaresProof.verify_eq_some hl).mp h
  rw [(SumOfSquaresProof.verify_eq_some (B := B) hl).mpr
    ⟨items, rz, z, u, v, h1, h2, h3, h4, h5, rfl, rfl⟩, Option.map_some]

theorem probLe_sumSqForged {B : Backend F E} {adv : OracleAlg (List Entry) F α} {n : ℕ} (hadv : adv.AtMost n)
    (bad : List Entry → F)
    (out : α → Option (SumOfSquaresProof F × List (Ciphertext E) × Ciphertext E × PublicKey E × Transcript)) :
    ProbLe (fun H => ∃ proof cts zc K t t', out (adv.run H) = some (proof, cts, zc, K, t) ∧
        proof.verify (B.withHash H) cts zc K t = some (.ok (), t') ∧ H t'.log = bad t'.log)
      (hashBound (Fintype.card F) n) := by
  refine probLe_single bad adv hadv (fun o => (out o).bind fun p =>
    ((p.1.verify B p.2.1 p.2.2.1 p.2.2.2.1 p.2.2.2.2).map (·.2)).map (·.log)) ?_
  rintro H ⟨proof, cts, zc, K, t, t', hrun, hv, h⟩
  exact ⟨t'.log, by simp only [hrun, Option.bind_some, SumOfSquaresProof.verify_transcript hv, Option.map_some], h⟩

theorem probLe_ringsForged {B : Backend F E} (hB : B.Lawful) (K : PublicKey E) (ctx : List Entry)
    (values : List (List E)) (hn : values.length ≤ 2 ^ 64)
    (hsize : ∀ vs ∈ values, 2 ≤ vs.length ∧ vs.length ≤ 2 ^ 64) {adv : OracleAlg (List Entry) F α} {n : ℕ}
    (hadv : adv.AtMost n) (out : α → Option (List (Ciphertext E) × RingProof F)) :
    ProbLe (fun H => ∃ cts proof, out (adv.run H) = some (cts, proof) ∧
        SomeRingForged (B.withHash H) ctx K values cts proof)
      (ringsBound (Fintype.card F) n (values.map List.length)) := by
  have := probLe_ringForged hB K ctx values hn hsize adv hadv out
  rw [ringsBound, List.map_map]
  exact this

theorem RangeFacts.size_bounds {B : Backend F E} {n : ℕ} {range : PreparedRange E} (h : RangeFacts B n range) :
    range.inner.rings.length ≤ 2 ^ 64 ∧ ∀ r ∈ range.inner.rings, 2 ≤ r.size ∧ r.size ≤ 2 ^ 64 := by
  have h1 := h.nested.size_step
  have h2 := h.size_le
  have h3 := h.lt
  refine ⟨?_, fun r hr => ⟨(h1 r hr).1, ?_⟩⟩
  · have := List.length_le_sum_of_one_le (range.inner.rings.map (·.size)) (by
      intro x hx
      obtain ⟨r, hr, rfl⟩ := List.mem_map.mp hx
      have := (h1 r hr).1
      omega)
    rw [List.length_map] at this
    omega
  · have := List.single_le_sum (by simp) _ (List.mem_map_of_mem (f := (·.size)) hr)
    omega

theorem probLe_rangeForged {B : Backend F E} (hB : B.Lawful) (K : PublicKey E) (ctx : List Entry) {m : ℕ}
    {range : PreparedRange E} (hr : PreparedFor B m range) {adv : OracleAlg (List Entry) F α} {n : ℕ}
    (hadv : adv.AtMost n) (out : α → Option (Ciphertext E × RangeProof F E)) :
    ProbLe (fun H => ∃ ct proof, out (adv.run H) = some (ct, proof) ∧
        RangeForged (B.withHash H) ctx K range ct proof)
      (ringsBound (Fintype.card F) n (range.inner.rings.map (·.size))) := by
  obtain ⟨h1, h2⟩ := hr.facts.size_bounds
  have := probLe_ringsForged hB K (rangeContext ctx range.inner.display) (range.inner.rings.map (ringValues B))
    (by simpa using h1) (by
      intro vs hvs
      obtain ⟨r, hr, rfl⟩ := List.mem_map.mp hvs
      simpa [ringValues] using h2 r hr) hadv
    (fun a => (out a).map fun p => (rangeCiphertexts p.2.partialCiphertexts p.1, p.2.inner))
  refine this.mono ?_ (le_of_eq ?_)
  · rintro H ⟨ct, proof, h, hf⟩
    exact ⟨_, _, by rw [h]; rfl, hf⟩
  · congr 1
    simp [ringValues, Function.comp_def]

theorem probLe_choiceForged {B : Backend F E} (hB : B.Lawful) {K : PublicKey E} (hK : WellFormedKey B K)
    {kind : ChoiceKind} {o : ℕ} (ho : o ≤ 2 ^ 64) {adv : OracleAlg (List Entry) F α} {n : ℕ}
    (hadv : adv.AtMost n) (out : α → Option (EncryptedChoice F E kind)) :
    ProbLe (fun H => ∃ ballot, out (adv.run H) = some ballot ∧ ballot.choices.length = o ∧
        ChoiceForged (B.withHash H) K ballot)
      (choiceBound (Fintype.card F) n o kind) := by
  have h1 := probLe_ringsForged hB K (Transcript.new "encrypted_choice_ranges").log
    (List.replicate o [0, B.gen]) (by simpa using ho) (by simp) hadv
    (fun a => (out a).map fun b => (b.choices, b.rangeProof))
  rw [List.map_replicate] at h1
  have h1 : ProbLe (fun H => ∃ ballot, out (adv.run H) = some ballot ∧ ballot.choices.length = o ∧
      SomeRingForged (B.withHash H) (Transcript.new "encrypted_choice_ranges").log K
        (ballot.choices.map fun _ => [0, B.gen]) ballot.choices ballot.rangeProof)
      (ringsBound (Fintype.card F) n (List.replicate o 2)) := by
    refine h1.mono ?_ (le_refl _)
    rintro H ⟨b, h, hl, hf⟩
    refine ⟨_, _, by rw [h]; rfl, ?_⟩
    rw [List.map_const', hl] at hf
    exact hf
  cases kind with
  | multi =>
    refine h1.mono ?_ (by simp [choiceBound])
    rintro H ⟨b, h, hl, hf | hf⟩
    · exact ⟨b, h, hl, hf⟩
    · exact hf.elim
  | single =>
    have h2 := probLe_logEqForged hB hadv (fun a => (out a).map fun b =>
      ((Transcript.new "choice_encryption_sum").log, K,
        ((ctSum b.choices).random, (ctSum b.choices).blinded - B.gen), b.sumProof))
    refine (h1.or h2).mono ?_ (by simp [choiceBound])
    rintro H ⟨b, h, hl, hf | hf⟩
    · exact .inl ⟨b, h, hl, hf⟩
    · exact .inr ⟨_, _, _, _, by rw [h]; rfl, hK, hf⟩

theorem probLe_ballotForged {B : Backend F E} (hB : B.Lawful) (bad : List Entry → F)
    {params : QuadraticVotingParams E} {o c m : ℕ} (hp : VotingParamsFor B params o c m)
    {adv : OracleAlg (List Entry) F α} {n : ℕ}
    (hadv : adv.AtMost n) (out : α → Option (QuadraticVotingBallot F E)) :
    ProbLe (fun H => ∃ ballot, out (adv.run H) = some ballot ∧ ballot.votes.length = o ∧
        BallotForged (B.withHash H) bad params ballot)
      (ballotBound (Fintype.card F) n params) := by
  let vote (i : ℕ) (a : α) : Option (Ciphertext E × RangeProof F E) :=
    (out a).bind fun b => (b.votes[i]?).map fun v => (v.ciphertext, v.rangeProof)
  have h1 := probLe_exists (P := fun i H => ∃ ct proof, vote i (adv.run H) = some (ct, proof) ∧
      RangeForged (B.withHash H) (Transcript.new "quadratic_voting_variant").log params.receiver
        params.voteCountRange ct proof) (n := o) fun i _ => probLe_rangeForged hB params.receiver
    (Transcript.new "quadratic_voting_variant").log hp.votes hadv (vote i)
  have h2 := probLe_rangeForged hB params.receiver
    (Transcript.new "quadratic_voting_credit_range").log hp.credits hadv
    (fun a => (out a).map fun b => (b.credit.ciphertext, b.credit.rangeProof))
  have h3 := probLe_sumSqForged (B := B) hadv bad (fun a => (out a).map fun b =>
    (b.creditEquivalenceProof, b.votes.map (·.ciphertext), b.credit.ciphertext, params.receiver,
      Transcript.new "quadratic_voting_credit_equiv"))
  refine (h1.or (h2.or h3)).mono ?_ (by rw [ballotBound, hp.options])
  rintro H ⟨b, h, hl, ⟨v, hv, hf⟩ | hf | ⟨t', hv, hf⟩⟩
  · obtain ⟨i, hi, rfl⟩ := List.getElem_of_mem hv
    exact .inl ⟨i, by omega, _, _, by simp [vote, h, hi], hf⟩
  · exact .inr (.inl ⟨_, _, by rw [h]; rfl, hf⟩)
  · exact .inr (.inr ⟨_, _, _, _, _, t', by rw [h]; rfl, hv, hf⟩)

theorem probLe_shareForged {B : Backend F E} (hB : B.Lawful) (ks : PublicKeySet E)
    {adv : OracleAlg (List Entry) F α} {n : ℕ} (hadv : adv.AtMost n)
    (out : α → Option (Ciphertext E × List (ℕ × VerifiableDecryption E) × (ℕ → LogEqualityProof F))) :
    ProbLe (fun H => ∃ ct contributions proofs, out (adv.run H) = some (ct, contributions, proofs) ∧
        ShareForged (B.withHash H) ks ct contributions proofs)
      (ks.params.threshold * hashBound (Fintype.card F) n) := by
  have h1 := probLe_exists (n := ks.params.threshold) fun i _ => probLe_logEqForged hB hadv
    (fun a => (out a).bind fun p => (p.2.1[i]?).bind fun c => (ks.participantKeys[c.1]?).bind fun pk =>
      (B.serElem p.1.random).map fun b => (shareLog ks.params ks.sharedKey.bytes c.1,
        (⟨b, p.1.random⟩ : PublicKey E), (pk.element, c.2.dhElement), p.2.2 c.1))
  refine h1.mono ?_ (le_refl _)
  rintro H ⟨ct, contributions, proofs, h, c, hc, ⟨b, e⟩, pk, ⟨hb1, hb2⟩, hpk, hf⟩
  obtain ⟨i, hi, rfl⟩ := List.getElem_of_mem hc
  rw [List.length_take] at hi
  simp only [List.getElem_take] at hpk hf ⊢
  cases hb1
  refine ⟨i, by omega, _, _, _, _, ?_, hB.deElem_serElem _ _ hb2, hf⟩
  have hb2 : B.serElem ct.random = some b := hb2
  have : contributions[i]? = some contributions[i] := List.getElem?_eq_getElem (by omega)
  simp [h, hpk, hb2, this]

theorem forall₂_eq_map {β γ : Type} {R : β → γ → Prop} {f : β → γ} {P : β → Prop}
    (h : ∀ b c, R b c → c = f b ∧ P b) {l : List β} {l' : List γ} (hl : List.Forall₂ R l l') :
    l' = l.map f ∧ ∀ b ∈ l, P b := by
  induction hl with
  | nil => simp
  | cons hr _ ih =>
    obtain ⟨rfl, h2⟩ := h _ _ hr
    exact ⟨by rw [ih.1]; rfl, by simpa using ⟨h2, ih.2⟩⟩

end ElasticElgamal
