import Verif.Lemmas.Forking
import Verif.Props.LogEq
import Verif.Props.Possession
import Verif.Props.Commitment
import Verif.Props.SumOfSquares

/-!
# C70: provers know their secrets

For log equality proofs, proofs of possession, commitment equivalence proofs and sum-of-squares proofs: a prover that succeeds with
probability `ε` can be run twice to compute the secrets with probability at least `ε² / (n + 1) - ε / |F|`, where `n`
is the number of evaluations of the hash function. The prover is an arbitrary algorithm, which chooses
the statement and the context of its proof.
-/

set_option autoImplicit false
set_option linter.unusedSectionVars false

namespace ElasticElgamal

open Spec Toy

variable {F E : Type} [Field F] [AddCommGroup E] [Module F E] [DecidableEq F] [DecidableEq E] [Fintype F]

/-- Provers that always succeed. -/
theorem extractable_certain {Q A Ω α : Type} [DecidableEq Q] [Fintype A] [Fintype Ω] [Nonempty A] [Nonempty Ω]
    {alg : Ω → OracleAlg Q A α} {point : α → Q} {n : ℕ} {good : Ω → (Q → A) → α → Prop} {desired : Ω → α × α → Prop}
    (h : Extractable alg point n good desired) (hg : ∀ ω H, good ω H ((alg ω).run H)) :
    ∃ D₀ : Finset Q, ∀ D, D₀ ⊆ D → ∀ H₀ : Q → A, (1 : ℚ) / (n + 1) - 1 / Fintype.card A ≤
      meanHash D H₀ fun H => mean fun ω => mean fun c => ind (desired ω (rewind (alg ω) point H c)) := by
  obtain ⟨D₀, h⟩ := h
  refine ⟨D₀, fun D hD H₀ => ?_⟩
  have := h D hD H₀ 1 (by simp only [ind_true (hg _ _), mean_const, meanHash_const])
  simpa using this

/-! ## Log equality -/

theorem LogEqOutput.accepted_iff (B : Backend F E) (o : LogEqOutput F E) (H : List Entry → F) :
    o.Accepted B H ↔ WellFormedKey B o.key ∧ H (o.hashed B) = o.proof.challenge ∧
      ∃ r, o.proof.verify B o.key o.powers o.context = some (r, ⟨o.hashed B⟩) := by
  rw [LogEqOutput.Accepted]
  refine and_congr_right fun _ => ?_
  constructor
  · rintro ⟨t, h⟩
    obtain ⟨a, d, x, y, ha, hd, hx, hy, rfl, hc⟩ := LogEqualityProof.verify_eq_some.mp h
    have h' := (LogEqualityProof.verify_eq_some (B := B) (t := o.context)).mpr ⟨a, d, x, y, ha, hd, hx, hy, rfl, rfl⟩
    have hq : o.hashed B = logEqQuery o.context.log o.key.bytes a d x y := by rw [LogEqOutput.hashed, h']
    rw [hq]
    exact ⟨checkChallenge_ok.mp hc.symm, _, h'⟩
  · rintro ⟨hc, r, h⟩
    obtain ⟨a, d, x, y, ha, hd, hx, hy, ht, -⟩ := LogEqualityProof.verify_eq_some.mp h
    refine ⟨_, LogEqualityProof.verify_eq_some.mpr ⟨a, d, x, y, ha, hd, hx, hy, rfl, ?_⟩⟩
    rw [Transcript.mk.injEq] at ht
    rw [← ht]
    exact (checkChallenge_ok.mpr hc).symm

/-- C70: a prover that produces accepted log equality proofs knows the discrete logarithm: it is computed from the
outputs of two runs. -/
theorem C70_log_eq_knowledge {Ω : Type} [Fintype Ω] [Nonempty Ω] (B : Backend F E) (hB : B.Lawful)
    (alg : Ω → OracleAlg (List Entry) F (LogEqOutput F E)) (n : ℕ) (hn : ∀ ω, (alg ω).AtMost n) :
    Extractable alg (LogEqOutput.hashed B) n (fun _ H o => o.Accepted B H) fun _ o =>
      o.1.powers.1 = LogEqOutput.extract o.1 o.2 • B.gen ∧
        o.1.powers.2 = LogEqOutput.extract o.1 o.2 • o.1.key.element := by
  refine forking alg hn (LogEqOutput.hashed B) _ (fun _ o c => WellFormedKey B o.key ∧ c = o.proof.challenge ∧
      ∃ r, o.proof.verify B o.key o.powers o.context = some (r, ⟨o.hashed B⟩))
    (fun _ H o => LogEqOutput.accepted_iff B o H) _ ?_
  rintro - o o' c c' ⟨hK, rfl, r, h⟩ ⟨hK', rfl, r', h'⟩ hpt hne
  have e : o.context = o'.context ∧ o.key.element = o'.key.element ∧ o.key.bytes = o'.key.bytes ∧
      o.powers = o'.powers := by
    obtain ⟨a, d, x, y, ha, hd, hx, hy, ht, -⟩ := LogEqualityProof.verify_eq_some.mp h
    obtain ⟨a', d', x', y', ha', hd', hx', hy', ht', -⟩ := LogEqualityProof.verify_eq_some.mp h'
    rw [Transcript.mk.injEq] at ht ht'
    rw [hpt, ht] at ht'
    obtain ⟨e1, e2, rfl, rfl, -, -⟩ := logEqQuery_inj ht'
    unfold WellFormedKey at hK hK'
    rw [e2, hK'] at hK
    exact ⟨transcript_ext e1, (Option.some.inj hK).symm, e2,
      Prod.ext (hB.serElem_inj ha ha') (hB.serElem_inj hd hd')⟩
  obtain ⟨t, K, P, p⟩ := o
  obtain ⟨t', K', P', p'⟩ := o'
  obtain ⟨rfl, e2, e3, rfl⟩ := e
  obtain rfl : K = K' := by cases K; cases K'; simp_all
  have acc : ∀ {q r} {s : List Entry}, LogEqualityProof.verify B q K P t = some (r, ⟨s⟩) →
      q.verify (B.withHash fun _ => q.challenge) K P t = some (.ok (), ⟨s⟩) := by
    intro q r s h
    obtain ⟨a, d, x, y, ha, hd, hx, hy, ht, -⟩ := LogEqualityProof.verify_eq_some.mp h
    exact LogEqualityProof.verify_eq_some.mpr ⟨a, d, x, y, ha, hd, hx, hy, ht, (checkChallenge_self _).symm⟩
  rw [hpt] at h'
  exact C12_log_eq_extract B hB _ _ p p' K P t _ (acc h) (acc h') (Ne.symm hne)

/-- A prover that knows the discrete logarithm 5 and uses the random scalar 3. -/
def exampleLogEqProver : OracleAlg (List Entry) (ZMod 101) (LogEqOutput (ZMod 101) (ZMod 101)) :=
  .ask (logEqQuery (Transcript.new "x").log [42] [5] [8] [3] [25]) fun c =>
    .done ⟨Transcript.new "x", ⟨[42], 42⟩, (5, 8), ⟨c, 3 + c * 5⟩⟩

example : ∃ D₀ : Finset (List Entry), ∀ D, D₀ ⊆ D → ∀ H₀ : List Entry → ZMod 101, (99 : ℚ) / 202 ≤
    meanHash D H₀ fun H => mean fun _ : Unit => mean fun c =>
      let o := rewind exampleLogEqProver (LogEqOutput.hashed B101) H c
      ind (o.1.powers.1 = LogEqOutput.extract o.1 o.2 • B101.gen ∧
        o.1.powers.2 = LogEqOutput.extract o.1 o.2 • o.1.key.element) := by
  have k1 : ∀ c : ZMod 101, (3 + c * 5) * 1 - c * 5 = 3 := fun c => by ring
  have k2 : ∀ c : ZMod 101, (3 + c * 5) * 42 - c * 8 = 25 := fun c => by
    rw [show (8 : ZMod 101) = 5 * 42 by decide, show (25 : ZMod 101) = 3 * 42 by decide]; ring
  have := extractable_certain (C70_log_eq_knowledge B101 B101_lawful (fun _ : Unit => exampleLogEqProver) 1
    fun _ _ => trivial) fun _ H => ⟨show B101.deElem [42] = some 42 by decide, _,
      LogEqualityProof.verify_eq_some.mpr ⟨[5], [8], [3], [25], rfl, rfl, congrArg B101.serElem (k1 _),
        congrArg B101.serElem (k2 _), rfl, (checkChallenge_ok.mpr rfl).symm⟩⟩
  have e : (1 : ℚ) / ((1 : ℕ) + 1) - 1 / Fintype.card (ZMod 101) = 99 / 202 := by
    rw [ZMod.card]; norm_num
  rwa [e] at this

/-! ## Commitment equivalence -/

theorem CommitmentOutput.accepted_iff (B : Backend F E) (base : E) (o : CommitmentOutput F E) (H : List Entry → F) :
    o.Accepted B base H ↔ WellFormedKey B o.key ∧ H (o.hashed B base) = o.proof.challenge ∧
      ∃ r, o.proof.verify B o.ciphertext o.key o.commitment base o.context = some (r, ⟨o.hashed B base⟩) := by
  rw [CommitmentOutput.Accepted]
  refine and_congr_right fun _ => ?_
  constructor
  · rintro ⟨t, h⟩
    obtain ⟨r, b, c, x, y, z, hr, hb, hc, hx, hy, hz, rfl, hch⟩ := CommitmentEquivalenceProof.verify_eq_some.mp h
    have h' := (CommitmentEquivalenceProof.verify_eq_some (B := B) (t := o.context)).mpr
      ⟨r, b, c, x, y, z, hr, hb, hc, hx, hy, hz, rfl, rfl⟩
    have hq : o.hashed B base = commitmentQuery o.context.log o.key.bytes r b c x y z := by
      rw [CommitmentOutput.hashed, h']
    rw [hq]
    exact ⟨checkChallenge_ok.mp hch.symm, _, h'⟩
  · rintro ⟨hch, res, h⟩
    obtain ⟨r, b, c, x, y, z, hr, hb, hc, hx, hy, hz, ht, -⟩ := CommitmentEquivalenceProof.verify_eq_some.mp h
    refine ⟨_, CommitmentEquivalenceProof.verify_eq_some.mpr ⟨r, b, c, x, y, z, hr, hb, hc, hx, hy, hz, rfl, ?_⟩⟩
    rw [Transcript.mk.injEq] at ht
    rw [← ht]
    exact (checkChallenge_ok.mpr hch).symm

/-- Two outputs with the same hashed data and different challenges. -/
theorem CommitmentOutput.fork (B : Backend F E) (hB : B.Lawful) (base : E) {o o' : CommitmentOutput F E} {c c' : F}
    (ho : WellFormedKey B o.key ∧ c = o.proof.challenge ∧
      ∃ r, o.proof.verify B o.ciphertext o.key o.commitment base o.context = some (r, ⟨o.hashed B base⟩))
    (ho' : WellFormedKey B o'.key ∧ c' = o'.proof.challenge ∧
      ∃ r, o'.proof.verify B o'.ciphertext o'.key o'.commitment base o'.context = some (r, ⟨o'.hashed B base⟩))
    (hpt : o'.hashed B base = o.hashed B base) (hne : c' ≠ c) :
    let (v, r, b) := CommitmentOutput.extract o o'
    CommitsSame B o.key.element o.ciphertext o.commitment base v r b := by
  obtain ⟨hK, rfl, r, h⟩ := ho
  obtain ⟨hK', rfl, r', h'⟩ := ho'
  have e : o.context = o'.context ∧ o.key.element = o'.key.element ∧ o.key.bytes = o'.key.bytes ∧
      o.ciphertext = o'.ciphertext ∧ o.commitment = o'.commitment := by
    obtain ⟨r, b, c, x, y, z, hr, hb, hc, hx, hy, hz, ht, -⟩ := CommitmentEquivalenceProof.verify_eq_some.mp h
    obtain ⟨r', b', c', x', y', z', hr', hb', hc', hx', hy', hz', ht', -⟩ :=
      CommitmentEquivalenceProof.verify_eq_some.mp h'
    rw [Transcript.mk.injEq] at ht ht'
    rw [hpt, ht] at ht'
    obtain ⟨e1, e2, rfl, rfl, rfl, -, -, -⟩ := commitmentQuery_inj ht'
    unfold WellFormedKey at hK hK'
    rw [e2, hK'] at hK
    refine ⟨transcript_ext e1, (Option.some.inj hK).symm, e2, ?_, hB.serElem_inj hc hc'⟩
    have h1 := hB.serElem_inj hr hr'
    have h2 := hB.serElem_inj hb hb'
    cases hc1 : o.ciphertext
    cases hc2 : o'.ciphertext
    simp_all
  obtain ⟨t, K, ct, C, p⟩ := o
  obtain ⟨t', K', ct', C', p'⟩ := o'
  obtain ⟨rfl, e2, e3, rfl, rfl⟩ := e
  obtain rfl : K = K' := by cases K; cases K'; simp_all
  have acc : ∀ {q r} {s : List Entry}, CommitmentEquivalenceProof.verify B q ct K C base t = some (r, ⟨s⟩) →
      q.verify (B.withHash fun _ => q.challenge) ct K C base t = some (.ok (), ⟨s⟩) := by
    intro q r s h
    obtain ⟨r, b, c, x, y, z, hr, hb, hc, hx, hy, hz, ht, -⟩ := CommitmentEquivalenceProof.verify_eq_some.mp h
    exact CommitmentEquivalenceProof.verify_eq_some.mpr ⟨r, b, c, x, y, z, hr, hb, hc, hx, hy, hz, ht,
      (checkChallenge_self _).symm⟩
  rw [hpt] at h'
  exact C18_commitment_extract B hB _ _ p p' ct K C base t _ (acc h) (acc h') (Ne.symm hne)

/-- C70: a prover that produces accepted commitment equivalence proofs knows a value, the randomness of the
ciphertext and the blinding factor of the commitment: they are computed from the outputs of two runs. -/
theorem C70_commitment_knowledge {Ω : Type} [Fintype Ω] [Nonempty Ω] (B : Backend F E) (hB : B.Lawful) (base : E)
    (alg : Ω → OracleAlg (List Entry) F (CommitmentOutput F E)) (n : ℕ) (hn : ∀ ω, (alg ω).AtMost n) :
    Extractable alg (CommitmentOutput.hashed B base) n (fun _ H o => o.Accepted B base H) fun _ o =>
      let (v, r, b) := CommitmentOutput.extract o.1 o.2
      CommitsSame B o.1.key.element o.1.ciphertext o.1.commitment base v r b := by
  refine forking alg hn (CommitmentOutput.hashed B base) _ (fun _ o c => WellFormedKey B o.key ∧
      c = o.proof.challenge ∧
      ∃ r, o.proof.verify B o.ciphertext o.key o.commitment base o.context = some (r, ⟨o.hashed B base⟩))
    (fun _ H o => CommitmentOutput.accepted_iff B base o H) _
    fun _ _ _ _ _ ho ho' hpt hne => CommitmentOutput.fork B hB base ho ho' hpt hne

/-- A prover that knows the value 5, the randomness 3 and the blinding factor 2. -/
def exampleCommitmentProver : OracleAlg (List Entry) (ZMod 101) (CommitmentOutput (ZMod 101) (ZMod 101)) :=
  .ask (commitmentQuery (Transcript.new "x").log [42] [3] [30] [31] [6] [54] [20]) fun c =>
    .done ⟨Transcript.new "x", ⟨[42], 42⟩, ⟨3, 30⟩, 31, ⟨c, 6 + c * 3, 4 + c * 5, 9 + c * 2⟩⟩

example : ∃ D₀ : Finset (List Entry), ∀ D, D₀ ⊆ D → ∀ H₀ : List Entry → ZMod 101, (99 : ℚ) / 202 ≤
    meanHash D H₀ fun H => mean fun _ : Unit => mean fun c =>
      let o := rewind exampleCommitmentProver (CommitmentOutput.hashed B101 13) H c
      ind (let (v, r, b) := CommitmentOutput.extract o.1 o.2
        CommitsSame B101 o.1.key.element o.1.ciphertext o.1.commitment 13 v r b) := by
  have k1 : ∀ c : ZMod 101, (6 + c * 3) * 1 - c * 3 = 6 := fun c => by ring
  have k2 : ∀ c : ZMod 101, (4 + c * 5) * 1 + (6 + c * 3) * 42 - c * 30 = 54 := fun c => by
    rw [show (30 : ZMod 101) = 5 + 3 * 42 by decide, show (54 : ZMod 101) = 4 + 6 * 42 by decide]; ring
  have k3 : ∀ c : ZMod 101, (4 + c * 5) * 1 + (9 + c * 2) * 13 - c * 31 = 20 := fun c => by
    rw [show (20 : ZMod 101) = 4 + 9 * 13 by decide]; ring
  have := extractable_certain (C70_commitment_knowledge B101 B101_lawful 13 (fun _ : Unit => exampleCommitmentProver) 1
    fun _ _ => trivial) fun _ H => ⟨show B101.deElem [42] = some 42 by decide, _,
      CommitmentEquivalenceProof.verify_eq_some.mpr ⟨[3], [30], [31], [6], [54], [20], rfl, rfl, rfl,
        congrArg B101.serElem (k1 _), congrArg B101.serElem (k2 _), congrArg B101.serElem (k3 _), rfl,
        (checkChallenge_ok.mpr rfl).symm⟩⟩
  have e : (1 : ℚ) / ((1 : ℕ) + 1) - 1 / Fintype.card (ZMod 101) = 99 / 202 := by
    rw [ZMod.card]; norm_num
  rwa [e] at this

/-! ## Sums of squares -/

theorem SumSqOutput.accepted_iff (B : Backend F E) (o : SumSqOutput F E) (H : List Entry → F) :
    o.Accepted B H ↔ WellFormedKey B o.key ∧ H (o.hashed B) = o.proof.challenge ∧
      ∃ ps, o.proof = ⟨o.proof.challenge, unpairs ps, o.proof.sumResponse⟩ ∧ ps.length = o.ciphertexts.length ∧
      ∃ r, o.proof.verify B o.ciphertexts o.sumOfSquares o.key o.context = some (r, ⟨o.hashed B⟩) := by
  rw [SumSqOutput.Accepted]
  refine and_congr_right fun _ => ?_
  constructor
  · rintro ⟨t, h⟩
    obtain ⟨ps, hp, hl⟩ := SumOfSquaresProof.verify_ok h
    rw [hp] at h
    obtain ⟨items, rz, z, u, v, hi, h1, h2, h3, h4, rfl, hch⟩ := (SumOfSquaresProof.verify_eq_some hl).mp h
    have h' := (SumOfSquaresProof.verify_eq_some (B := B) (t := o.context) hl).mpr
      ⟨items, rz, z, u, v, hi, h1, h2, h3, h4, rfl, rfl⟩
    have hq : o.hashed B = sumSqQuery o.context.log o.key.bytes items rz z u v := by
      rw [SumSqOutput.hashed, hp, h']
    rw [hq]
    exact ⟨checkChallenge_ok.mp hch.symm, ps, hp, hl, _, (congrArg (fun p => SumOfSquaresProof.verify B p
      o.ciphertexts o.sumOfSquares o.key o.context) hp).trans h'⟩
  · rintro ⟨hch, ps, hp, hl, res, h⟩
    rw [hp] at h
    obtain ⟨items, rz, z, u, v, hi, h1, h2, h3, h4, ht, -⟩ := (SumOfSquaresProof.verify_eq_some hl).mp h
    rw [hp]
    refine ⟨_, (SumOfSquaresProof.verify_eq_some hl).mpr ⟨items, rz, z, u, v, hi, h1, h2, h3, h4, rfl, ?_⟩⟩
    rw [Transcript.mk.injEq] at ht
    rw [← ht]
    exact (checkChallenge_ok.mpr hch).symm

/-- From `s • g - c • e = s' • g - c' • e` to the logarithm of `e`. -/
theorem smul_of_two {c c' : F} (hne : c' ≠ c) {x y e : E} (h : x - c • e = y - c' • e) :
    e = (c - c')⁻¹ • (x - y) := by
  have hd : c - c' ≠ 0 := sub_ne_zero.mpr (Ne.symm hne)
  have : x - y = (c - c') • e := by
    linear_combination (norm := module) h
  rw [this, inv_smul_smul₀ hd]

theorem sumSq_items_extract {B : Backend F E} (hB : B.Lawful) {K : E} {c c' : F} (hne : c' ≠ c) :
    ∀ {ps ps' : List (F × F)} {cts cts' : List (Ciphertext E)} {items : List SquareItem},
      ps.length = cts.length → ps'.length = cts'.length →
      List.Forall₂ (SumOfSquaresProof.VerifierItem B K c) (ps.zip cts) items →
      List.Forall₂ (SumOfSquaresProof.VerifierItem B K c') (ps'.zip cts') items →
      cts = cts' ∧
      let l := sumSqValues (c - c') (unpairs ps) (unpairs ps')
      cts = (l.map fun w => ⟨w.2 • B.gen, w.1 • B.gen + w.2 • K⟩) ∧
      Backend.multiMul (ps.map (·.2)) (cts.map (·.random)) - Backend.multiMul (ps'.map (·.2)) (cts.map (·.random)) =
        (c - c') • (l.map fun w => w.1 * w.2).sum • B.gen ∧
      Backend.multiMul (ps.map (·.2)) (cts.map (·.blinded)) - Backend.multiMul (ps'.map (·.2)) (cts.map (·.blinded)) =
        (c - c') • ((l.map fun w => w.1 * w.1).sum • B.gen + (l.map fun w => w.1 * w.2).sum • K) := by
  have hd : c - c' ≠ 0 := sub_ne_zero.mpr (Ne.symm hne)
  intro ps
  induction ps with
  | nil =>
    intro ps' cts cts' items hl hl' h h'
    obtain rfl : cts = [] := by cases cts <;> simp_all
    cases h
    have := List.forall₂_nil_right_iff.mp h'
    obtain rfl : ps' = [] := by
      cases ps' with
      | nil => rfl
      | cons p ps' => cases cts' <;> simp_all
    obtain rfl : cts' = [] := by cases cts' <;> simp_all
    simp [sumSqValues, unpairs]
  | cons p ps ih =>
    intro ps' cts cts' items hl hl' h h'
    obtain ⟨e, f⟩ := p
    cases cts with
    | nil => simp at hl
    | cons ct cts =>
    rw [List.zip_cons_cons] at h
    cases h with
    | cons h hs =>
    cases ps' with
    | nil => cases h'
    | cons p' ps' =>
    obtain ⟨e', f'⟩ := p'
    cases cts' with
    | nil => simp at hl'
    | cons ct' cts' =>
    rw [List.zip_cons_cons] at h'
    cases h' with
    | cons h' hs' =>
    obtain ⟨h1, h2, h3, h4⟩ := h
    obtain ⟨h1', h2', h3', h4'⟩ := h'
    simp only at h1 h2 h3 h4 h1' h2' h3' h4'
    have r1 := hB.serElem_inj h1 h1'
    have r2 := hB.serElem_inj h2 h2'
    obtain rfl : ct = ct' := by cases ct; cases ct'; simp_all
    have r3 := smul_of_two hne (hB.serElem_inj h3 h3')
    have r4 := smul_of_two hne (hB.serElem_inj h4 h4')
    obtain ⟨rfl, k1, k2, k3⟩ := ih (by simpa using hl) (by simpa using hl') hs hs'
    have hu : ∀ (a b : F) l, unpairs ((a, b) :: l) = a :: b :: unpairs l := fun a b l => by simp [unpairs]
    have q1 : ct.random = ((e - e') / (c - c')) • B.gen := by rw [r3]; module
    have q2 : ct.blinded = ((f - f') / (c - c')) • B.gen + ((e - e') / (c - c')) • K := by rw [r4]; module
    have hy : (c - c') * ((f - f') / (c - c')) = f - f' := mul_div_cancel₀ _ hd
    refine ⟨rfl, ?_⟩
    simp only [hu, sumSqValues, List.map_cons, List.sum_cons, Backend.multiMul_cons]
    refine ⟨?_, ?_, ?_⟩
    · rw [← k1, ← q1, ← q2]
    · linear_combination (norm := module) k2 + (f - f') • q1 - hy • ((e - e') / (c - c')) • B.gen
    · linear_combination (norm := module) k3 + (f - f') • q2 -
        hy • (((f - f') / (c - c')) • B.gen + ((e - e') / (c - c')) • K)

/-- C70: a prover that produces accepted sum-of-squares proofs knows the values and the randomness of all
ciphertexts: they are computed from the outputs of two runs. -/
theorem C70_sum_sq_knowledge {Ω : Type} [Fintype Ω] [Nonempty Ω] (B : Backend F E) (hB : B.Lawful)
    (alg : Ω → OracleAlg (List Entry) F (SumSqOutput F E)) (n : ℕ) (hn : ∀ ω, (alg ω).AtMost n) :
    Extractable alg (SumSqOutput.hashed B) n (fun _ H o => o.Accepted B H) fun _ o =>
      let (values, randomness) := SumSqOutput.extract o.1 o.2
      OpensSumOfSquares B o.1.key.element o.1.ciphertexts o.1.sumOfSquares values randomness := by
  refine forking alg hn (SumSqOutput.hashed B) _ (fun _ o c => WellFormedKey B o.key ∧ c = o.proof.challenge ∧
      ∃ ps, o.proof = ⟨o.proof.challenge, unpairs ps, o.proof.sumResponse⟩ ∧ ps.length = o.ciphertexts.length ∧
      ∃ r, o.proof.verify B o.ciphertexts o.sumOfSquares o.key o.context = some (r, ⟨o.hashed B⟩))
    (fun _ H o => SumSqOutput.accepted_iff B o H) _ ?_
  rintro - o o' c c' ⟨hK, hc, ps, hp, hl, r, h⟩ ⟨hK', hc', ps', hp', hl', r', h'⟩ hpt hne
  rw [hpt] at h'
  obtain ⟨t, K, cts, zc, ⟨c₀, rs, s⟩⟩ := o
  obtain ⟨t', K', cts', zc', ⟨c₀', rs', s'⟩⟩ := o'
  simp only at hK hK' hc hc' hp hp' hl hl'
  obtain rfl := hc
  obtain rfl := hc'
  simp only [SumOfSquaresProof.mk.injEq, and_true, true_and] at hp hp'
  subst hp hp'
  obtain ⟨items, rz, z, u, v, hi, h1, h2, h3, h4, ht, -⟩ := (SumOfSquaresProof.verify_eq_some hl).mp h
  obtain ⟨items', rz', z', u', v', hi', h1', h2', h3', h4', ht', -⟩ := (SumOfSquaresProof.verify_eq_some hl').mp h'
  rw [ht, Transcript.mk.injEq] at ht'
  obtain ⟨-, e2, rfl, rfl, rfl, rfl, rfl⟩ := sumSqQuery_inj ht'
  unfold WellFormedKey at hK hK'
  rw [e2, hK'] at hK
  have eK : K'.element = K.element := Option.some.inj hK
  simp only [eK] at hi' h4'
  have z1 := hB.serElem_inj h1 h1'
  have z2 := hB.serElem_inj h2 h2'
  obtain rfl : zc = zc' := by cases zc; cases zc'; simp_all
  obtain ⟨rfl, k1, k2, k3⟩ := sumSq_items_extract hB hne hl hl' hi hi'
  have r3 := smul_of_two hne (hB.serElem_inj h3 h3')
  have r4 := smul_of_two hne (hB.serElem_inj h4 h4')
  have hd : c - c' ≠ 0 := sub_ne_zero.mpr (Ne.symm hne)
  rw [add_sub_add_comm, k2, smul_add, inv_smul_smul₀ hd] at r3
  rw [add_sub_add_comm, k3, smul_add, inv_smul_smul₀ hd] at r4
  refine ⟨k1, ?_⟩
  simp only
  cases zc with
  | mk zr zb =>
  simp only at r3 r4
  rw [Ciphertext.mk.injEq]
  constructor
  · rw [r3]; module
  · rw [r4]; module

/-- A prover that knows the value 5 with the randomness 3, and the randomness 4 of the encrypted square. -/
def exampleSumSqProver : OracleAlg (List Entry) (ZMod 101) (SumSqOutput (ZMod 101) (ZMod 101)) :=
  .ask (sumSqQuery (Transcript.new "x").log [42] [⟨[3], [30], [6], [59]⟩] [4] [92] [29] [51]) fun c =>
    .done ⟨Transcript.new "x", ⟨[42], 42⟩, [⟨3, 30⟩], ⟨4, 92⟩, ⟨c, [6 + c * 3, 9 + c * 5], 2 - c * 11⟩⟩

example : ∃ D₀ : Finset (List Entry), ∀ D, D₀ ⊆ D → ∀ H₀ : List Entry → ZMod 101, (99 : ℚ) / 202 ≤
    meanHash D H₀ fun H => mean fun _ : Unit => mean fun c =>
      let o := rewind exampleSumSqProver (SumSqOutput.hashed B101) H c
      ind (let (values, randomness) := SumSqOutput.extract o.1 o.2
        OpensSumOfSquares B101 o.1.key.element o.1.ciphertexts o.1.sumOfSquares values randomness) := by
  have h101 : (101 : ZMod 101) = 0 := by decide
  have k1 : ∀ c : ZMod 101, (6 + c * 3) * 1 - c * 3 = 6 := fun c => by ring
  have k2 : ∀ c : ZMod 101, (9 + c * 5) * 1 + (6 + c * 3) * 42 - c * 30 = 59 := fun c => by
    linear_combination (2 + c) * h101
  have k3 : ∀ c : ZMod 101, (0 + (9 + c * 5) * 3) + (2 - c * 11) * 1 - c * 4 = 29 := fun c => by ring
  have k4 : ∀ c : ZMod 101, (0 + (9 + c * 5) * 30) + (2 - c * 11) * 42 - c * 92 = 51 := fun c => by
    linear_combination (3 - 4 * c) * h101
  have := extractable_certain (C70_sum_sq_knowledge B101 B101_lawful (fun _ : Unit => exampleSumSqProver) 1
    fun _ _ => trivial) fun _ H => ⟨show B101.deElem [42] = some 42 by decide, _,
      (SumOfSquaresProof.verify_eq_some (ps := [(6 + H _ * 3, 9 + H _ * 5)]) rfl).mpr
        ⟨[⟨[3], [30], [6], [59]⟩], [4], [92], [29], [51],
        .cons ⟨rfl, rfl, congrArg B101.serElem (k1 _), congrArg B101.serElem (k2 _)⟩ .nil, rfl, rfl,
        congrArg B101.serElem (k3 _), congrArg B101.serElem (k4 _), rfl, (checkChallenge_ok.mpr rfl).symm⟩⟩
  have e : (1 : ℚ) / ((1 : ℕ) + 1) - 1 / Fintype.card (ZMod 101) = 99 / 202 := by
    rw [ZMod.card]; norm_num
  rwa [e] at this

/-! ## Possession of secret keys -/

/-- The number of keys is determined by the hashed data. -/
theorem popQuery_inj_of_length {c c' : List Entry} {ks ks' rs rs' : List Bytes} (hl : rs.length = ks.length)
    (hl' : rs'.length = ks'.length) (h : popQuery c ks rs = popQuery c' ks' rs') : c = c' ∧ ks = ks' ∧ rs = rs' := by
  let isR : Entry → Bool := fun e => match e with
    | .msg l _ => l == "R"
    | .chal _ => false
  have count : ∀ (c : List Entry) (ks rs : List Bytes),
      ((popQuery c ks rs).dropLast.reverse.takeWhile isR).length = rs.length := by
    intro c ks rs
    have h1 : ∀ (l : List Bytes) (l' : List Entry), (∀ e ∈ l'.head?, isR e = false) →
        ((l.map (Entry.msg "R") ++ l').takeWhile isR).length = l.length := by
      intro l l' hl'
      induction l with
      | nil =>
        cases l' with
        | nil => rfl
        | cons e l' => simp [hl' e (by simp)]
      | cons b l ih =>
        rw [List.map_cons, List.cons_append, List.takeWhile_cons_of_pos (by simp [isR]), List.length_cons, ih,
          List.length_cons]
    rw [popQuery, List.dropLast_concat, List.reverse_append, ← List.map_reverse, h1, List.length_reverse]
    rw [List.reverse_append, ← List.map_reverse, List.reverse_append]
    intro e he
    cases hks : ks.reverse with
    | nil => simp [hks] at he; subst he; rfl
    | cons k ks => simp [hks] at he; subst he; rfl
  have hr : rs.length = rs'.length := by rw [← count c ks rs, h, count]
  exact popQuery_inj (by omega) hr h

theorem PossessionOutput.accepted_iff (B : Backend F E) (o : PossessionOutput F E) (H : List Entry → F) :
    o.Accepted B H ↔ (∀ pk ∈ o.keys, WellFormedKey B pk) ∧ H (o.hashed B) = o.proof.challenge ∧
      o.proof.responses.length = o.keys.length ∧
      ∃ r, o.proof.verify B o.keys o.context = some (r, ⟨o.hashed B⟩) := by
  rw [PossessionOutput.Accepted]
  refine and_congr_right fun _ => ?_
  constructor
  · rintro ⟨t, h⟩
    have hl := ProofOfPossession.verify_ok h
    obtain ⟨rs, hrs, rfl, hc⟩ := (ProofOfPossession.verify_eq_some hl).mp h
    have h' := (ProofOfPossession.verify_eq_some (B := B) (t := o.context) hl).mpr ⟨rs, hrs, rfl, rfl⟩
    have hq : o.hashed B = popQuery o.context.log (o.keys.map (·.bytes)) rs := by rw [PossessionOutput.hashed, h']
    rw [hq]
    exact ⟨checkChallenge_ok.mp hc.symm, hl, _, h'⟩
  · rintro ⟨hc, hl, r, h⟩
    obtain ⟨rs, hrs, ht, -⟩ := (ProofOfPossession.verify_eq_some hl).mp h
    refine ⟨_, (ProofOfPossession.verify_eq_some hl).mpr ⟨rs, hrs, rfl, ?_⟩⟩
    rw [Transcript.mk.injEq] at ht
    rw [← ht]
    exact (checkChallenge_ok.mpr hc).symm

theorem keys_of_bytes {B : Backend F E} {ks ks' : List (PublicKey E)} (h : ∀ pk ∈ ks, WellFormedKey B pk)
    (h' : ∀ pk ∈ ks', WellFormedKey B pk) (e : ks.map (·.bytes) = ks'.map (·.bytes)) : ks = ks' := by
  induction ks generalizing ks' with
  | nil => simpa using e
  | cons k ks ih =>
    cases ks' with
    | nil => simp at e
    | cons k' ks' =>
      simp only [List.map_cons, List.cons.injEq] at e
      rw [ih (fun pk hpk => h pk (by simp [hpk])) (fun pk hpk => h' pk (by simp [hpk])) e.2]
      have h1 := h k (by simp)
      have h2 := h' k' (by simp)
      unfold WellFormedKey at h1 h2
      rw [e.1, h2] at h1
      cases k; cases k'
      simp_all

/-- Two accepted outputs with the same hashed data and different challenges. -/
theorem possession_extract {B : Backend F E} (hB : B.Lawful) {o o' : PossessionOutput F E} {c c' : F}
    (h : (∀ pk ∈ o.keys, WellFormedKey B pk) ∧ c = o.proof.challenge ∧ o.proof.responses.length = o.keys.length ∧
      ∃ r, o.proof.verify B o.keys o.context = some (r, ⟨o.hashed B⟩))
    (h' : (∀ pk ∈ o'.keys, WellFormedKey B pk) ∧ c' = o'.proof.challenge ∧
      o'.proof.responses.length = o'.keys.length ∧
      ∃ r, o'.proof.verify B o'.keys o'.context = some (r, ⟨o'.hashed B⟩))
    (hpt : o'.hashed B = o.hashed B) (hne : c' ≠ c) :
    o.keys.map (·.element) = (PossessionOutput.extract o o').map (· • B.gen) := by
  obtain ⟨hK, rfl, hl, r, h⟩ := h
  obtain ⟨hK', rfl, hl', r', h'⟩ := h'
  have e : o.context = o'.context ∧ o.keys = o'.keys := by
    obtain ⟨rs, hrs, ht, -⟩ := (ProofOfPossession.verify_eq_some hl).mp h
    obtain ⟨rs', hrs', ht', -⟩ := (ProofOfPossession.verify_eq_some hl').mp h'
    rw [forall₂_zip hl.symm] at hrs
    rw [forall₂_zip hl'.symm] at hrs'
    rw [Transcript.mk.injEq] at ht ht'
    rw [hpt, ht] at ht'
    obtain ⟨e1, e2, -⟩ := popQuery_inj_of_length (by simp; omega) (by simp; omega) ht'
    exact ⟨transcript_ext e1, keys_of_bytes hK hK' e2⟩
  obtain ⟨t, ks, p⟩ := o
  obtain ⟨t', ks', p'⟩ := o'
  obtain ⟨rfl, rfl⟩ := e
  have acc : ∀ {q r} {s : List Entry}, q.responses.length = ks.length →
      ProofOfPossession.verify B q ks t = some (r, ⟨s⟩) →
      q.verify (B.withHash fun _ => q.challenge) ks t = some (.ok (), ⟨s⟩) := by
    intro q r s hl h
    obtain ⟨rs, hrs, ht, -⟩ := (ProofOfPossession.verify_eq_some hl).mp h
    exact (ProofOfPossession.verify_eq_some hl).mpr ⟨rs, hrs, ht, (checkChallenge_self _).symm⟩
  rw [hpt] at h'
  change p.responses.length = ks.length at hl
  change p'.responses.length = ks.length at hl'
  refine List.ext_getElem (by simp [PossessionOutput.extract, hl, hl']) fun i hi hi' => ?_
  rw [List.length_map] at hi
  change i < ks.length at hi
  have := C15_pop_extract B hB _ _ p p' ks t _ (acc hl h) (acc hl' h') (Ne.symm hne) i hi (by omega) (by omega)
  simpa [PossessionOutput.extract] using this

/-- C70: a prover that produces accepted proofs of possession knows all secret keys: they are computed from the outputs
of two runs. -/
theorem C70_pop_knowledge {Ω : Type} [Fintype Ω] [Nonempty Ω] (B : Backend F E) (hB : B.Lawful)
    (alg : Ω → OracleAlg (List Entry) F (PossessionOutput F E)) (n : ℕ) (hn : ∀ ω, (alg ω).AtMost n) :
    Extractable alg (PossessionOutput.hashed B) n (fun _ H o => o.Accepted B H) fun _ o =>
      o.1.keys.map (·.element) = (PossessionOutput.extract o.1 o.2).map (· • B.gen) :=
  forking alg hn (PossessionOutput.hashed B) _ (fun _ o c => (∀ pk ∈ o.keys, WellFormedKey B pk) ∧
      c = o.proof.challenge ∧ o.proof.responses.length = o.keys.length ∧
      ∃ r, o.proof.verify B o.keys o.context = some (r, ⟨o.hashed B⟩))
    (fun _ H o => PossessionOutput.accepted_iff B o H) _ fun _ _ _ _ _ h h' hpt hne =>
      possession_extract hB h h' hpt hne

/-- A prover that knows the secret keys 42 and 7. -/
def examplePossessionProver : OracleAlg (List Entry) (ZMod 101) (PossessionOutput (ZMod 101) (ZMod 101)) :=
  .ask (popQuery (Transcript.new "x").log [[42], [7]] [[3], [4]]) fun c =>
    .done ⟨Transcript.new "x", [⟨[42], 42⟩, ⟨[7], 7⟩], ⟨c, [3 + c * 42, 4 + c * 7]⟩⟩

example : ∃ D₀ : Finset (List Entry), ∀ D, D₀ ⊆ D → ∀ H₀ : List Entry → ZMod 101, (99 : ℚ) / 202 ≤
    meanHash D H₀ fun H => mean fun _ : Unit => mean fun c =>
      let o := rewind examplePossessionProver (PossessionOutput.hashed B101) H c
      ind (o.1.keys.map (·.element) = (PossessionOutput.extract o.1 o.2).map (· • B101.gen)) := by
  have k1 : ∀ c : ZMod 101, (3 + c * 42) * 1 - c * 42 = 3 := fun c => by ring
  have k2 : ∀ c : ZMod 101, (4 + c * 7) * 1 - c * 7 = 4 := fun c => by ring
  have hK : ∀ pk ∈ [(⟨[42], 42⟩ : PublicKey (ZMod 101)), ⟨[7], 7⟩], WellFormedKey B101 pk := by
    unfold WellFormedKey; decide
  have := extractable_certain (C70_pop_knowledge B101 B101_lawful (fun _ : Unit => examplePossessionProver) 1
    fun _ _ => trivial) fun _ H => ⟨hK, _,
      (ProofOfPossession.verify_eq_some (B := B101.withHash H) (proof := ⟨_, [_, _]⟩)
        (pks := [⟨[42], 42⟩, ⟨[7], 7⟩]) rfl).mpr ⟨[[3], [4]], .cons (congrArg B101.serElem (k1 _))
        (.cons (congrArg B101.serElem (k2 _)) .nil), rfl, (checkChallenge_ok.mpr rfl).symm⟩⟩
  have e : (1 : ℚ) / ((1 : ℕ) + 1) - 1 / Fintype.card (ZMod 101) = 99 / 202 := by
    rw [ZMod.card]; norm_num
  rwa [e] at this

/-- C70: a prover that is given a random element `[x]G` and produces accepted proofs of possession for keys that include
it solves the discrete logarithm problem: `x` is computed from the outputs of two runs. So nobody can
include a key of another participant in an accepted proof of possession (as in a rogue key attack) unless
discrete logarithms are easy. -/
theorem C70_pop_discrete_log {Ω : Type} [Fintype Ω] [Nonempty Ω] (B : Backend F E) (hB : B.Lawful)
    (alg : E → Ω → OracleAlg (List Entry) F (PossessionOutput F E)) (n : ℕ) (hn : ∀ X ω, (alg X ω).AtMost n) :
    Extractable (fun ω : F × Ω => alg (ω.1 • B.gen) ω.2) (PossessionOutput.hashed B) n
      (fun ω H o => o.Accepted B H ∧ ω.1 • B.gen ∈ o.keys.map (·.element)) fun ω o =>
      ((PossessionOutput.extract o.1 o.2).find? fun s => s • B.gen = ω.1 • B.gen) = some ω.1 := by
  refine forking (fun ω : F × Ω => alg (ω.1 • B.gen) ω.2) (fun ω => hn (ω.1 • B.gen) ω.2)
    (PossessionOutput.hashed B) _ (fun ω o c =>
      ((∀ pk ∈ o.keys, WellFormedKey B pk) ∧
      c = o.proof.challenge ∧ o.proof.responses.length = o.keys.length ∧
      ∃ r, o.proof.verify B o.keys o.context = some (r, ⟨o.hashed B⟩)) ∧ ω.1 • B.gen ∈ o.keys.map (·.element))
    (fun _ H o => and_congr_left fun _ => PossessionOutput.accepted_iff B o H) _ ?_
  rintro ω o o' c c' ⟨h, hm⟩ ⟨h', -⟩ hpt hne
  have e := possession_extract hB h h' hpt hne
  rw [e, List.mem_map] at hm
  obtain ⟨s, hs, he⟩ := hm
  obtain ⟨s', hs'⟩ := Option.isSome_iff_exists.mp
    (List.find?_isSome (p := fun s => decide (s • B.gen = ω.1 • B.gen)).mpr ⟨s, hs, by simpa using he⟩)
  have := List.find?_some hs'
  rw [decide_eq_true_eq] at this
  change List.find? _ _ = _
  rw [hs', hB.smul_gen_inj this]

/-- In the example group, discrete logarithms are easy. -/
def exampleForger (X : ZMod 101) : OracleAlg (List Entry) (ZMod 101) (PossessionOutput (ZMod 101) (ZMod 101)) :=
  .ask (popQuery (Transcript.new "x").log [[42], leBytes 1 X.val] [[3], [4]]) fun c =>
    .done ⟨Transcript.new "x", [⟨[42], 42⟩, ⟨leBytes 1 X.val, X⟩], ⟨c, [3 + c * 42, 4 + c * X]⟩⟩

example : ∃ D₀ : Finset (List Entry), ∀ D, D₀ ⊆ D → ∀ H₀ : List Entry → ZMod 101, (99 : ℚ) / 202 ≤
    meanHash D H₀ fun H => mean fun ω : ZMod 101 × Unit => mean fun c =>
      let o := rewind (exampleForger (ω.1 • B101.gen)) (PossessionOutput.hashed B101) H c
      ind (((PossessionOutput.extract o.1 o.2).find? fun s => s • B101.gen = ω.1 • B101.gen) = some ω.1) := by
  have k1 : ∀ c : ZMod 101, (3 + c * 42) * 1 - c * 42 = 3 := fun c => by ring
  have k2 : ∀ c X : ZMod 101, (4 + c * X) * 1 - c * X = 4 := fun c X => by ring
  have hK : ∀ X : ZMod 101, ∀ pk ∈ [(⟨[42], 42⟩ : PublicKey (ZMod 101)), ⟨leBytes 1 X.val, X⟩],
      WellFormedKey B101 pk := by
    intro X pk hpk
    simp only [List.mem_cons, List.not_mem_nil, or_false] at hpk
    rcases hpk with rfl | rfl
    · exact show B101.deElem [42] = some 42 by decide
    · exact B101_lawful.deElem_serElem X _ rfl
  have := extractable_certain (C70_pop_discrete_log B101 B101_lawful (fun X (_ : Unit) => exampleForger X) 1
    fun _ _ _ => trivial) fun ω H => ⟨⟨hK _, _,
      (ProofOfPossession.verify_eq_some (B := B101.withHash H) (proof := ⟨_, [_, _]⟩)
        (pks := [⟨[42], 42⟩, ⟨_, _⟩]) rfl).mpr ⟨[[3], [4]], .cons (congrArg B101.serElem (k1 _))
        (.cons (congrArg B101.serElem (k2 _ _)) .nil), rfl, (checkChallenge_ok.mpr rfl).symm⟩⟩,
      List.mem_cons_of_mem _ (List.mem_cons_self ..)⟩
  have e : (1 : ℚ) / ((1 : ℕ) + 1) - 1 / Fintype.card (ZMod 101) = 99 / 202 := by
    rw [ZMod.card]; norm_num
  rwa [e] at this

/-! ## The loss -/

/-- C70: the loss `ε / |F|` cannot be avoided. Whoever guesses the challenge can produce a proof of a false
statement, which is accepted with probability `1 / |F|`; there is no discrete logarithm to be computed. -/
theorem C70_knowledge_loss : ∃ alg : OracleAlg (List Entry) (ZMod 101) (LogEqOutput (ZMod 101) (ZMod 101)),
    alg.AtMost 0 ∧ (∀ D H₀, (alg.run H₀).hashed B101 ∈ D →
      (meanHash D H₀ fun H => ind ((alg.run H).Accepted B101 H)) = 1 / 101) ∧
    ∀ D H₀, (meanHash D H₀ fun H => mean fun c =>
      let o := rewind alg (LogEqOutput.hashed B101) H c
      ind (∃ r : ZMod 101, o.1.powers.1 = r • B101.gen ∧ o.1.powers.2 = r • o.1.key.element)) = 0 := by
  refine ⟨.done ⟨Transcript.new "x", ⟨[42], 42⟩, (1, 0), ⟨1, 1⟩⟩, trivial, fun D H₀ hD => ?_, fun D H₀ => ?_⟩
  · rw [← meanHash_update H₀ hD, ← meanHash_const D H₀ (1 / 101)]
    congr 1
    funext H
    rw [show (1 : ℚ) / 101 = 1 / Fintype.card (ZMod 101) by rw [ZMod.card]; norm_num, ← mean_eq (1 : ZMod 101)]
    congr 1
    funext c
    congr 1
    rw [LogEqOutput.accepted_iff]
    refine propext ⟨fun h => ?_, fun h => ⟨show B101.deElem [42] = some 42 by decide, ?_, _, rfl⟩⟩
    · have := h.2.1
      exact (Function.update_self (f := H) ..).symm.trans this
    · exact (Function.update_self (f := H) ..).trans h
  · rw [← meanHash_const D H₀ 0]
    congr 1
    funext H
    rw [← mean_const (α := ZMod 101) 0]
    congr 1
    funext c
    refine ind_false ?_
    rintro ⟨r, h1, h2⟩
    change (1 : ZMod 101) = r * 1 at h1
    change (0 : ZMod 101) = r * 42 at h2
    rw [mul_one] at h1
    subst h1
    exact absurd h2 (by decide)

example : ∃ (alg : OracleAlg (List Entry) (ZMod 101) (LogEqOutput (ZMod 101) (ZMod 101))) (D : Finset (List Entry)),
    (meanHash D (fun _ => 0) fun H => ind ((alg.run H).Accepted B101 H)) = 1 / 101 := by
  obtain ⟨alg, -, h, -⟩ := C70_knowledge_loss
  exact ⟨alg, {(alg.run fun _ => 0).hashed B101}, h _ _ (by simp)⟩

end ElasticElgamal
