import Verif.Props.LogEq
import Verif.Props.Possession
import Verif.Props.Commitment
import Verif.Props.SumOfSquares
import Verif.Props.Ring
import Verif.Props.Replay

/-!
# C96: hashed data determine proofs

Accepted proofs with the same hashed data are equal, so proofs cannot be changed without another evaluation of the hash
function. Ring proofs are different: a prover can make several proofs with the same data hashed last.
-/

set_option autoImplicit false
set_option linter.unusedSectionVars false

namespace ElasticElgamal

open Spec Toy

variable {F E : Type} [Field F] [AddCommGroup E] [Module F E] [DecidableEq F] [DecidableEq E]

theorem smul_gen_cancel {B : Backend F E} (hB : B.Lawful) {a b : F} {x : E}
    (h : a • B.gen - x = b • B.gen - x) : a = b := hB.smul_gen_inj (sub_left_injective h)

/-- C96: the data hashed by the verifier determine a log equality proof together with its context and statement. -/
theorem C96_log_eq_unique (B : Backend F E) (hB : B.Lawful) (p₁ p₂ : LogEqualityProof F) (K₁ K₂ : PublicKey E)
    (powers₁ powers₂ : E × E) (t₁ t₂ t' : Transcript) (hK₁ : WellFormedKey B K₁) (hK₂ : WellFormedKey B K₂)
    (h₁ : p₁.verify B K₁ powers₁ t₁ = some (.ok (), t')) (h₂ : p₂.verify B K₂ powers₂ t₂ = some (.ok (), t')) :
    p₁ = p₂ ∧ t₁ = t₂ ∧ K₁.element = K₂.element ∧ powers₁ = powers₂ := by
  obtain ⟨a, d, x, y, ha, hd, hx, hy, rfl, hc⟩ := LogEqualityProof.verify_eq_some.mp h₁
  obtain ⟨a', d', x', y', ha', hd', hx', hy', ht, hc'⟩ := LogEqualityProof.verify_eq_some.mp h₂
  have hc := checkChallenge_ok.mp hc.symm
  have hc' := checkChallenge_ok.mp hc'.symm
  simp only [Transcript.mk.injEq] at ht
  obtain ⟨e1, e2, rfl, rfl, rfl, rfl⟩ := logEqQuery_inj ht
  have hch : p₁.challenge = p₂.challenge := by rw [← hc, ← hc', ht]
  have hp : powers₁ = powers₂ := Prod.ext (hB.serElem_inj ha ha') (hB.serElem_inj hd hd')
  subst hp
  have hr := hB.serElem_inj hx hx'
  rw [hch] at hr
  refine ⟨?_, by cases t₁; cases t₂; simpa using e1, ?_, rfl⟩
  · cases p₁; cases p₂
    simp only [LogEqualityProof.mk.injEq]
    exact ⟨hch, smul_gen_cancel hB hr⟩
  · unfold WellFormedKey at hK₁ hK₂
    rw [e2, hK₂] at hK₁
    exact (Option.some.inj hK₁).symm

example (p : LogEqualityProof (ZMod 101))
    (h : p.verify (B101.withHash fun _ => 7) ⟨[42], 42⟩ (5, 8) (Transcript.new "x") =
      (⟨7, 38⟩ : LogEqualityProof (ZMod 101)).verify (B101.withHash fun _ => 7) ⟨[42], 42⟩ (5, 8) (Transcript.new "x")) :
    p = ⟨7, 38⟩ :=
  (C96_log_eq_unique (B101.withHash fun _ => 7) (B101_lawful.withHash _) p ⟨7, 38⟩ ⟨[42], 42⟩ ⟨[42], 42⟩ (5, 8) (5, 8)
    (Transcript.new "x") (Transcript.new "x") _ (by unfold WellFormedKey; decide) (by unfold WellFormedKey; decide)
    (h.trans rfl) rfl).1

/-- C96: the data hashed by the verifier determine a proof of possession for a given number of keys, its context and the
keys. -/
theorem C96_pop_unique (B : Backend F E) (hB : B.Lawful) (p₁ p₂ : ProofOfPossession F) (pks₁ pks₂ : List (PublicKey E))
    (hl : pks₁.length = pks₂.length) (t₁ t₂ t' : Transcript)
    (hK₁ : ∀ pk ∈ pks₁, WellFormedKey B pk) (hK₂ : ∀ pk ∈ pks₂, WellFormedKey B pk)
    (h₁ : p₁.verify B pks₁ t₁ = some (.ok (), t')) (h₂ : p₂.verify B pks₂ t₂ = some (.ok (), t')) :
    p₁ = p₂ ∧ t₁ = t₂ ∧ pks₁.map (·.element) = pks₂.map (·.element) := by
  have hl₁ := ProofOfPossession.verify_ok h₁
  have hl₂ := ProofOfPossession.verify_ok h₂
  obtain ⟨rs, hrs, rfl, hc⟩ := (ProofOfPossession.verify_eq_some hl₁).mp h₁
  obtain ⟨rs', hrs', ht, hc'⟩ := (ProofOfPossession.verify_eq_some hl₂).mp h₂
  have hc := checkChallenge_ok.mp hc.symm
  have hc' := checkChallenge_ok.mp hc'.symm
  simp only [Transcript.mk.injEq] at ht
  rw [forall₂_zip hl₁.symm] at hrs
  rw [forall₂_zip hl₂.symm] at hrs'
  obtain ⟨e1, e2, rfl⟩ := popQuery_inj (by simp; omega) (by omega) ht
  have hmap : ∀ pks : List (PublicKey E), (∀ pk ∈ pks, WellFormedKey B pk) →
      (pks.map (·.element)).map some = (pks.map (·.bytes)).map B.deElem := by
    intro pks hpks
    simp only [List.map_map]
    exact List.map_congr_left fun pk hpk => (hpks pk hpk).symm
  have hks : pks₁.map (·.element) = pks₂.map (·.element) := by
    have h1 := hmap pks₁ hK₁
    rw [e2, ← hmap pks₂ hK₂] at h1
    exact List.map_injective_iff.mpr (Option.some_injective _) h1
  have hch : p₁.challenge = p₂.challenge := by rw [← hc, ← hc', ht]
  refine ⟨?_, transcript_ext e1, hks⟩
  have hresp : p₁.responses = p₂.responses := by
    refine List.ext_getElem (by omega) fun i h1 h2 => ?_
    have a1 := hrs.2 i (by omega) h1 (by omega)
    have a2 := hrs'.2 i (by omega) h2 (by omega)
    have he : (pks₁[i]'(by omega)).element = (pks₂[i]'(by omega)).element := by
      have := List.getElem_of_eq hks (i := i) (by simp; omega)
      simpa using this
    have := hB.serElem_inj a1 a2
    dsimp only at this
    rw [hch, he] at this
    exact smul_gen_cancel hB this
  cases p₁; cases p₂
  simp only [ProofOfPossession.mk.injEq]
  exact ⟨hch, hresp⟩

example (p : ProofOfPossession (ZMod 101))
    (h : p.verify (B101.withHash fun _ => 3) [⟨[42], 42⟩, ⟨[7], 7⟩] (Transcript.new "x") =
      (⟨3, [26, 23]⟩ : ProofOfPossession (ZMod 101)).verify (B101.withHash fun _ => 3) [⟨[42], 42⟩, ⟨[7], 7⟩]
        (Transcript.new "x")) : p = ⟨3, [26, 23]⟩ :=
  (C96_pop_unique (B101.withHash fun _ => 3) (B101_lawful.withHash _) p ⟨3, [26, 23]⟩ [⟨[42], 42⟩, ⟨[7], 7⟩]
    [⟨[42], 42⟩, ⟨[7], 7⟩] rfl (Transcript.new "x") (Transcript.new "x") _ (by unfold WellFormedKey; decide)
    (by unfold WellFormedKey; decide) (h.trans rfl) rfl).1

/-- C96: the data hashed by the verifier determine a commitment equivalence proof for a given blinding base, except that
the response for the commitment is arbitrary if the base is the identity. -/
theorem C96_commitment_unique (B : Backend F E) (hB : B.Lawful) (p₁ p₂ : CommitmentEquivalenceProof F)
    (ct₁ ct₂ : Ciphertext E) (K₁ K₂ : PublicKey E) (C₁ C₂ base : E) (t₁ t₂ t' : Transcript)
    (hK₁ : WellFormedKey B K₁) (hK₂ : WellFormedKey B K₂)
    (h₁ : p₁.verify B ct₁ K₁ C₁ base t₁ = some (.ok (), t')) (h₂ : p₂.verify B ct₂ K₂ C₂ base t₂ = some (.ok (), t')) :
    t₁ = t₂ ∧ ct₁ = ct₂ ∧ K₁.element = K₂.element ∧ C₁ = C₂ ∧ p₁.challenge = p₂.challenge ∧
    p₁.randomnessResponse = p₂.randomnessResponse ∧ p₁.valueResponse = p₂.valueResponse ∧ (base ≠ 0 → p₁ = p₂) := by
  obtain ⟨r, b, c, x, y, z, hr, hb, hc, hx, hy, hz, rfl, hch⟩ := CommitmentEquivalenceProof.verify_eq_some.mp h₁
  obtain ⟨r', b', c', x', y', z', hr', hb', hc', hx', hy', hz', ht, hch'⟩ :=
    CommitmentEquivalenceProof.verify_eq_some.mp h₂
  have hch := checkChallenge_ok.mp hch.symm
  have hch' := checkChallenge_ok.mp hch'.symm
  simp only [Transcript.mk.injEq] at ht
  obtain ⟨e1, e2, rfl, rfl, rfl, rfl, rfl, rfl⟩ := commitmentQuery_inj ht
  have hC : C₁ = C₂ := hB.serElem_inj hc hc'
  have hct : ct₁ = ct₂ := Ciphertext.ext (hB.serElem_inj hr hr') (hB.serElem_inj hb hb')
  have hK : K₁.element = K₂.element := by
    unfold WellFormedKey at hK₁ hK₂
    rw [e2, hK₂] at hK₁
    exact (Option.some.inj hK₁).symm
  have hc0 : p₁.challenge = p₂.challenge := by rw [← hch, ← hch', ht]
  subst hC hct
  have g1 := hB.serElem_inj hx hx'
  have g2 := hB.serElem_inj hy hy'
  have g3 := hB.serElem_inj hz hz'
  rw [hc0] at g1 g2 g3
  have r1 := smul_gen_cancel hB g1
  rw [r1, hK] at g2
  have r2 : p₁.valueResponse = p₂.valueResponse :=
    hB.smul_gen_inj (by linear_combination (norm := module) g2)
  rw [r2] at g3
  refine ⟨transcript_ext e1, rfl, hK, rfl, hc0, r1, r2, fun hbase => ?_⟩
  have r3 : p₁.commitmentResponse = p₂.commitmentResponse := by
    have : (p₁.commitmentResponse - p₂.commitmentResponse) • base = 0 := by
      linear_combination (norm := module) g3
    rcases smul_eq_zero.mp this with h | h
    · exact sub_eq_zero.mp h
    · exact absurd h hbase
  cases p₁; cases p₂
  simp only [CommitmentEquivalenceProof.mk.injEq]
  exact ⟨hc0, r1, r2, r3⟩

example (p : CommitmentEquivalenceProof (ZMod 101))
    (h : p.verify (B101.withHash fun _ => 7) ⟨3, 30⟩ ⟨[42], 42⟩ 31 13 (Transcript.new "x") =
      (⟨7, 22, 37, 17⟩ : CommitmentEquivalenceProof (ZMod 101)).verify (B101.withHash fun _ => 7) ⟨3, 30⟩ ⟨[42], 42⟩ 31 13
        (Transcript.new "x")) : p = ⟨7, 22, 37, 17⟩ :=
  (C96_commitment_unique (B101.withHash fun _ => 7) (B101_lawful.withHash _) p ⟨7, 22, 37, 17⟩ ⟨3, 30⟩ ⟨3, 30⟩ ⟨[42], 42⟩
    ⟨[42], 42⟩ 31 31 13 (Transcript.new "x") (Transcript.new "x") _ (by unfold WellFormedKey; decide)
    (by unfold WellFormedKey; decide) (h.trans rfl) rfl).2.2.2.2.2.2.2 (by decide)

/-- C96, the exception: if the blinding base is the identity, the response for the commitment can be replaced by any
other one. -/
theorem C96_commitment_zero_base (B : Backend F E) (p : CommitmentEquivalenceProof F) (s : F) (ct : Ciphertext E)
    (K : PublicKey E) (C : E) (t : Transcript) :
    ({ p with commitmentResponse := s } : CommitmentEquivalenceProof F).verify B ct K C 0 t = p.verify B ct K C 0 t := by
  simp [CommitmentEquivalenceProof.verify]

example : (⟨7, 22, 37, 18⟩ : CommitmentEquivalenceProof (ZMod 101)).verify B101 ⟨3, 30⟩ ⟨[42], 42⟩ 31 0
      (Transcript.new "x") =
    (⟨7, 22, 37, 17⟩ : CommitmentEquivalenceProof (ZMod 101)).verify B101 ⟨3, 30⟩ ⟨[42], 42⟩ 31 0 (Transcript.new "x") :=
  C96_commitment_zero_base B101 ⟨7, 22, 37, 17⟩ 18 ⟨3, 30⟩ ⟨[42], 42⟩ 31 (Transcript.new "x")

/-- C96: the data hashed by the verifier determine a sum-of-squares proof, its context and statement. -/
theorem C96_sum_sq_unique (B : Backend F E) (hB : B.Lawful) (p₁ p₂ : SumOfSquaresProof F)
    (cts₁ cts₂ : List (Ciphertext E)) (z₁ z₂ : Ciphertext E) (K₁ K₂ : PublicKey E) (t₁ t₂ t' : Transcript)
    (hK₁ : WellFormedKey B K₁) (hK₂ : WellFormedKey B K₂)
    (h₁ : p₁.verify B cts₁ z₁ K₁ t₁ = some (.ok (), t')) (h₂ : p₂.verify B cts₂ z₂ K₂ t₂ = some (.ok (), t')) :
    p₁ = p₂ ∧ t₁ = t₂ ∧ K₁.element = K₂.element ∧ cts₁ = cts₂ ∧ z₁ = z₂ := by
  obtain ⟨ps, hp, hl⟩ := SumOfSquaresProof.verify_ok h₁
  obtain ⟨ps', hp', hl'⟩ := SumOfSquaresProof.verify_ok h₂
  rw [hp] at h₁
  rw [hp'] at h₂
  obtain ⟨items, rz, z, u, v, hi, hrz, hz, hu, hv, rfl, hc⟩ := (SumOfSquaresProof.verify_eq_some hl).mp h₁
  obtain ⟨items', rz', z', u', v', hi', hrz', hz', hu', hv', ht, hc'⟩ := (SumOfSquaresProof.verify_eq_some hl').mp h₂
  have hc := checkChallenge_ok.mp hc.symm
  have hc' := checkChallenge_ok.mp hc'.symm
  simp only [Transcript.mk.injEq] at ht
  obtain ⟨e1, e2, rfl, rfl, rfl, rfl, rfl⟩ := sumSqQuery_inj ht
  have hc0 : p₁.challenge = p₂.challenge := by rw [← hc, ← hc', ht]
  have hK : K₁.element = K₂.element := by
    unfold WellFormedKey at hK₁ hK₂
    rw [e2, hK₂] at hK₁
    exact (Option.some.inj hK₁).symm
  have hzz : z₁ = z₂ := Ciphertext.ext (hB.serElem_inj hrz hrz') (hB.serElem_inj hz hz')
  rw [forall₂_zip hl] at hi
  rw [forall₂_zip hl'] at hi'
  have hcts : cts₁ = cts₂ := by
    refine List.ext_getElem (by omega) fun i h1 h2 => ?_
    obtain ⟨a1, a2, -, -⟩ := hi.2 i (by omega) h1 (by omega)
    obtain ⟨b1, b2, -, -⟩ := hi'.2 i (by omega) h2 (by omega)
    exact Ciphertext.ext (hB.serElem_inj a1 b1) (hB.serElem_inj a2 b2)
  subst hcts hzz
  have hps : ps = ps' := by
    refine List.ext_getElem (by omega) fun i h1 h2 => ?_
    obtain ⟨-, -, a1, a2⟩ := hi.2 i (by omega) (by omega) (by omega)
    obtain ⟨-, -, b1, b2⟩ := hi'.2 i (by omega) (by omega) (by omega)
    have g1 := hB.serElem_inj a1 b1
    have g2 := hB.serElem_inj a2 b2
    dsimp only at g1 g2
    rw [hc0] at g1 g2
    have r1 := smul_gen_cancel hB g1
    rw [r1, hK] at g2
    exact Prod.ext r1 (hB.smul_gen_inj (by linear_combination (norm := module) g2))
  subst hps
  have g := hB.serElem_inj hu hu'
  rw [hc0] at g
  have hs : p₁.sumResponse = p₂.sumResponse := hB.smul_gen_inj (by linear_combination (norm := module) g)
  refine ⟨?_, transcript_ext e1, hK, rfl, rfl⟩
  rw [hp, hp', hc0, hs]

example : ∃ t', (⟨7, [3, 4], 5⟩ : SumOfSquaresProof (ZMod 101)).verify (B101.withHash fun _ => 7) [⟨1, 43⟩] ⟨1, 43⟩
      ⟨[42], 42⟩ (Transcript.new "x") = some (.ok (), t') ∧
    ∀ p : SumOfSquaresProof (ZMod 101), p.verify (B101.withHash fun _ => 7) [⟨1, 43⟩] ⟨1, 43⟩ ⟨[42], 42⟩
      (Transcript.new "x") = some (.ok (), t') → p = ⟨7, [3, 4], 5⟩ := by
  obtain ⟨t', h⟩ := sumSq_accepted_const ⟨1, 43⟩ ⟨1, 43⟩
  exact ⟨t', h, fun p h' => (C96_sum_sq_unique (B101.withHash fun _ => 7) (B101_lawful.withHash _) p _ _ _ _ _ _ _ _ _ t'
    (by unfold WellFormedKey; decide) (by unfold WellFormedKey; decide) h' h).1⟩

section Probability

variable [Fintype F]

/-- C96: the challenge of an accepted log equality proof determines the proof and its place, except with the probability
of a collision. -/
theorem C96_log_eq_challenge (B : Backend F E) (hB : B.Lawful)
    (adv : OracleAlg (List Entry) F ((LogEqualityProof F × PublicKey E × (E × E) × Transcript) ×
      (LogEqualityProof F × PublicKey E × (E × E) × Transcript))) (q : ℕ) (hq : adv.AtMost q) :
    ProbLe (fun H => ∃ p₁ K₁ powers₁ t₁ p₂ K₂ powers₂ t₂ t₁' t₂',
        adv.run H = ((p₁, K₁, powers₁, t₁), (p₂, K₂, powers₂, t₂)) ∧ WellFormedKey B K₁ ∧ WellFormedKey B K₂ ∧
        p₁.verify (B.withHash H) K₁ powers₁ t₁ = some (.ok (), t₁') ∧
        p₂.verify (B.withHash H) K₂ powers₂ t₂ = some (.ok (), t₂') ∧ p₁.challenge = p₂.challenge ∧
        (p₁ ≠ p₂ ∨ t₁ ≠ t₂ ∨ K₁.element ≠ K₂.element ∨ powers₁ ≠ powers₂))
      (collisionBound (Fintype.card F) (q + 2)) := by
  refine probLe_replay (m₁ := 1) (m₂ := 1) hq (fun o => logAlg (o.1.1.verify B o.1.2.1 o.1.2.2.1 o.1.2.2.2))
    (fun o => logAlg (o.2.1.verify B o.2.2.1 o.2.2.2.1 o.2.2.2.2)) (fun _ => logAlg_atMost _)
    (fun _ => logAlg_atMost _) ?_
  rintro H ⟨p₁, K₁, powers₁, t₁, p₂, K₂, powers₂, t₂, t₁', t₂', hrun, hK₁, hK₂, h₁, h₂, hc, hne⟩
  obtain ⟨r₁, e₁⟩ := LogEqualityProof.verify_log h₁
  obtain ⟨r₂, e₂⟩ := LogEqualityProof.verify_log h₂
  rw [hrun]
  refine ⟨_, mem_logAlg e₁ H, _, mem_logAlg e₂ H, fun hl => ?_, ?_⟩
  · obtain rfl := transcript_ext hl
    have := C96_log_eq_unique (B.withHash H) (hB.withHash H) p₁ p₂ K₁ K₂ powers₁ powers₂ t₁ t₂ _ hK₁ hK₂ h₁ h₂
    tauto
  · obtain ⟨_, _, _, _, _, _, _, _, rfl, c₁⟩ := LogEqualityProof.verify_eq_some.mp h₁
    obtain ⟨_, _, _, _, _, _, _, _, rfl, c₂⟩ := LogEqualityProof.verify_eq_some.mp h₂
    exact ((checkChallenge_ok.mp c₁.symm).trans hc).trans (checkChallenge_ok.mp c₂.symm).symm

example := C96_log_eq_challenge B101 B101_lawful
  (.ask [] fun a => .done ((⟨a, 3⟩, ⟨[42], 42⟩, (1, 1), Transcript.new "x"),
    (⟨a, 4⟩, ⟨[42], 42⟩, (1, 1), Transcript.new "x"))) 1 fun _ => trivial

/-- The event is possible: for a constant hash function two proofs with the same challenge are accepted. -/
example : ∃ (H : List Entry → ZMod 101) (p₁ p₂ : LogEqualityProof (ZMod 101)) (t₁' t₂' : Transcript),
    p₁.verify (B101.withHash H) ⟨[42], 42⟩ (1, 1) (Transcript.new "x") = some (.ok (), t₁') ∧
    p₂.verify (B101.withHash H) ⟨[42], 42⟩ (1, 1) (Transcript.new "x") = some (.ok (), t₂') ∧
    p₁.challenge = p₂.challenge ∧ p₁ ≠ p₂ :=
  ⟨fun _ => 7, ⟨7, 38⟩, ⟨7, 39⟩, _, _, rfl, rfl, rfl, by decide⟩

/-- C96: the same for proofs of possession of equally many keys. -/
theorem C96_pop_challenge (B : Backend F E) (hB : B.Lawful)
    (adv : OracleAlg (List Entry) F ((ProofOfPossession F × List (PublicKey E) × Transcript) ×
      (ProofOfPossession F × List (PublicKey E) × Transcript))) (q : ℕ) (hq : adv.AtMost q) :
    ProbLe (fun H => ∃ p₁ pks₁ t₁ p₂ pks₂ t₂ t₁' t₂', adv.run H = ((p₁, pks₁, t₁), (p₂, pks₂, t₂)) ∧
        pks₁.length = pks₂.length ∧ (∀ pk ∈ pks₁, WellFormedKey B pk) ∧ (∀ pk ∈ pks₂, WellFormedKey B pk) ∧
        p₁.verify (B.withHash H) pks₁ t₁ = some (.ok (), t₁') ∧
        p₂.verify (B.withHash H) pks₂ t₂ = some (.ok (), t₂') ∧ p₁.challenge = p₂.challenge ∧
        (p₁ ≠ p₂ ∨ t₁ ≠ t₂ ∨ pks₁.map (·.element) ≠ pks₂.map (·.element)))
      (collisionBound (Fintype.card F) (q + 2)) := by
  refine probLe_replay (m₁ := 1) (m₂ := 1) hq (fun o => logAlg (o.1.1.verify B o.1.2.1 o.1.2.2))
    (fun o => logAlg (o.2.1.verify B o.2.2.1 o.2.2.2)) (fun _ => logAlg_atMost _) (fun _ => logAlg_atMost _) ?_
  rintro H ⟨p₁, pks₁, t₁, p₂, pks₂, t₂, t₁', t₂', hrun, hl, hK₁, hK₂, h₁, h₂, hc, hne⟩
  obtain ⟨r₁, e₁⟩ := ProofOfPossession.verify_log h₁
  obtain ⟨r₂, e₂⟩ := ProofOfPossession.verify_log h₂
  rw [hrun]
  refine ⟨_, mem_logAlg e₁ H, _, mem_logAlg e₂ H, fun hl' => ?_, ?_⟩
  · obtain rfl := transcript_ext hl'
    have := C96_pop_unique (B.withHash H) (hB.withHash H) p₁ p₂ pks₁ pks₂ hl t₁ t₂ _ hK₁ hK₂ h₁ h₂
    tauto
  · obtain ⟨_, _, rfl, c₁⟩ := (ProofOfPossession.verify_eq_some (ProofOfPossession.verify_ok h₁)).mp h₁
    obtain ⟨_, _, rfl, c₂⟩ := (ProofOfPossession.verify_eq_some (ProofOfPossession.verify_ok h₂)).mp h₂
    exact ((checkChallenge_ok.mp c₁.symm).trans hc).trans (checkChallenge_ok.mp c₂.symm).symm

example := C96_pop_challenge B101 B101_lawful
  (.ask [] fun a => .done ((⟨a, [3]⟩, [⟨[42], 42⟩], Transcript.new "x"), (⟨a, [4]⟩, [⟨[42], 42⟩], Transcript.new "x"))) 1
  fun _ => trivial

/-- C96: the same for commitment equivalence proofs with a blinding base other than the identity. -/
theorem C96_commitment_challenge (B : Backend F E) (hB : B.Lawful) (base : E) (hbase : base ≠ 0)
    (adv : OracleAlg (List Entry) F ((CommitmentEquivalenceProof F × Ciphertext E × PublicKey E × E × Transcript) ×
      (CommitmentEquivalenceProof F × Ciphertext E × PublicKey E × E × Transcript))) (q : ℕ) (hq : adv.AtMost q) :
    ProbLe (fun H => ∃ p₁ ct₁ K₁ C₁ t₁ p₂ ct₂ K₂ C₂ t₂ t₁' t₂',
        adv.run H = ((p₁, ct₁, K₁, C₁, t₁), (p₂, ct₂, K₂, C₂, t₂)) ∧ WellFormedKey B K₁ ∧ WellFormedKey B K₂ ∧
        p₁.verify (B.withHash H) ct₁ K₁ C₁ base t₁ = some (.ok (), t₁') ∧
        p₂.verify (B.withHash H) ct₂ K₂ C₂ base t₂ = some (.ok (), t₂') ∧ p₁.challenge = p₂.challenge ∧
        (p₁ ≠ p₂ ∨ t₁ ≠ t₂ ∨ ct₁ ≠ ct₂ ∨ K₁.element ≠ K₂.element ∨ C₁ ≠ C₂))
      (collisionBound (Fintype.card F) (q + 2)) := by
  refine probLe_replay (m₁ := 1) (m₂ := 1) hq
    (fun o => logAlg (o.1.1.verify B o.1.2.1 o.1.2.2.1 o.1.2.2.2.1 base o.1.2.2.2.2))
    (fun o => logAlg (o.2.1.verify B o.2.2.1 o.2.2.2.1 o.2.2.2.2.1 base o.2.2.2.2.2)) (fun _ => logAlg_atMost _)
    (fun _ => logAlg_atMost _) ?_
  rintro H ⟨p₁, ct₁, K₁, C₁, t₁, p₂, ct₂, K₂, C₂, t₂, t₁', t₂', hrun, hK₁, hK₂, h₁, h₂, hc, hne⟩
  obtain ⟨r₁, e₁⟩ := CommitmentEquivalenceProof.verify_log h₁
  obtain ⟨r₂, e₂⟩ := CommitmentEquivalenceProof.verify_log h₂
  rw [hrun]
  refine ⟨_, mem_logAlg e₁ H, _, mem_logAlg e₂ H, fun hl => ?_, ?_⟩
  · obtain rfl := transcript_ext hl
    have := C96_commitment_unique (B.withHash H) (hB.withHash H) p₁ p₂ ct₁ ct₂ K₁ K₂ C₁ C₂ base t₁ t₂ _ hK₁ hK₂ h₁ h₂
    tauto
  · obtain ⟨_, _, _, _, _, _, _, _, _, _, _, _, rfl, c₁⟩ := CommitmentEquivalenceProof.verify_eq_some.mp h₁
    obtain ⟨_, _, _, _, _, _, _, _, _, _, _, _, rfl, c₂⟩ := CommitmentEquivalenceProof.verify_eq_some.mp h₂
    exact ((checkChallenge_ok.mp c₁.symm).trans hc).trans (checkChallenge_ok.mp c₂.symm).symm

example := C96_commitment_challenge B101 B101_lawful 13 (by decide)
  (.ask [] fun a => .done ((⟨a, 2, 3, 4⟩, ⟨3, 30⟩, ⟨[42], 42⟩, 31, Transcript.new "x"),
    (⟨a, 2, 3, 5⟩, ⟨3, 30⟩, ⟨[42], 42⟩, 31, Transcript.new "x"))) 1 fun _ => trivial

/-- C96: the same for sum-of-squares proofs. -/
theorem C96_sum_sq_challenge (B : Backend F E) (hB : B.Lawful)
    (adv : OracleAlg (List Entry) F
      ((SumOfSquaresProof F × List (Ciphertext E) × Ciphertext E × PublicKey E × Transcript) ×
      (SumOfSquaresProof F × List (Ciphertext E) × Ciphertext E × PublicKey E × Transcript))) (q : ℕ)
    (hq : adv.AtMost q) :
    ProbLe (fun H => ∃ p₁ cts₁ z₁ K₁ t₁ p₂ cts₂ z₂ K₂ t₂ t₁' t₂',
        adv.run H = ((p₁, cts₁, z₁, K₁, t₁), (p₂, cts₂, z₂, K₂, t₂)) ∧ WellFormedKey B K₁ ∧ WellFormedKey B K₂ ∧
        p₁.verify (B.withHash H) cts₁ z₁ K₁ t₁ = some (.ok (), t₁') ∧
        p₂.verify (B.withHash H) cts₂ z₂ K₂ t₂ = some (.ok (), t₂') ∧ p₁.challenge = p₂.challenge ∧
        (p₁ ≠ p₂ ∨ t₁ ≠ t₂ ∨ K₁.element ≠ K₂.element ∨ cts₁ ≠ cts₂ ∨ z₁ ≠ z₂))
      (collisionBound (Fintype.card F) (q + 2)) := by
  refine probLe_replay (m₁ := 1) (m₂ := 1) hq
    (fun o => logAlg (o.1.1.verify B o.1.2.1 o.1.2.2.1 o.1.2.2.2.1 o.1.2.2.2.2))
    (fun o => logAlg (o.2.1.verify B o.2.2.1 o.2.2.2.1 o.2.2.2.2.1 o.2.2.2.2.2)) (fun _ => logAlg_atMost _)
    (fun _ => logAlg_atMost _) ?_
  rintro H ⟨p₁, cts₁, z₁, K₁, t₁, p₂, cts₂, z₂, K₂, t₂, t₁', t₂', hrun, hK₁, hK₂, h₁, h₂, hc, hne⟩
  obtain ⟨r₁, e₁⟩ := SumOfSquaresProof.verify_log h₁
  obtain ⟨r₂, e₂⟩ := SumOfSquaresProof.verify_log h₂
  rw [hrun]
  refine ⟨_, mem_logAlg e₁ H, _, mem_logAlg e₂ H, fun hl => ?_, ?_⟩
  · obtain rfl := transcript_ext hl
    have := C96_sum_sq_unique (B.withHash H) (hB.withHash H) p₁ p₂ cts₁ cts₂ z₁ z₂ K₁ K₂ t₁ t₂ _ hK₁ hK₂ h₁ h₂
    tauto
  · obtain ⟨ps₁, q₁, l₁⟩ := SumOfSquaresProof.verify_ok h₁
    obtain ⟨ps₂, q₂, l₂⟩ := SumOfSquaresProof.verify_ok h₂
    rw [q₁] at h₁
    rw [q₂] at h₂
    obtain ⟨_, _, _, _, _, _, _, _, _, _, rfl, c₁⟩ := (SumOfSquaresProof.verify_eq_some l₁).mp h₁
    obtain ⟨_, _, _, _, _, _, _, _, _, _, rfl, c₂⟩ := (SumOfSquaresProof.verify_eq_some l₂).mp h₂
    exact ((checkChallenge_ok.mp c₁.symm).trans hc).trans (checkChallenge_ok.mp c₂.symm).symm

example := C96_sum_sq_challenge B101 B101_lawful
  (.ask [] fun a => .done ((⟨a, [3, 4], 5⟩, [⟨1, 43⟩], ⟨1, 43⟩, ⟨[42], 42⟩, Transcript.new "x"),
    (⟨a, [3, 4], 6⟩, [⟨1, 43⟩], ⟨1, 43⟩, ⟨[42], 42⟩, Transcript.new "x"))) 1 fun _ => trivial

end Probability

/-- C96, ring proofs: whoever knows the randomness of an encryption of the second of two values can make accepted proofs
with any first response, all of them with the same challenge and the same hashed data. -/
theorem C96_ring_not_unique (B : Backend F E) (hT : B.TotalSer) (K : PublicKey E) (v₀ v₁ : E) (r x : F) (t : Transcript) :
    ∃ c t', ∀ s₀, ∃ s₁, (⟨c, [s₀, s₁]⟩ : RingProof F).verify B K [[v₀, v₁]] [⟨r • B.gen, r • K.element + v₁⟩] t =
      some (.ok (), t') := by
  obtain ⟨enc, henc⟩ := Ciphertext.toBytes_total hT ⟨r • B.gen, r • K.element + v₁⟩
  obtain ⟨t1, h1⟩ := Backend.appendElement_total hT (RingProof.initializeTranscript t K) "R_G" (x • B.gen)
  obtain ⟨t2, h2⟩ := Backend.appendElement_total hT t1 "R_K" (x • K.element)
  refine ⟨(B.challengeScalar t2 "c").1, (B.challengeScalar t2 "c").2, fun s₀ => ?_⟩
  generalize hc : (B.challengeScalar t2 "c").1 = c
  have hchal : ∃ c₁, ringChal B (Ring.ringTranscript (RingProof.initializeTranscript t K) enc 0).log 0
      (ringComm B K.element ⟨r • B.gen, r • K.element + v₁⟩ v₀ s₀ c) = some c₁ := by
    obtain ⟨a, ha⟩ := hT (ringComm B K.element ⟨r • B.gen, r • K.element + v₁⟩ v₀ s₀ c).1
    obtain ⟨b, hb⟩ := hT (ringComm B K.element ⟨r • B.gen, r • K.element + v₁⟩ v₀ s₀ c).2
    exact ⟨_, ringChal_eq_some.mpr ⟨a, b, ha, hb, rfl⟩⟩
  obtain ⟨c₁, hc₁⟩ := hchal
  have hlast : ringComm B K.element ⟨r • B.gen, r • K.element + v₁⟩ v₁ (x + c₁ * r) c₁ = (x • B.gen, x • K.element) := by
    simp only [ringComm, Prod.mk.injEq]
    constructor <;> module
  refine ⟨x + c₁ * r, (RingProof.verify_eq_some rfl).mpr ⟨t2, ?_, rfl, ?_⟩⟩
  · have hloop : RingProof.verifyRingLoop B K ⟨r • B.gen, r • K.element + v₁⟩
        (Ring.ringTranscript (RingProof.initializeTranscript t K) enc 0) 2 0 [(v₀, s₀), (v₁, x + c₁ * r)] c
        (B.gen, B.gen) = some (x • B.gen, x • K.element) := by
      rw [RingProof.verifyRingLoop_cons_lt (by omega), hc₁, Option.bind_some,
        RingProof.verifyRingLoop_cons_last (by omega), hlast]
      rfl
    unfold Ring.ringTranscript at hloop
    simp [RingProof.verifyLoop, henc, hloop, h1, h2]
  · exact (checkChallenge_ok.mpr hc).symm

/-- Changing the first response of an accepted ring proof gives another accepted proof with the same final transcript. -/
example : ∃ c t', ∀ s₀ : ZMod 101, ∃ s₁, (⟨c, [s₀, s₁]⟩ : RingProof (ZMod 101)).verify B101 ⟨[42], 42⟩ [[0, 1]]
    [⟨5 • 1, (5 : ZMod 101) • 42 + 1⟩] (Transcript.new "x") = some (.ok (), t') :=
  C96_ring_not_unique B101 B101_total ⟨[42], 42⟩ 0 1 5 9 (Transcript.new "x")

end ElasticElgamal
