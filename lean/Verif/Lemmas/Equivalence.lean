import Verif.Spec.Equivalence
import Verif.Lemmas.VotingPrivacy
import Verif.Props.Commitment

/-!
# Simulation of commitment equivalence proofs
-/

set_option autoImplicit false
set_option linter.unusedSectionVars false

namespace ElasticElgamal

open Spec

variable {F E : Type} [Field F] [AddCommGroup E] [Module F E] [DecidableEq F] [DecidableEq E]

/-- Data hashed for a proof about given group elements. -/
def commitmentData (B : Backend F E) (ctx : List Entry) (p : E × E × E × E × E × E × E) : List Entry :=
  commitmentQuery ctx (encOf B p.1) (encOf B p.2.1) (encOf B p.2.2.1) (encOf B p.2.2.2.1) (encOf B p.2.2.2.2.1)
    (encOf B p.2.2.2.2.2.1) (encOf B p.2.2.2.2.2.2)

theorem commitmentData_finite [Finite E] (B : Backend F E) (t : Transcript) :
    (Set.range (commitmentData B t.log)).Finite :=
  Set.finite_range _

theorem commitmentPoint_spec (B : Backend F E) (hT : B.TotalSer) (K : PublicKey E) (hK : K.bytes = encOf B K.element)
    (base : E) (t : Transcript) (ct : Ciphertext E) (C : E) (proof : CommitmentEquivalenceProof F) :
    ∃ p, (∀ H, commitmentPoint (B.withHash H) K base t ct C proof = [(commitmentData B t.log p, proof.challenge)]) ∧
      ∀ H, (∃ t', proof.verify (B.withHash H) ct K C base t = some (.ok (), t')) ↔
        H (commitmentData B t.log p) = proof.challenge := by
  refine ⟨(K.element, ct.random, ct.blinded, C, proof.randomnessResponse • B.gen - proof.challenge • ct.random,
    proof.valueResponse • B.gen + proof.randomnessResponse • K.element - proof.challenge • ct.blinded,
    proof.valueResponse • B.gen + proof.commitmentResponse • base - proof.challenge • C), ?_⟩
  have key : ∀ H, proof.verify (B.withHash H) ct K C base t = some (checkChallenge (H (commitmentData B t.log
      (K.element, ct.random, ct.blinded, C, proof.randomnessResponse • B.gen - proof.challenge • ct.random,
    proof.valueResponse • B.gen + proof.randomnessResponse • K.element - proof.challenge • ct.blinded,
    proof.valueResponse • B.gen + proof.commitmentResponse • base - proof.challenge • C))) proof.challenge,
      ⟨commitmentData B t.log
      (K.element, ct.random, ct.blinded, C, proof.randomnessResponse • B.gen - proof.challenge • ct.random,
    proof.valueResponse • B.gen + proof.randomnessResponse • K.element - proof.challenge • ct.blinded,
    proof.valueResponse • B.gen + proof.commitmentResponse • base - proof.challenge • C)⟩) := by
    intro H
    obtain ⟨⟨res, t'⟩, h⟩ := C50_commitment_verify_total (B.withHash H) hT proof ct K C base t
    rw [h]
    obtain ⟨r, b, c, x, y, z, hr, hb, hc, hx, hy, hz, rfl, rfl⟩ := CommitmentEquivalenceProof.verify_eq_some.mp h
    simp only [commitmentData, ← hK]
    rw [encOf_eq (B := B) hr, encOf_eq (B := B) hb, encOf_eq (B := B) hc, encOf_eq (B := B) hx, encOf_eq (B := B) hy,
      encOf_eq (B := B) hz]
  constructor
  · intro H
    simp only [commitmentPoint, key H]
  · intro H
    simp only [key H, Option.some.injEq, Prod.mk.injEq, checkChallenge_ok]
    exact ⟨fun ⟨_, h, _⟩ => h, fun h => ⟨_, h, rfl⟩⟩

variable [Fintype F]

theorem commitmentPoint_programmable (B : Backend F E) (hT : B.TotalSer) [Finite E] (K : PublicKey E)
    (hK : K.bytes = encOf B K.element) (base : E) (t : Transcript) {S : Type} [Fintype S] (ct : S → Ciphertext E)
    (C : S → E) (proof : S → CommitmentEquivalenceProof F) (D : Finset (List Entry))
    (hD : (commitmentData_finite B t).toFinset ⊆ D) :
    Programmable (fun H s => commitmentPoint (B.withHash H) K base t (ct s) (C s) (proof s)) 1 D ∧
    ∀ H s, ((commitmentPoint (B.withHash H) K base t (ct s) (C s) (proof s)).map Prod.fst).Nodup := by
  refine ⟨⟨?_, ?_, ?_⟩, ?_⟩
  · intro H H' s _
    obtain ⟨p, h, -⟩ := commitmentPoint_spec B hT K hK base t (ct s) (C s) (proof s)
    rw [h, h]
  · intro H s
    obtain ⟨p, h, -⟩ := commitmentPoint_spec B hT K hK base t (ct s) (C s) (proof s)
    rw [h]; rfl
  · intro H s qa hqa
    obtain ⟨p, h, -⟩ := commitmentPoint_spec B hT K hK base t (ct s) (C s) (proof s)
    rw [h, List.mem_singleton] at hqa
    subst hqa
    exact hD ((Set.Finite.mem_toFinset _).mpr ⟨p, rfl⟩)
  · intro H s
    obtain ⟨p, h, -⟩ := commitmentPoint_spec B hT K hK base t (ct s) (C s) (proof s)
    simp [h]

/-- Scalars of a proof. -/
def makeEquivalence (p : F × F × F × F) : CommitmentEquivalenceProof F := ⟨p.1, p.2.1, p.2.2.1, p.2.2.2⟩

theorem equivalenceOutput_eq (B : Backend F E) (K : PublicKey E) (base : E) (t : Transcript) (value : F)
    (tape : Fin 5 → F) :
    equivalenceOutput B K base t value (List.ofFn tape) =
      (CommitmentEquivalenceProof.new B.withTape
        (⟨⟨⟨tape 0 • B.gen, value • B.gen + tape 0 • K.element⟩, tape 0⟩, value⟩ : CiphertextWithValue F E) K (tape 1) base t
        [tape 2, tape 3, tape 4]).map fun o =>
          ((⟨tape 0 • B.gen, value • B.gen + tape 0 • K.element⟩ : Ciphertext E), o.1.2, o.1.1) := by
  have h : List.ofFn tape = [tape 0, tape 1, tape 2, tape 3, tape 4] := by
    simp [List.ofFn_succ]
  rw [h]
  simp only [equivalenceOutput, Option.bind_eq_bind, Option.pure_def, Option.map_eq_bind]
  rfl

theorem equivalence_simulation (B : Backend F E) (hB : B.Lawful) (hT : B.TotalSer) [Finite E] (K : PublicKey E)
    (hK : K.bytes = encOf B K.element) (base : E) (hbase : base ≠ 0) (t : Transcript) (D : Finset (List Entry))
    (hD : (commitmentData_finite B t).toFinset ⊆ D) (H₀ : List Entry → F) (value : F)
    (guess : (List Entry → F) → PublicKey E → Option (Ciphertext E × E × CommitmentEquivalenceProof F) → ℚ) :
    (meanHash D H₀ fun H => mean fun tape : Fin 5 → F =>
      guess H K (equivalenceOutput (B.withHash H) K base t value (List.ofFn tape))) =
    mean fun r : F => simulatedEquivalence B D H₀ base t guess K
      fun _ => ⟨r • B.gen, value • B.gen + r • K.element⟩ := by
  obtain ⟨hp, hnd⟩ := commitmentPoint_programmable B hT K hK base t
    (S := F × F × (F × F × F × F)) (fun s => ⟨s.1 • B.gen, value • B.gen + s.1 • K.element⟩)
    (fun s => value • B.gen + s.2.1 • base) (fun s => makeEquivalence s.2.2) D hD
  have hout : ∀ H (s : F × F × (F × F × F × F)), Has H (commitmentPoint (B.withHash H) K base t
      ⟨s.1 • B.gen, value • B.gen + s.1 • K.element⟩ (value • B.gen + s.2.1 • base) (makeEquivalence s.2.2)) ↔
      ∃ t', (makeEquivalence s.2.2).verify (B.withHash H) ⟨s.1 • B.gen, value • B.gen + s.1 • K.element⟩ K
        (value • B.gen + s.2.1 • base) base t = some (.ok (), t') := by
    intro H s
    obtain ⟨p, h1, h2⟩ := commitmentPoint_spec B hT K hK base t ⟨s.1 • B.gen, value • B.gen + s.1 • K.element⟩
      (value • B.gen + s.2.1 • base) (makeEquivalence s.2.2)
    rw [h1, h2]
    simp [Has]
  have hsmul : ∀ {a b : F}, a • base = b • base → a = b := fun {a b} h => smul_left_injective F hbase h
  have h := rom_simulation hp hnd H₀
    (fun H (tape : Fin 5 → F) => equivalenceOutput (B.withHash H) K base t value (List.ofFn tape))
    (fun s => some (⟨s.1 • B.gen, value • B.gen + s.1 • K.element⟩, value • B.gen + s.2.1 • base, makeEquivalence s.2.2))
    ?_ ?_ ?_ ?_ (fun H => guess H K)
  · rw [h, mean_prod]
    refine congrArg mean (funext fun r => ?_)
    rw [mean_prod, simulatedEquivalence]
    obtain ⟨d, rfl⟩ := hB.gen_spans base
    have hd : d ≠ 0 := by rintro rfl; simp at hbase
    refine Eq.trans ?_ (mean_equiv ((Equiv.mulRight₀ d hd).trans (Equiv.addLeft value)) _)
    refine congrArg mean (funext fun b => ?_)
    have hb : ((Equiv.mulRight₀ d hd).trans (Equiv.addLeft value)) b • B.gen = value • B.gen + b • d • B.gen := by
      simp only [Equiv.trans_apply, Equiv.mulRight₀_apply, Equiv.coe_addLeft, add_smul, mul_smul]
    rw [hb]
    rfl
  · rintro ⟨r, b, p⟩ ⟨r', b', p'⟩ h
    simp only [Option.some.injEq, Prod.mk.injEq, Ciphertext.mk.injEq, add_right_inj, makeEquivalence,
      CommitmentEquivalenceProof.mk.injEq] at h
    obtain ⟨⟨h1, -⟩, h2, h3, h4, h5, h6⟩ := h
    exact Prod.ext (hB.smul_gen_inj h1) (Prod.ext (hsmul h2) (Prod.ext h3 (Prod.ext h4 (Prod.ext h5 h6))))
  · rintro H ⟨r, b, p⟩ hh
    obtain ⟨t', hv⟩ := (hout H (r, b, p)).mp hh
    obtain ⟨⟨x, y, z⟩, hn, hu⟩ := C51_commitment_zk (B.withHash H)
      (⟨⟨⟨r • B.gen, value • B.gen + r • K.element⟩, r⟩, value⟩ : CiphertextWithValue F E) K b base ⟨rfl, rfl⟩ _ t t' hv
    refine ⟨![r, b, x, y, z], ?_, ?_⟩
    · simp only [equivalenceOutput_eq]
      exact congrArg _ hn
    · intro tape ht
      simp only [equivalenceOutput_eq] at ht
      obtain ⟨⟨⟨proof, C⟩, t2, rest⟩, hnew, ho⟩ := Option.map_eq_some_iff.mp ht
      simp only [Prod.mk.injEq, Ciphertext.mk.injEq] at ho
      obtain ⟨⟨h1, -⟩, rfl, rfl⟩ := ho
      have h1 : tape 0 = r := hB.smul_gen_inj h1
      have h2 : tape 1 = b := by
        obtain ⟨-, -, -, -, -, -, hC, -⟩ := CommitmentEquivalenceProof.new_eq_some.mp hnew
        exact (hsmul (add_right_injective _ hC)).symm
      rw [h1, h2] at hnew
      have hc := (C17_commitment_complete (B.withHash H).withTape _ K b base _ ⟨rfl, rfl⟩ t t2 _ _ _ hnew).1
      have hc' : (makeEquivalence p).verify (B.withHash H) ⟨r • B.gen, value • B.gen + r • K.element⟩ K
        (value • B.gen + b • base) base t = some (.ok (), t2) := hc
      rw [hv] at hc'
      obtain rfl : t' = t2 := (Prod.mk.inj (Option.some.inj hc')).2
      have hrest : rest = [] := by
        obtain ⟨-, -, -, -, -, -, -, -, -, -, -, -, -, -, -, -, -, -, h⟩ := CommitmentEquivalenceProof.new_eq_some.mp hnew
        exact h
      subst hrest
      have h3 := hu (tape 2, tape 3, tape 4) hnew
      simp only [Prod.mk.injEq] at h3
      funext i
      fin_cases i
      · exact h1
      · exact h2
      · exact h3.1
      · exact h3.2.1
      · exact h3.2.2
  · intro H tape
    obtain ⟨⟨⟨proof, C⟩, t2, rest⟩, hnew⟩ := C17_commitment_new_total (B.withHash H).withTape hT
      (⟨⟨⟨tape 0 • B.gen, value • B.gen + tape 0 • K.element⟩, tape 0⟩, value⟩ : CiphertextWithValue F E) K (tape 1) base t
      [tape 2, tape 3, tape 4]
    obtain ⟨hc, -, -, hC⟩ := C17_commitment_complete (B.withHash H).withTape _ K (tape 1) base C ⟨rfl, rfl⟩ t t2 _ _ _ hnew
    refine ⟨(tape 0, tape 1, proof.challenge, proof.randomnessResponse, proof.valueResponse, proof.commitmentResponse),
      (hout H _).mpr ⟨t2, ?_⟩, ?_⟩
    · have hC' : C = value • B.gen + tape 1 • base := hC
      rw [← hC']
      exact hc
    · simp only [equivalenceOutput_eq]
      have hC' : C = value • B.gen + tape 1 • base := hC
      rw [← hC']
      exact congrArg _ hnew
  · simp only [Fintype.card_prod, Fintype.card_pi, Finset.prod_const, Finset.card_univ, Fintype.card_fin]
    ring

end ElasticElgamal
