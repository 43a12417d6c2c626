import Verif.Lemmas.Equivalence
import Verif.Lemmas.Examples
import Verif.Props.Knowledge
import Verif.Props.Privacy

/-!
# C88: commitment equivalence and sum-of-squares proofs in applications
-/

set_option autoImplicit false
set_option linter.unusedSectionVars false

namespace ElasticElgamal

open Spec Toy Examples

variable {F E : Type} [Field F] [AddCommGroup E] [Module F E] [DecidableEq F] [DecidableEq E]

/-! ## The example program -/

/-- C88: if the argument is missing or the decimal notation of a 64-bit number, the example program does not panic: the
commitments of both crates agree and both proofs are accepted, with one transcript for both. The printed ciphertext is decrypted by the secret key
to the value, and the printed commitment is a Pedersen commitment to the value. -/
theorem C88_example (B : Backend F E) (hB : B.Lawful) (hT : B.TotalSer) (bp : Bulletproofs B.Rng)
    (hbp : LawfulBulletproofs B bp) (arg : Option (List Char)) (v : ℕ)
    (hv : (arg = none ∧ v = 424242) ∨ ∃ s, arg = some s ∧ Numeral s v) (rng : B.Rng) :
    ∃ (out : EquivalenceOutput B bp) (rng' : B.Rng) (b : F), equivalence B bp arg rng = some (out, rng') ∧ out.value = v ∧
      PublicKey.ofSecret B (B.genScalar rng).1 = some out.receiver ∧
      SecretKey.decryptToElement (B.genScalar rng).1 out.ciphertext = (v : F) • B.gen ∧
      B.serElem ((v : F) • B.gen + b • hbp.point bp.blinding) = some out.commitment ∧
      ∃ t', out.equiv.verify B out.ciphertext out.receiver ((v : F) • B.gen + b • hbp.point bp.blinding)
          (hbp.point bp.blinding) (Transcript.new "equiv_and_bulletproof") = some (.ok (), t') ∧
        (bp.verifySingle out.range t' out.commitment).1 = true := by
  have hlt : v < 2 ^ 64 := by
    rcases hv with ⟨-, rfl⟩ | ⟨s, -, hs⟩
    · norm_num
    · obtain ⟨_, -, -, -, -, h⟩ := hs
      exact h
  have hval : parseValue arg = some v := by
    rcases hv with ⟨rfl, rfl⟩ | ⟨s, rfl, hs⟩
    · rfl
    · exact parseUsize_eq.mpr hs
  have hup : upgradePoint B bp bp.blinding = some (hbp.point bp.blinding) :=
    hB.deElem_serElem _ _ (hbp.compress_eq _)
  obtain ⟨kb, hkb⟩ := hT ((B.genScalar rng).1 • B.gen)
  have hpk : PublicKey.ofSecret B (B.genScalar rng).1 = some ⟨kb, (B.genScalar rng).1 • B.gen⟩ := by
    simp [PublicKey.ofSecret, PublicKey.fromElement, Backend.mulGen, hkb]
  set k := (B.genScalar rng).1 with hk
  set K : PublicKey E := ⟨kb, k • B.gen⟩ with hK
  set rng1 := (B.genScalar rng).2
  have hgen : Keypair.generate B rng = some (⟨k, K⟩, rng1) := by
    simp only [Keypair.generate, SecretKey.generate, ← hk, hpk, Option.bind_eq_bind, Option.bind_some, Option.pure_def]
    rfl
  set ct : CiphertextWithValue F E := (CiphertextWithValue.newU64 B v K rng1).1.generalize with hct
  set rng2 := (CiphertextWithValue.newU64 B v K rng1).2
  have hopen : ct.ciphertext.random = ct.randomness • B.gen ∧
      ct.ciphertext.blinded = ct.value • B.gen + ct.randomness • K.element := ⟨rfl, rfl⟩
  have hctv : ct.value = (v : F) := rfl
  set b := (B.genScalar rng2).1
  set rng3 := (B.genScalar rng2).2
  obtain ⟨⟨⟨equiv, C⟩, t', rng4⟩, hnew⟩ := C17_commitment_new_total B hT ct K b (hbp.point bp.blinding)
    (Transcript.new "equiv_and_bulletproof") rng3
  obtain ⟨hver, -, -, hC⟩ := C17_commitment_complete B ct K b _ C hopen _ _ _ _ _ hnew
  obtain ⟨proof, bytes, t2, rng5, t3, hprove, hser, hvs⟩ := hbp.complete t' v (downgradeScalar B bp b) rng4 hlt
  rw [downgradeScalar, hbp.scalar_bytes, ← hctv, ← hC] at hser
  refine ⟨⟨v, K, ct.ciphertext, bytes, equiv, proof⟩, rng5, b, ?_, rfl, hpk, ?_, by rw [← hctv, ← hC]; exact hser,
    t', by rw [← hctv, ← hC]; exact hver, by rw [hvs]⟩
  · have hverify : verifyEquivalence B bp ⟨v, K, ct.ciphertext, bytes, equiv, proof⟩ C = some () := by
      simp only [verifyEquivalence, hup, hver, Option.bind_eq_bind, Option.bind_some, hvs]
    simp only [equivalence, hgen, hval, hup, Option.bind_eq_bind, Option.bind_some, SecretKey.generate]
    show ((CommitmentEquivalenceProof.new B ct K b (hbp.point bp.blinding) (Transcript.new "equiv_and_bulletproof")
      rng3).bind _) = _
    rw [hnew]
    simp only [Option.bind_some, hser]
    show ((bp.proveSingle t' v (downgradeScalar B bp b) rng4).bind _) = _
    rw [hprove]
    simp only [Option.bind_some, guard, if_true, Option.pure_def]
    show ((verifyEquivalence B bp ⟨v, K, ct.ciphertext, bytes, equiv, proof⟩ C).bind _) = _
    rw [hverify]
    rfl
  · rw [SecretKey.decryptToElement, hopen.1, hopen.2, hctv]
    show _ + _ • k • B.gen - _ = _
    module

/-- C88: any other argument is a panic. -/
theorem C88_example_argument (B : Backend F E) (bp : Bulletproofs B.Rng) (s : List Char) (hs : ¬ ∃ v, Numeral s v)
    (rng : B.Rng) : equivalence B bp (some s) rng = none := by
  have hval : parseValue (some s) = none := by
    rw [parseValue]
    cases h : parseUsize s with
    | none => rfl
    | some v => exact absurd ⟨v, parseUsize_eq.mp h⟩ hs
  simp only [equivalence, hval, Option.bind_eq_bind, Option.bind_none]
  cases Keypair.generate B rng <;> rfl

/-- C88: the checks at the end of the example accept nothing but an accepted equivalence proof and a range proof accepted
with the transcript after it, for the blinding base of the range proofs. -/
theorem C88_example_verify (B : Backend F E) (hB : B.Lawful) (bp : Bulletproofs B.Rng) (hbp : LawfulBulletproofs B bp)
    (o : EquivalenceOutput B bp) (C : E) :
    verifyEquivalence B bp o C = some () ↔
      ∃ t', o.equiv.verify B o.ciphertext o.receiver C (hbp.point bp.blinding)
          (Transcript.new "equiv_and_bulletproof") = some (.ok (), t') ∧
        (bp.verifySingle o.range t' o.commitment).1 = true := by
  have hup : upgradePoint B bp bp.blinding = some (hbp.point bp.blinding) :=
    hB.deElem_serElem _ _ (hbp.compress_eq _)
  simp only [verifyEquivalence, hup, Option.bind_eq_bind, Option.bind_some, Option.bind_eq_some_iff]
  constructor
  · rintro ⟨⟨r, t'⟩, hv, h⟩
    match r, h with
    | .ok (), h =>
      refine ⟨t', hv, ?_⟩
      dsimp only at h
      cases hr : bp.verifySingle o.range t' o.commitment with
      | mk b t'' => cases b <;> simp [hr] at h ⊢
  · rintro ⟨t', hv, h⟩
    refine ⟨_, hv, ?_⟩
    dsimp only
    cases hr : bp.verifySingle o.range t' o.commitment with
    | mk b t'' => cases b <;> simp [hr] at h ⊢

/-! ## Ranges of encrypted values -/

section
variable [Fintype F]

/-- C88: a prover that knows an opening of a commitment with a 64-bit value (as accepted range proofs show), and proves
that a ciphertext is equivalent to the commitment, knows the randomness with which the ciphertext is an encryption of
this 64-bit value, or else finds the discrete logarithm of the blinding base. -/
theorem C88_range_knowledge {Ω : Type} [Fintype Ω] [Nonempty Ω] (B : Backend F E) (hB : B.Lawful) (base : E)
    (alg : Ω → OracleAlg (List Entry) F (RangedOutput F E)) (n : ℕ) (hn : ∀ ω, (alg ω).AtMost n) :
    Extractable alg (fun o => o.output.hashed B base) n (fun _ H o => o.Accepted B base H) fun _ o =>
      let (v, r, b) := CommitmentOutput.extract o.1.output o.2.output
      o.1.value < 2 ^ 64 ∧ (EncryptsWith B o.1.output.key.element o.1.output.ciphertext o.1.value r ∨
        base = (((o.1.value : F) - v) / (b - o.1.blinding)) • B.gen) := by
  refine forking alg hn (fun o => o.output.hashed B base) _ (fun _ o c =>
      (o.value < 2 ^ 64 ∧ o.output.commitment = (o.value : F) • B.gen + o.blinding • base) ∧
      WellFormedKey B o.output.key ∧ c = o.output.proof.challenge ∧
      ∃ r, o.output.proof.verify B o.output.ciphertext o.output.key o.output.commitment base o.output.context =
        some (r, ⟨o.output.hashed B base⟩))
    (fun _ H o => by rw [RangedOutput.Accepted, CommitmentOutput.accepted_iff, and_assoc]) _ ?_
  rintro - o o' c c' ⟨⟨hlt, hC⟩, ho⟩ ⟨-, ho'⟩ hpt hne
  have hfork := CommitmentOutput.fork B hB base ho ho' hpt hne
  revert hfork
  generalize CommitmentOutput.extract o.output o'.output = w
  obtain ⟨v, r, b⟩ := w
  rintro ⟨h1, h2, h3⟩
  refine ⟨hlt, ?_⟩
  rw [hC] at h3
  have e : (b - o.blinding) • base = ((o.value : F) - v) • B.gen := by
    linear_combination (norm := module) -h3
  by_cases hb : b - o.blinding = 0
  · left
    rw [hb, zero_smul] at e
    have hv : (o.value : F) - v = 0 := hB.smul_gen_inj (by rw [← e, zero_smul])
    rw [EncryptsWith, sub_eq_zero.mp hv]
    exact Ciphertext.ext h1 h2
  · right
    show base = (((o.value : F) - v) / (b - o.blinding)) • B.gen
    rw [div_eq_inv_mul, mul_smul, ← e, smul_smul, inv_mul_cancel₀ hb, one_smul]

end

/-- A cheating prover that may choose the blinding base last: nonces `x`, `y` for an encryption of `v` with randomness
`r`, any commitment `C`, any group element `Z` hashed in place of the commitment to nonces, and any nonzero response
`s`. Neither `C` nor `Z` has to be opened. -/
def lateBase (B : Backend F E) (K : PublicKey E) (t : Transcript) (v r x y s : F) (C Z : E) :
    CommitmentEquivalenceProof F × E :=
  let ct : Ciphertext E := ⟨r • B.gen, v • B.gen + r • K.element⟩
  let c := B.challenge (commitmentQuery t.log K.bytes (encOf B ct.random) (encOf B ct.blinded) (encOf B C)
    (encOf B (x • B.gen)) (encOf B (y • B.gen + x • K.element)) (encOf B Z))
  (⟨c, c * r + x, c * v + y, s⟩, s⁻¹ • (Z + c • C - (c * v + y) • B.gen))

/-- C88, finding: the blinding base is not hashed. A prover that may choose it last makes accepted proofs for any
commitment, without knowing how to open it. So C70 needs a blinding base that is fixed in advance. -/
theorem C88_late_base (B : Backend F E) (hT : B.TotalSer) (K : PublicKey E) (t : Transcript) (v r x y s : F) (hs : s ≠ 0)
    (C Z : E) :
    ∃ t', (lateBase B K t v r x y s C Z).1.verify B ⟨r • B.gen, v • B.gen + r • K.element⟩ K C
      (lateBase B K t v r x y s C Z).2 t = some (.ok (), t') := by
  obtain ⟨b1, h1⟩ := hT (r • B.gen)
  obtain ⟨b2, h2⟩ := hT (v • B.gen + r • K.element)
  obtain ⟨b3, h3⟩ := hT C
  obtain ⟨b4, h4⟩ := hT (x • B.gen)
  obtain ⟨b5, h5⟩ := hT (y • B.gen + x • K.element)
  obtain ⟨b6, h6⟩ := hT Z
  refine ⟨_, CommitmentEquivalenceProof.verify_eq_some.mpr ⟨b1, b2, b3, b4, b5, b6, h1, h2, h3, ?_, ?_, ?_, rfl, ?_⟩⟩
  · rw [← h4, lateBase]
    congr 1
    module
  · rw [← h5, lateBase]
    congr 1
    module
  · rw [← h6, lateBase]
    congr 1
    rw [smul_smul, mul_inv_cancel₀ hs]
    module
  · refine (checkChallenge_ok.mpr ?_).symm
    simp only [lateBase, encOf_eq h1, encOf_eq h2, encOf_eq h3, encOf_eq h4, encOf_eq h5, encOf_eq h6]

/-! ## Privacy -/

section
variable [Fintype F]

/-- C88: ciphertext, commitment and equivalence proof, together with the random hash function, are distributed like
simulated ones: the value is encrypted, the commitment is a random group element, the scalars of the proof are random, and
the hash function is a random one changed at one place. The simulation uses neither value nor randomness. -/
theorem C88_simulation (B : Backend F E) (hB : B.Lawful) (hT : B.TotalSer) (base : E) (hbase : base ≠ 0)
    (t : Transcript) :
    ∃ D₀ : Finset (List Entry), ∀ D, D₀ ⊆ D → ∀ (H₀ : List Entry → F) (k value : F) (K : PublicKey E),
      PublicKey.ofSecret B k = some K →
      ∀ guess : (List Entry → F) → PublicKey E → Option (Ciphertext E × E × CommitmentEquivalenceProof F) → ℚ,
      (meanHash D H₀ fun H => mean fun tape : Fin 5 → F =>
        guess H K (equivalenceOutput (B.withHash H) K base t value (List.ofFn tape))) =
      mean fun r : F => simulatedEquivalence B D H₀ base t guess K fun _ => (K.encrypt B.withTape value [r]).1 := by
  have := hB.finite
  refine ⟨(commitmentData_finite B t).toFinset, fun D hD H₀ k value K hK guess => ?_⟩
  have hK' : K = ⟨encOf B (k • B.gen), k • B.gen⟩ :=
    Option.some.inj (hK.symm.trans (generate_tape B hT k).2)
  exact equivalence_simulation B hB hT K (by rw [hK']) base hbase t D hD H₀ value guess

theorem equivalenceGame_eq (B : Backend F E) (hB : B.Lawful) (hT : B.TotalSer) [Finite E] (base : E) (hbase : base ≠ 0)
    (t : Transcript) (D : Finset (List Entry)) (hD : (commitmentData_finite B t).toFinset ⊆ D) (H₀ : List Entry → F)
    (value : PublicKey E → F)
    (guess : (List Entry → F) → PublicKey E → Option (Ciphertext E × E × CommitmentEquivalenceProof F) → ℚ) :
    equivalenceGame B D H₀ base t value guess = mean fun k : F => mean fun rs : Fin 1 → F =>
      onKey B (fun _ => 0) (simulatedEquivalence B D H₀ base t guess) (k • B.gen) fun j =>
        ⟨rs j • B.gen, onKey B (fun _ => 0) (fun K _ => value K • B.gen) (k • B.gen) j + rs j • k • B.gen⟩ := by
  rw [equivalenceGame]
  congr 1
  funext k
  simp only [(generate_tape B hT k).1, onKey, (generate_tape B hT k).2]
  rw [equivalence_simulation B hB hT _ rfl base hbase t D hD H₀]
  refine (mean_equiv (Equiv.funUnique (Fin 1) F) _).symm.trans ?_
  refine congrArg mean (funext fun rs => ?_)
  refine congrArg (simulatedEquivalence B D H₀ base t guess _) (funext fun j => ?_)
  rw [Subsingleton.elim j 0]
  rfl

/-- C88: the value behind a ciphertext, a Pedersen commitment and an equivalence proof is hidden if the decisional
Diffie–Hellman problem is hard, for a random hash function: for values chosen by the attacker from the public key, the
difference of the probabilities to output 1 is the difference of the advantages of two explicit algorithms in the
Diffie–Hellman game. The commitment does not help at all. -/
theorem C88_equivalence_private (B : Backend F E) (hB : B.Lawful) (hT : B.TotalSer) (base : E) (hbase : base ≠ 0)
    (t : Transcript) :
    ∃ D₀ : Finset (List Entry), ∀ D, D₀ ⊆ D → ∀ (H₀ : List Entry → F) (value value' : PublicKey E → F)
      (guess : (List Entry → F) → PublicKey E → Option (Ciphertext E × E × CommitmentEquivalenceProof F) → ℚ),
      equivalenceGame B D H₀ base t value guess - equivalenceGame B D H₀ base t value' guess =
        ddhGap B (hybridReduction B (onKey B (fun _ => 0) fun K _ => value K • B.gen)
            (onKey B (fun _ => 0) (simulatedEquivalence B D H₀ base t guess)) 0) -
          ddhGap B (hybridReduction B (onKey B (fun _ => 0) fun K _ => value' K • B.gen)
            (onKey B (fun _ => 0) (simulatedEquivalence B D H₀ base t guess)) 0) := by
  have := hB.finite
  refine ⟨(commitmentData_finite B t).toFinset, fun D hD H₀ value value' guess => ?_⟩
  have h := fun value : PublicKey E → F => hybrid_total B hB (onKey B (fun _ => 0) fun K (_ : Fin 1) => value K • B.gen)
    (onKey B (fun _ => 0) (simulatedEquivalence B D H₀ base t guess))
  simp only [Fin.sum_univ_one] at h
  rw [← h, ← h, equivalenceGame_eq B hB hT base hbase t D hD, equivalenceGame_eq B hB hT base hbase t D hD]
  ring

/-- One value replaced. -/
theorem embedEquivalence_game (B : Backend F E) (D : Finset (List Entry)) (H₀ : List Entry → F) (base : E)
    (t : Transcript) {n : ℕ} (values values' : PublicKey E → Fin n → F)
    (guess : (List Entry → F) → PublicKey E → (Fin n → Option (Ciphertext E × E × CommitmentEquivalenceProof F)) → ℚ)
    (v : Fin n) (w : PublicKey E → F) :
    equivalenceGame B D H₀ base t w (embedEquivalence B base t values values' guess v) =
      equivalencesGame B D H₀ base t (fun K i => if i = v then w K else if i < v then values' K i else values K i)
        guess := by
  rw [equivalenceGame, equivalencesGame]
  congr 1
  funext k
  split
  · rfl
  · rename_i keypair _ _
    congr 1
    funext H
    simp only [embedEquivalence]
    rw [mean_comm]
    refine Eq.trans ?_ (mean_update v _)
    congr 1
    funext tapes
    congr 1
    funext tape
    congr 1
    funext i
    by_cases hi : i = v
    · subst hi; simp
    · simp [hi]

/-- C88 for several values under one key. -/
theorem C88_equivalences_private (B : Backend F E) (hB : B.Lawful) (hT : B.TotalSer) (base : E) (hbase : base ≠ 0)
    (t : Transcript) :
    ∃ D₀ : Finset (List Entry), ∀ D, D₀ ⊆ D → ∀ (H₀ : List Entry → F) (n : ℕ)
      (values values' : PublicKey E → Fin n → F)
      (guess : (List Entry → F) → PublicKey E → (Fin n → Option (Ciphertext E × E × CommitmentEquivalenceProof F)) → ℚ),
      equivalencesGame B D H₀ base t values guess - equivalencesGame B D H₀ base t values' guess =
        ∑ v, (ddhGap B (hybridReduction B (onKey B (fun _ => 0) fun K _ => values K v • B.gen)
            (onKey B (fun _ => 0) (simulatedEquivalence B D H₀ base t
              (embedEquivalence B base t values values' guess v))) 0) -
          ddhGap B (hybridReduction B (onKey B (fun _ => 0) fun K _ => values' K v • B.gen)
            (onKey B (fun _ => 0) (simulatedEquivalence B D H₀ base t
              (embedEquivalence B base t values values' guess v))) 0)) := by
  obtain ⟨D₀, h⟩ := C88_equivalence_private B hB hT base hbase t
  refine ⟨D₀, fun D hD H₀ n values values' guess => ?_⟩
  let mix : ℕ → ℚ := fun s => equivalencesGame B D H₀ base t
    (fun K i => if i.1 < s then values' K i else values K i) guess
  have h0 : equivalencesGame B D H₀ base t values guess = mix 0 := by simp [mix]
  have hn : equivalencesGame B D H₀ base t values' guess = mix n := by simp [mix]
  rw [h0, hn, ← Finset.sum_range_sub' mix, ← Fin.sum_univ_eq_sum_range fun i => mix i - mix (i + 1)]
  refine Finset.sum_congr rfl fun v _ => ?_
  refine Eq.trans ?_ (h D hD H₀ (fun K => values K v) (fun K => values' K v)
    (embedEquivalence B base t values values' guess v))
  rw [embedEquivalence_game, embedEquivalence_game]
  refine congrArg₂ (· - ·) ?_ ?_
  · refine congrArg (fun w => equivalencesGame B D H₀ base t w guess) ?_
    funext K i
    by_cases hi : i = v
    · subst hi; simp
    · simp [hi]
  · refine congrArg (fun w => equivalencesGame B D H₀ base t w guess) ?_
    funext K i
    by_cases hi : i = v
    · subst hi; simp
    · have : i.1 < v.1 + 1 ↔ i < v := by
        rw [Fin.lt_def]
        have : i.1 ≠ v.1 := fun h => hi (Fin.ext h)
        omega
      simp [hi, this]

/-- C88, limit: with the identity as blinding base the commitment reveals the value, for any randomness. -/
theorem C88_zero_base_reveals (B : Backend F E) (hT : B.TotalSer) (K : PublicKey E) (t : Transcript)
    (value : F) (tape : Fin 5 → F) :
    ∃ ct proof, equivalenceOutput B K 0 t value (List.ofFn tape) = some (ct, value • B.gen, proof) := by
  obtain ⟨⟨⟨proof, C⟩, t2, rest⟩, hnew⟩ := C17_commitment_new_total B.withTape hT
      (⟨⟨⟨tape 0 • B.gen, value • B.gen + tape 0 • K.element⟩, tape 0⟩, value⟩ : CiphertextWithValue F E) K (tape 1) 0 t
      [tape 2, tape 3, tape 4]
  obtain ⟨-, -, -, hC⟩ := C17_commitment_complete B.withTape _ K (tape 1) 0 C ⟨rfl, rfl⟩ t t2 _ _ _ hnew
  rw [smul_zero, add_zero] at hC
  rw [equivalenceOutput_eq, hnew, hC]
  exact ⟨_, _, rfl⟩

theorem sumSqGame_eq (B : Backend F E) (hT : B.TotalSer) [Finite E] {o : ℕ}
    (t : Transcript) (D : Finset (List Entry)) (hD : (sumSqData_finite B o t).toFinset ⊆ D) (H₀ : List Entry → F)
    (values : PublicKey E → Fin o → F)
    (guess : (List Entry → F) → PublicKey E → (Fin (o + 1) → Ciphertext E) → Option (SumOfSquaresProof F) → ℚ) :
    sumSqGame B D H₀ t values guess = mean fun k : F => mean fun rs : Fin (o + 1) → F =>
      onKey B (fun _ => 0) (simulatedSumSq B D H₀ t guess) (k • B.gen) fun j =>
        ⟨rs j • B.gen, onKey B (fun _ => 0) (fun K j => withSumOfSquares (values K) j • B.gen) (k • B.gen) j +
          rs j • k • B.gen⟩ := by
  rw [sumSqGame]
  congr 1
  funext k
  simp only [(generate_tape B hT k).1, onKey, (generate_tape B hT k).2]
  rw [meanHash_mean]
  congr 1
  funext rs
  set K : PublicKey E := ⟨encOf B (k • B.gen), k • B.gen⟩ with hK
  set cts : Fin (o + 1) → CiphertextWithValue F E := fun i =>
    (CiphertextWithValue.new B.withTape (withSumOfSquares (values K) i) K [rs i]).1 with hcts
  have hop : ∀ i, Opened B K.element (cts i) := fun i => ⟨rfl, rfl⟩
  rw [sumSq_simulation B hT K rfl (List.ofFn fun i : Fin o => cts i.castSucc) (by simp) (cts (Fin.last o)) ?_ (hop _) ?_
    t D hD H₀ (fun H => guess H K fun i => (cts i).ciphertext)]
  · rw [simulatedSumSq]
    refine congrArg mean (funext fun p => ?_)
    simp only [List.map_ofFn, Function.comp_def]
    rfl
  · intro ct hct
    obtain ⟨i, rfl⟩ := List.mem_ofFn.mp hct
    exact hop _
  · have h1 : (cts (Fin.last o)).value = ∑ i, values K i * values K i := by
      show withSumOfSquares (values K) (Fin.last o) = _
      simp [withSumOfSquares]
    have h2 : ∀ i : Fin o, (cts i.castSucc).value = values K i := by
      intro i
      show withSumOfSquares (values K) i.castSucc = _
      simp [withSumOfSquares]
    rw [h1, List.map_ofFn, List.sum_ofFn]
    simp only [Function.comp_def, h2]

/-- C88: ciphertexts with a sum-of-squares proof hide the values, including the sum of their squares: the difference of
the probabilities to output 1 is a sum of advantages of explicit algorithms in the Diffie–Hellman game, two for each
ciphertext. -/
theorem C88_sum_sq_private (B : Backend F E) (hB : B.Lawful) (hT : B.TotalSer) (o : ℕ) (t : Transcript) :
    ∃ D₀ : Finset (List Entry), ∀ D, D₀ ⊆ D → ∀ (H₀ : List Entry → F) (values values' : PublicKey E → Fin o → F)
      (guess : (List Entry → F) → PublicKey E → (Fin (o + 1) → Ciphertext E) → Option (SumOfSquaresProof F) → ℚ),
      sumSqGame B D H₀ t values guess - sumSqGame B D H₀ t values' guess =
        ∑ i, (ddhGap B (hybridReduction B (onKey B (fun _ => 0) fun K j => withSumOfSquares (values K) j • B.gen)
            (onKey B (fun _ => 0) (simulatedSumSq B D H₀ t guess)) i) -
          ddhGap B (hybridReduction B (onKey B (fun _ => 0) fun K j => withSumOfSquares (values' K) j • B.gen)
            (onKey B (fun _ => 0) (simulatedSumSq B D H₀ t guess)) i)) := by
  have := hB.finite
  refine ⟨(sumSqData_finite B o t).toFinset, fun D hD H₀ values values' guess => ?_⟩
  rw [Finset.sum_sub_distrib, ← hybrid_total B hB, ← hybrid_total B hB, sumSqGame_eq B hT t D hD H₀ values,
    sumSqGame_eq B hT t D hD H₀ values']
  ring

end

namespace Toy

/-- Range proofs that are openings of commitments (blinding base 13). -/
def toyBulletproofs : Bulletproofs B101.Rng where
  Scalar := ZMod 101
  Point := ZMod 101
  Proof := ℕ × ZMod 101
  scalarFromBytes bytes := (B101.deScalar bytes).getD 0
  compress x := encOf B101 x
  blinding := 13
  proveSingle t v b rng := some (((v, b), encOf B101 ((v : ZMod 101) • B101.gen + b • 13)), t, rng)
  verifySingle p t C := (decide (p.1 < 2 ^ 64 ∧ C = encOf B101 ((p.1 : ZMod 101) • B101.gen + p.2 • 13)), t)

def toyBulletproofs_lawful : LawfulBulletproofs B101 toyBulletproofs where
  point x := x
  scalar x := x
  compress_eq x := by
    obtain ⟨b, h⟩ := B101_total x
    show B101.serElem x = some (encOf B101 x)
    rw [h, encOf_eq h]
  scalar_bytes x := by
    show (B101.deScalar (B101.serScalar x)).getD 0 = x
    rw [B101_lawful.deScalar_serScalar]
    rfl
  complete t v b rng hv := by
    change ZMod 101 at b
    refine ⟨_, _, _, _, t, rfl, ?_, ?_⟩
    · obtain ⟨b', h⟩ := B101_total ((v : ZMod 101) • B101.gen + b • (13 : ZMod 101))
      show B101.serElem ((v : ZMod 101) • B101.gen + b • (13 : ZMod 101)) = some (encOf B101 ((v : ZMod 101) • B101.gen + b • (13 : ZMod 101)))
      rw [h, encOf_eq h]
    · exact Prod.ext (decide_eq_true ⟨hv, rfl⟩) rfl

example : ∃ (out : EquivalenceOutput B101 toyBulletproofs) (rng' : ℕ),
    equivalence B101 toyBulletproofs (some ['+', '7', '2']) (5 : ℕ) = some (out, rng') ∧ out.value = 72 ∧
      SecretKey.decryptToElement (B101.genScalar (5 : ℕ)).1 out.ciphertext = 72 := by
  obtain ⟨out, rng', b, h1, h2, -, h3, -⟩ := C88_example B101 B101_lawful B101_total toyBulletproofs
    toyBulletproofs_lawful (some ['+', '7', '2']) 72
    (.inr ⟨_, rfl, ['7', '2'], .inr rfl, by decide, by decide, by decide, by norm_num⟩) (5 : ℕ)
  exact ⟨out, rng', h1, h2, h3.trans (by decide)⟩

-- an accepted output, and the same one with a range proof for another commitment
example : ∃ (out : EquivalenceOutput B101 toyBulletproofs) (C : ZMod 101), verifyEquivalence B101 toyBulletproofs out C = some () ∧
    verifyEquivalence B101 toyBulletproofs { out with range := ((2 ^ 64 : ℕ), (0 : ZMod 101)) } C ≠ some () := by
  obtain ⟨out, rng', b, -, -, -, -, -, h⟩ := C88_example B101 B101_lawful B101_total toyBulletproofs
    toyBulletproofs_lawful none 424242 (.inl ⟨rfl, rfl⟩) (5 : ℕ)
  refine ⟨out, _, (C88_example_verify B101 B101_lawful toyBulletproofs toyBulletproofs_lawful out _).mpr h, ?_⟩
  rw [Ne, C88_example_verify B101 B101_lawful toyBulletproofs toyBulletproofs_lawful]
  rintro ⟨t', -, h2⟩
  have h3 : decide ((2 ^ 64 : ℕ) < 2 ^ 64 ∧
      out.commitment = encOf B101 (((2 ^ 64 : ℕ) : ZMod 101) • B101.gen + (0 : ZMod 101) • (13 : ZMod 101))) = true := h2
  exact absurd (of_decide_eq_true h3).1 (by norm_num)

-- a number with a sign, and one that is too large
example : equivalence B101 toyBulletproofs (some ['-', '7']) (5 : ℕ) = none ∧
    equivalence B101 toyBulletproofs (some "18446744073709551616".toList) (5 : ℕ) = none := by
  constructor <;> refine C88_example_argument B101 toyBulletproofs _ ?_ (5 : ℕ)
  · rintro ⟨v, h⟩
    exact absurd (parseUsize_eq.mpr h) (by rw [show parseUsize ['-', '7'] = none from rfl]; simp)
  · rintro ⟨v, h⟩
    exact absurd (parseUsize_eq.mpr h)
      (by rw [show parseUsize "18446744073709551616".toList = none by decide]; simp)

/-- A prover that knows an opening of the commitment with the value 5 and the blinding factor 2. -/
def exampleRangedProver : OracleAlg (List Entry) (ZMod 101) (RangedOutput (ZMod 101) (ZMod 101)) :=
  .ask (commitmentQuery (Transcript.new "x").log [42] [3] [30] [31] [6] [54] [20]) fun c =>
    .done ⟨⟨Transcript.new "x", ⟨[42], 42⟩, ⟨3, 30⟩, 31, ⟨c, 6 + c * 3, 4 + c * 5, 9 + c * 2⟩⟩, 5, 2⟩

-- the extractor succeeds with probability at least 99 / 202
example : ∃ D₀ : Finset (List Entry), ∀ D, D₀ ⊆ D → ∀ H₀ : List Entry → ZMod 101, (99 : ℚ) / 202 ≤
    meanHash D H₀ fun H => mean fun _ : Unit => mean fun c =>
      let o := rewind exampleRangedProver (fun o => o.output.hashed B101 13) H c
      ind (let (v, r, b) := CommitmentOutput.extract o.1.output o.2.output
        o.1.value < 2 ^ 64 ∧ (EncryptsWith B101 o.1.output.key.element o.1.output.ciphertext o.1.value r ∨
          13 = (((o.1.value : ZMod 101) - v) / (b - o.1.blinding)) • B101.gen)) := by
  have k1 : ∀ c : ZMod 101, (6 + c * 3) * 1 - c * 3 = 6 := fun c => by ring
  have k2 : ∀ c : ZMod 101, (4 + c * 5) * 1 + (6 + c * 3) * 42 - c * 30 = 54 := fun c => by
    rw [show (30 : ZMod 101) = 5 + 3 * 42 by decide, show (54 : ZMod 101) = 4 + 6 * 42 by decide]; ring
  have k3 : ∀ c : ZMod 101, (4 + c * 5) * 1 + (9 + c * 2) * 13 - c * 31 = 20 := fun c => by
    rw [show (20 : ZMod 101) = 4 + 9 * 13 by decide]; ring
  have := extractable_certain (C88_range_knowledge B101 B101_lawful 13 (fun _ : Unit => exampleRangedProver) 1
    fun _ _ => trivial) fun _ H => ⟨by show 5 < 2 ^ 64; norm_num, show (31 : ZMod 101) = (5 : ℕ) • (1 : ZMod 101) + (2 : ZMod 101) • 13 by decide,
      show B101.deElem [42] = some 42 by decide, _,
      CommitmentEquivalenceProof.verify_eq_some.mpr ⟨[3], [30], [31], [6], [54], [20], rfl, rfl, rfl,
        congrArg B101.serElem (k1 _), congrArg B101.serElem (k2 _), congrArg B101.serElem (k3 _), rfl,
        (checkChallenge_ok.mpr rfl).symm⟩⟩
  have e : (1 : ℚ) / ((1 : ℕ) + 1) - 1 / Fintype.card (ZMod 101) = 99 / 202 := by
    rw [ZMod.card]; norm_num
  rwa [e] at this

example : ∃ t', (lateBase B101 ⟨[42], 42⟩ (Transcript.new "x") 5 3 6 4 11 77 50).1.verify B101 ⟨3, 5 + 3 * 42⟩
    ⟨[42], 42⟩ 77 (lateBase B101 ⟨[42], 42⟩ (Transcript.new "x") 5 3 6 4 11 77 50).2 (Transcript.new "x") =
      some (.ok (), t') :=
  C88_late_base B101 B101_total ⟨[42], 42⟩ (Transcript.new "x") 5 3 6 4 11 (by decide) 77 50

/-- An attacker that decrypts in the toy group, and outputs 1 for the value 16. -/
def exampleEquivalenceGuess (_ : List Entry → ZMod 101) (K : PublicKey (ZMod 101))
    (out : Option (Ciphertext (ZMod 101) × ZMod 101 × CommitmentEquivalenceProof (ZMod 101))) : ℚ :=
  match out with
  | none => 0
  | some (ct, _) => if SecretKey.decryptToElement K.element ct = 16 then 1 else 0

theorem exampleEquivalence_key (t : Transcript) (value : ZMod 101) (k : ZMod 101) (H : List Entry → ZMod 101)
    (tape : Fin 5 → ZMod 101) :
    exampleEquivalenceGuess H ⟨encOf B101 (k • B101.gen), k • B101.gen⟩
      (equivalenceOutput (B101.withHash H) ⟨encOf B101 (k • B101.gen), k • B101.gen⟩ 13 t value (List.ofFn tape)) =
      if value = 16 then 1 else 0 := by
  obtain ⟨⟨⟨proof, C⟩, t2, rest⟩, hnew⟩ := C17_commitment_new_total (B101.withHash H).withTape B101_total
      (⟨⟨⟨tape 0 • B101.gen, value • B101.gen + tape 0 • (k • B101.gen)⟩, tape 0⟩, value⟩ :
        CiphertextWithValue (ZMod 101) (ZMod 101)) ⟨encOf B101 (k • B101.gen), k • B101.gen⟩ (tape 1) 13 t
      [tape 2, tape 3, tape 4]
  rw [equivalenceOutput_eq]
  have hnew' := congrArg (Option.map fun o => ((⟨tape 0 • B101.gen, value • B101.gen + tape 0 • (k • B101.gen)⟩ :
    Ciphertext (ZMod 101)), o.1.2, o.1.1)) hnew
  refine (congrArg _ hnew').trans ?_
  have h : SecretKey.decryptToElement (k • B101.gen)
      (⟨tape 0 • B101.gen, value • B101.gen + tape 0 • (k • B101.gen)⟩ : Ciphertext (ZMod 101)) = value := by
    simp only [SecretKey.decryptToElement, show B101.gen = 1 from rfl, smul_eq_mul]
    ring
  simp only [Option.map_some, exampleEquivalenceGuess, h]

theorem exampleEquivalence_wins (D : Finset (List Entry)) (H₀ : List Entry → ZMod 101) (t : Transcript)
    (value : ZMod 101) :
    equivalenceGame B101 D H₀ 13 t (fun _ => value) exampleEquivalenceGuess = if value = 16 then 1 else 0 := by
  rw [equivalenceGame]
  simp only [(generate_tape B101 B101_total _).1, exampleEquivalence_key, mean_const, meanHash_const]

-- the attacker's advantage is 1: so one of the reductions has advantage at least 1/2
example : ∃ D₀ : Finset (List Entry), ∀ D, D₀ ⊆ D → ∀ H₀ : List Entry → ZMod 101,
    ddhGap B101 (hybridReduction B101 (onKey B101 (fun _ => 0) fun _ _ => (16 : ZMod 101) • B101.gen)
        (onKey B101 (fun _ => 0) (simulatedEquivalence B101 D H₀ 13 (Transcript.new "toy") exampleEquivalenceGuess))
          (0 : Fin 1)) -
      ddhGap B101 (hybridReduction B101 (onKey B101 (fun _ => 0) fun _ _ => (3 : ZMod 101) • B101.gen)
        (onKey B101 (fun _ => 0) (simulatedEquivalence B101 D H₀ 13 (Transcript.new "toy") exampleEquivalenceGuess))
          (0 : Fin 1)) = 1 := by
  obtain ⟨D₀, h⟩ := C88_equivalence_private B101 B101_lawful B101_total 13 (by decide) (Transcript.new "toy")
  refine ⟨D₀, fun D hD H₀ => (h D hD H₀ (fun _ => 16) (fun _ => 3) exampleEquivalenceGuess).symm.trans ?_⟩
  rw [exampleEquivalence_wins, exampleEquivalence_wins, if_pos rfl, if_neg (by decide)]
  norm_num

example : ∃ D₀ : Finset (List Entry), ∀ D, D₀ ⊆ D → ∀ H₀ : List Entry → ZMod 101,
    mean (fun r : ZMod 101 => simulatedEquivalence B101 D H₀ 13 (Transcript.new "toy") exampleEquivalenceGuess
      ⟨[42], 42⟩ fun _ => ((⟨[42], 42⟩ : PublicKey (ZMod 101)).encrypt B101.withTape 16 [r]).1) = 1 := by
  obtain ⟨D₀, h⟩ := C88_simulation B101 B101_lawful B101_total 13 (by decide) (Transcript.new "toy")
  refine ⟨D₀, fun D hD H₀ => (h D hD H₀ 42 16 ⟨[42], 42⟩ (by decide) exampleEquivalenceGuess).symm.trans ?_⟩
  have hK : (⟨[42], 42⟩ : PublicKey (ZMod 101)) =
      ⟨encOf B101 ((42 : ZMod 101) • B101.gen), (42 : ZMod 101) • B101.gen⟩ := by decide
  simp only [hK, exampleEquivalence_key, mean_const, meanHash_const, if_true]

-- three values rotated
example : ∃ D₀ : Finset (List Entry), ∀ D, D₀ ⊆ D → ∀ (H₀ : List Entry → ZMod 101)
    (guess : (List Entry → ZMod 101) → PublicKey (ZMod 101) →
      (Fin 3 → Option (Ciphertext (ZMod 101) × ZMod 101 × CommitmentEquivalenceProof (ZMod 101))) → ℚ),
    ∃ gaps : Fin 3 → ℚ,
    equivalencesGame B101 D H₀ 13 (Transcript.new "toy") (fun _ => ![0, 7, 16]) guess -
      equivalencesGame B101 D H₀ 13 (Transcript.new "toy") (fun _ => ![7, 16, 0]) guess = ∑ v, gaps v := by
  obtain ⟨D₀, h⟩ := C88_equivalences_private B101 B101_lawful B101_total 13 (by decide) (Transcript.new "toy")
  exact ⟨D₀, fun D hD H₀ guess => ⟨_, h D hD H₀ 3 _ _ guess⟩⟩

example : ∃ ct proof, equivalenceOutput B101 ⟨[42], 42⟩ 0 (Transcript.new "toy") 16 [1, 2, 3, 4, 5] =
    some (ct, 16, proof) :=
  C88_zero_base_reveals B101 B101_total ⟨[42], 42⟩ (Transcript.new "toy") 16 ![1, 2, 3, 4, 5]

/-- An attacker that decrypts the sum of squares. -/
def exampleSumSqGuess (_ : List Entry → ZMod 101) (K : PublicKey (ZMod 101)) (cts : Fin 3 → Ciphertext (ZMod 101))
    (_ : Option (SumOfSquaresProof (ZMod 101))) : ℚ :=
  if SecretKey.decryptToElement K.element (cts 2) = 25 then 1 else 0

theorem exampleSumSq_wins (D : Finset (List Entry)) (H₀ : List Entry → ZMod 101) (t : Transcript)
    (values : Fin 2 → ZMod 101) :
    sumSqGame B101 D H₀ t (fun _ => values) exampleSumSqGuess =
      if values 0 * values 0 + values 1 * values 1 = 25 then 1 else 0 := by
  have key : ∀ k r : ZMod 101, SecretKey.decryptToElement (k • B101.gen)
      (CiphertextWithValue.new B101.withTape (withSumOfSquares values 2) ⟨encOf B101 (k • B101.gen), k • B101.gen⟩
        [r]).1.ciphertext = values 0 * values 0 + values 1 * values 1 := by
    intro k r
    have hw : withSumOfSquares values 2 = values 0 * values 0 + values 1 * values 1 := by
      rw [show (2 : Fin 3) = Fin.last 2 from rfl, withSumOfSquares, Fin.snoc_last, Fin.sum_univ_two]
    rw [hw]
    show ((values 0 * values 0 + values 1 * values 1) • B101.gen + r • (k • B101.gen)) -
      (k • B101.gen) • (r • B101.gen) = _
    simp only [show B101.gen = 1 from rfl, smul_eq_mul]
    ring
  rw [sumSqGame]
  simp only [(generate_tape B101 B101_total _).1, exampleSumSqGuess, key, mean_const, meanHash_const]

-- 3² + 4² = 25
example : ∃ D₀ : Finset (List Entry), ∀ D, D₀ ⊆ D → ∀ H₀ : List Entry → ZMod 101, ∃ gaps : Fin 3 → ℚ,
    sumSqGame B101 D H₀ (Transcript.new "toy") (fun _ => ![3, 4]) exampleSumSqGuess -
      sumSqGame B101 D H₀ (Transcript.new "toy") (fun _ => ![3, 5]) exampleSumSqGuess = ∑ i, gaps i ∧
    ∑ i, gaps i = 1 := by
  obtain ⟨D₀, h⟩ := C88_sum_sq_private B101 B101_lawful B101_total 2 (Transcript.new "toy")
  refine ⟨D₀, fun D hD H₀ => ⟨_, h D hD H₀ _ _ exampleSumSqGuess, (h D hD H₀ _ _ exampleSumSqGuess).symm.trans ?_⟩⟩
  rw [exampleSumSq_wins, exampleSumSq_wins, if_pos (by decide), if_neg (by decide)]
  norm_num

end Toy

end ElasticElgamal
