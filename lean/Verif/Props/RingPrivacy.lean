import Verif.Lemmas.RingPrivacy
import Verif.Props.Privacy

/-!
# C84: values encrypted with ring proofs, and booleans, are hidden
-/

set_option autoImplicit false
set_option linter.unusedSectionVars false

namespace ElasticElgamal

open Spec Toy

variable {F E : Type} [Field F] [Fintype F] [AddCommGroup E] [Module F E] [DecidableEq F] [DecidableEq E]

/-- C84: the ciphertexts and the ring proof, together with the random hash function, are distributed like simulated ones:
the selected admissible values are encrypted, the scalars of the proof are uniformly random, and the hash function is
a random one changed at one place. The simulation uses neither the selected indexes nor the randomness of the
ciphertexts. The distributions are the same, without any error. -/
theorem C84_simulation (B : Backend F E) (hB : B.Lawful) (hT : B.TotalSer) {n : ℕ} (values : Fin n → List E)
    (t : Transcript) :
    ∃ D₀ : Finset (List Entry), ∀ D, D₀ ⊆ D → ∀ (H₀ : List Entry → F) (k : F) (index : Fin n → ℕ),
      (∀ j, index j < (values j).length) → ∀ (K : PublicKey E), PublicKey.ofSecret B k = some K →
      ∀ guess : (List Entry → F) → PublicKey E → Option (List (Ciphertext E) × RingProof F) → ℚ,
      (meanHash D H₀ fun H => mean fun tape : Fin (ringDraws values) → F =>
        guess H K (ringOutput (B.withHash H) K values t index (List.ofFn tape))) =
      mean fun rs : Fin n → F => simulatedRings B D H₀ values t guess K fun j =>
        ⟨rs j • B.gen, selectedValue values index j + rs j • K.element⟩ := by
  have := hB.finite
  refine ⟨(ringData_finite B n t).toFinset, fun D hD H₀ k index hi K hK guess => ?_⟩
  have hK' : K = ⟨encOf B (k • B.gen), k • B.gen⟩ :=
    Option.some.inj (hK.symm.trans (generate_tape B hT k).2)
  exact ring_simulation B hB hT t K (by rw [hK']) D hD H₀ hi guess

theorem ringGame_eq (B : Backend F E) (hB : B.Lawful) (hT : B.TotalSer) [Finite E] {n : ℕ} (values : Fin n → List E)
    (t : Transcript) (D : Finset (List Entry)) (hD : (ringData_finite B n t).toFinset ⊆ D) (H₀ : List Entry → F)
    (index : PublicKey E → Fin n → ℕ) (hi : ∀ K j, index K j < (values j).length)
    (guess : (List Entry → F) → PublicKey E → Option (List (Ciphertext E) × RingProof F) → ℚ) :
    ringGame B D H₀ values t index guess = mean fun k : F => mean fun rs : Fin n → F =>
      onKey B (fun _ => 0) (simulatedRings B D H₀ values t guess) (k • B.gen) fun j =>
        ⟨rs j • B.gen, onKey B (fun _ => 0) (fun K => selectedValue values (index K)) (k • B.gen) j +
          rs j • k • B.gen⟩ := by
  rw [ringGame]
  congr 1
  funext k
  simp only [(generate_tape B hT k).1, onKey, (generate_tape B hT k).2]
  exact ring_simulation B hB hT t _ rfl D hD H₀ (hi _) guess

/-- C84: which admissible values are encrypted is hidden if the decisional Diffie–Hellman problem is hard, for a
random hash function: for values chosen by the attacker from the public key, the difference of the probabilities to
output 1 is the sum of the advantages of explicit algorithms in the Diffie–Hellman game, two for each ring. Each of
them calls the attacker once, with a simulated proof. -/
theorem C84_ring_private (B : Backend F E) (hB : B.Lawful) (hT : B.TotalSer) {n : ℕ} (values : Fin n → List E)
    (t : Transcript) :
    ∃ D₀ : Finset (List Entry), ∀ D, D₀ ⊆ D → ∀ (H₀ : List Entry → F)
      (index index' : PublicKey E → Fin n → ℕ), (∀ K j, index K j < (values j).length) →
      (∀ K j, index' K j < (values j).length) →
      ∀ guess : (List Entry → F) → PublicKey E → Option (List (Ciphertext E) × RingProof F) → ℚ,
      ringGame B D H₀ values t index guess - ringGame B D H₀ values t index' guess =
        ∑ i, (ddhGap B (hybridReduction B (onKey B (fun _ => 0) fun K => selectedValue values (index K))
            (onKey B (fun _ => 0) (simulatedRings B D H₀ values t guess)) i) -
          ddhGap B (hybridReduction B (onKey B (fun _ => 0) fun K => selectedValue values (index' K))
            (onKey B (fun _ => 0) (simulatedRings B D H₀ values t guess)) i)) := by
  have := hB.finite
  refine ⟨(ringData_finite B n t).toFinset, fun D hD H₀ index index' hv hv' guess => ?_⟩
  rw [Finset.sum_sub_distrib, ← hybrid_total B hB, ← hybrid_total B hB, ringGame_eq B hB hT values t D hD H₀ index hv,
    ringGame_eq B hB hT values t D hD H₀ index' hv']
  ring

/-- An attacker against a boolean, as an attacker against ring proofs. -/
def ofBool (guess : (List Entry → F) → PublicKey E → Option (Ciphertext E × RingProof F) → ℚ)
    (H : List Entry → F) (K : PublicKey E) (out : Option (List (Ciphertext E) × RingProof F)) : ℚ :=
  guess H K (out.bind fun o => o.1.head?.map fun ct => (ct, o.2))

theorem boolGame_eq (B : Backend F E) (D : Finset (List Entry)) (H₀ : List Entry → F) (value : PublicKey E → Bool)
    (guess : (List Entry → F) → PublicKey E → Option (Ciphertext E × RingProof F) → ℚ) :
    boolGame B D H₀ value guess = ringGame B D H₀ (fun _ : Fin 1 => [0, B.gen]) (Transcript.new "bool_encryption")
      (fun K _ => if value K then 1 else 0) (ofBool guess) := by
  have h : ∀ (B : Backend F E) (K : PublicKey E) (v : Bool) (tape : List F),
      (K.encryptBool B.withTape v tape).map Prod.fst =
        (ringOutput B K (fun _ : Fin 1 => [0, B.gen]) (Transcript.new "bool_encryption") (fun _ => if v then 1 else 0)
          tape).bind fun o => o.1.head?.map fun ct => (ct, o.2) := by
    intro B K v tape
    simp only [PublicKey.encryptBool, ringOutput, ringItems, List.ofFn_succ, List.ofFn_zero, List.map_cons, List.map_nil,
      List.sum_cons, List.sum_nil, List.length_cons, List.length_nil, Nat.reduceAdd, Nat.add_zero, runRingSteps,
      runRingStep, Option.bind_eq_bind, Option.pure_def, Option.bind_some, Option.map_bind, Option.bind_assoc]
    refine Option.bind_congr fun a _ => ?_
    simp only [Function.comp, Option.map_bind]
    rfl
  simp only [boolGame, ringGame, ofBool, ← h]
  rfl

/-- C84 for `PublicKey::encrypt_bool`. -/
theorem C84_bool_private (B : Backend F E) (hB : B.Lawful) (hT : B.TotalSer) :
    ∃ D₀ : Finset (List Entry), ∀ D, D₀ ⊆ D → ∀ (H₀ : List Entry → F) (value value' : PublicKey E → Bool)
      (guess : (List Entry → F) → PublicKey E → Option (Ciphertext E × RingProof F) → ℚ),
      boolGame B D H₀ value guess - boolGame B D H₀ value' guess =
        ddhGap B (hybridReduction B (onKey B (fun _ => 0) fun K _ => if value K then B.gen else 0)
            (onKey B (fun _ => 0) (simulatedBool B D H₀ guess)) 0) -
          ddhGap B (hybridReduction B (onKey B (fun _ => 0) fun K _ => if value' K then B.gen else 0)
            (onKey B (fun _ => 0) (simulatedBool B D H₀ guess)) 0) := by
  obtain ⟨D₀, h⟩ := C84_ring_private B hB hT (fun _ : Fin 1 => [0, B.gen]) (Transcript.new "bool_encryption")
  refine ⟨D₀, fun D hD H₀ value value' guess => ?_⟩
  have hlt : ∀ v : Bool, (if v then 1 else 0) < [0, B.gen].length := fun v => by cases v <;> simp
  have hsel : ∀ v : Bool, selectedValue (fun _ : Fin 1 => [0, B.gen]) (fun _ => if v then 1 else 0) =
      fun _ => if v then B.gen else 0 := fun v => by funext j; cases v <;> rfl
  have hsim : simulatedRings B D H₀ (fun _ : Fin 1 => [0, B.gen]) (Transcript.new "bool_encryption") (ofBool guess) =
      simulatedBool B D H₀ guess := by
    funext K cts
    rw [simulatedRings, simulatedBool]
    refine congrArg mean (funext fun p => ?_)
    rfl
  rw [boolGame_eq, boolGame_eq, h D hD H₀ _ _ (fun K _ => hlt _) (fun K _ => hlt _), Fin.sum_univ_one]
  simp only [hsel, hsim]

namespace Toy

/-- Admissible values of two rings. -/
def exampleRings : Fin 2 → List (ZMod 101) := ![[0, 1], [5, 6, 7]]

/-- An attacker that decrypts the second ciphertext in the toy group, and outputs 1 for the value 7. -/
def exampleRingsGuess (_ : List Entry → ZMod 101) (K : PublicKey (ZMod 101))
    (out : Option (List (Ciphertext (ZMod 101)) × RingProof (ZMod 101))) : ℚ :=
  match out with
  | some ([_, ct], _) => if SecretKey.decryptToElement K.element ct = 7 then 1 else 0
  | _ => 0

theorem exampleRings_key (t : Transcript) (index : Fin 2 → ℕ) (hi : ∀ j, index j < (exampleRings j).length)
    (k : ZMod 101) (H : List Entry → ZMod 101) (tape : Fin (ringDraws exampleRings) → ZMod 101) :
    exampleRingsGuess H ⟨encOf B101 (k • B101.gen), k • B101.gen⟩
      (ringOutput (B101.withHash H) ⟨encOf B101 (k • B101.gen), k • B101.gen⟩ exampleRings t index (List.ofFn tape)) =
      if selectedValue exampleRings index 1 = 7 then 1 else 0 := by
  obtain ⟨s, -, hs⟩ := (ring_outputs B101 B101_lawful B101_total (values := exampleRings) t
    ⟨encOf B101 (k • B101.gen), k • B101.gen⟩ hi).2.2 H tape
  rw [hs]
  have h : SecretKey.decryptToElement (k • B101.gen)
      (ringCts B101 ⟨encOf B101 (k • B101.gen), k • B101.gen⟩ exampleRings index s.1 1) =
      selectedValue exampleRings index 1 := by
    simp only [SecretKey.decryptToElement, ringCts, show B101.gen = 1 from rfl, smul_eq_mul]
    ring
  have h2 : exampleRingsGuess H ⟨encOf B101 (k • B101.gen), k • B101.gen⟩
      (some (makeRings (ringCts B101 ⟨encOf B101 (k • B101.gen), k • B101.gen⟩ exampleRings index s.1) s.2)) =
      if SecretKey.decryptToElement (k • B101.gen)
        (ringCts B101 ⟨encOf B101 (k • B101.gen), k • B101.gen⟩ exampleRings index s.1 1) = 7 then 1 else 0 := rfl
  rw [h2, h]

theorem exampleRings_wins (D : Finset (List Entry)) (H₀ : List Entry → ZMod 101) (t : Transcript) (index : Fin 2 → ℕ)
    (hi : ∀ j, index j < (exampleRings j).length) :
    ringGame B101 D H₀ exampleRings t (fun _ => index) exampleRingsGuess =
      if selectedValue exampleRings index 1 = 7 then 1 else 0 := by
  rw [ringGame]
  simp only [(generate_tape B101 B101_total _).1, exampleRings_key t index hi, mean_const, meanHash_const]

-- the attacker's advantage is 1: so some reduction has advantage at least 1/4
example : ∃ D₀ : Finset (List Entry), ∀ D, D₀ ⊆ D → ∀ H₀ : List Entry → ZMod 101,
    ∑ i, (ddhGap B101 (hybridReduction B101 (onKey B101 (fun _ => 0) fun _ => selectedValue exampleRings ![1, 2])
        (onKey B101 (fun _ => 0) (simulatedRings B101 D H₀ exampleRings (Transcript.new "toy") exampleRingsGuess)) i) -
      ddhGap B101 (hybridReduction B101 (onKey B101 (fun _ => 0) fun _ => selectedValue exampleRings ![1, 0])
        (onKey B101 (fun _ => 0) (simulatedRings B101 D H₀ exampleRings (Transcript.new "toy") exampleRingsGuess)) i)) =
      1 := by
  obtain ⟨D₀, h⟩ := C84_ring_private B101 B101_lawful B101_total exampleRings (Transcript.new "toy")
  refine ⟨D₀, fun D hD H₀ => ?_⟩
  rw [← h D hD H₀ (fun _ => ![1, 2]) (fun _ => ![1, 0]) (fun _ => by decide) (fun _ => by decide) exampleRingsGuess,
    exampleRings_wins D H₀ _ ![1, 2] (by decide), exampleRings_wins D H₀ _ ![1, 0] (by decide),
    if_pos (by decide), if_neg (by decide)]
  norm_num

example : ∃ D₀ : Finset (List Entry), ∀ D, D₀ ⊆ D → ∀ H₀ : List Entry → ZMod 101,
    mean (fun rs : Fin 2 → ZMod 101 => simulatedRings B101 D H₀ exampleRings (Transcript.new "toy") exampleRingsGuess
      ⟨[42], 42⟩ fun j => ⟨rs j • 1, selectedValue exampleRings ![1, 2] j + rs j • 42⟩) = 1 := by
  obtain ⟨D₀, h⟩ := C84_simulation B101 B101_lawful B101_total exampleRings (Transcript.new "toy")
  refine ⟨D₀, fun D hD H₀ => (h D hD H₀ 42 ![1, 2] (by decide) ⟨[42], 42⟩ (by decide) exampleRingsGuess).symm.trans ?_⟩
  have hK : (⟨[42], 42⟩ : PublicKey (ZMod 101)) =
      ⟨encOf B101 ((42 : ZMod 101) • B101.gen), (42 : ZMod 101) • B101.gen⟩ := by decide
  simp only [hK, exampleRings_key _ ![1, 2] (by decide), mean_const, meanHash_const]
  exact if_pos (by decide)

/-- An attacker that decrypts. -/
def exampleBoolGuess (_ : List Entry → ZMod 101) (K : PublicKey (ZMod 101))
    (out : Option (Ciphertext (ZMod 101) × RingProof (ZMod 101))) : ℚ :=
  match out with
  | none => 0
  | some (ct, _) => if SecretKey.decryptToElement K.element ct = 1 then 1 else 0

theorem exampleBool_wins (D : Finset (List Entry)) (H₀ : List Entry → ZMod 101) (value : Bool) :
    boolGame B101 D H₀ (fun _ => value) exampleBoolGuess = if value then 1 else 0 := by
  have key : ∀ (k : ZMod 101) (H : List Entry → ZMod 101) (tape : List (ZMod 101)),
      exampleBoolGuess H ⟨encOf B101 (k • B101.gen), k • B101.gen⟩
        (((⟨encOf B101 (k • B101.gen), k • B101.gen⟩ : PublicKey (ZMod 101)).encryptBool (B101.withHash H).withTape value
          tape).map Prod.fst) = if value then 1 else 0 := by
    intro k H tape
    obtain ⟨⟨⟨ct, proof⟩, rng'⟩, h⟩ := C22_bool_total (B101.withHash H).withTape B101_total
      ⟨encOf B101 (k • B101.gen), k • B101.gen⟩ value tape
    have h2 := (C22_bool_complete (B101.withHash H).withTape _ k rfl value _ _ _ _ h).2
    rw [h]
    have h3 : SecretKey.decryptToElement (k • B101.gen) ct = if value then 1 else 0 := by
      rw [show k • B101.gen = k from mul_one k]
      exact h2
    simp only [Option.map_some, exampleBoolGuess, h3]
    cases value <;> rfl
  rw [boolGame]
  simp only [(generate_tape B101 B101_total _).1, key, mean_const, meanHash_const]

-- one of the two reductions has advantage at least 1/2
example : ∃ D₀ : Finset (List Entry), ∀ D, D₀ ⊆ D → ∀ H₀ : List Entry → ZMod 101,
    ddhGap B101 (hybridReduction B101 (onKey B101 (fun _ => 0) fun _ _ => 1)
        (onKey B101 (fun _ => 0) (simulatedBool B101 D H₀ exampleBoolGuess)) (0 : Fin 1)) -
      ddhGap B101 (hybridReduction B101 (onKey B101 (fun _ => 0) fun _ _ => 0)
        (onKey B101 (fun _ => 0) (simulatedBool B101 D H₀ exampleBoolGuess)) (0 : Fin 1)) = 1 := by
  obtain ⟨D₀, h⟩ := C84_bool_private B101 B101_lawful B101_total
  refine ⟨D₀, fun D hD H₀ => (h D hD H₀ (fun _ => true) (fun _ => false) exampleBoolGuess).symm.trans ?_⟩
  rw [exampleBool_wins, exampleBool_wins]
  norm_num

end Toy

end ElasticElgamal
