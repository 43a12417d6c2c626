import Verif.Lemmas.RangePrivacy
import Verif.Props.Privacy

/-!
# C73: values encrypted with range proofs are hidden
-/

set_option autoImplicit false
set_option linter.unusedSectionVars false

namespace ElasticElgamal

open Spec

variable {F E : Type} [Field F] [Fintype F] [AddCommGroup E] [Module F E] [DecidableEq F] [DecidableEq E]

/-- C73: a ciphertext with a range proof, together with the random hash function, is distributed like a simulated one: the
parts of the value are encrypted in the ciphertexts of the rings, the scalars of the proof are uniformly random, and the
hash function is a random one changed at one place. The simulation uses neither the value nor the randomness of the
ciphertexts. The distributions are the same, without any error. -/
theorem C73_simulation (B : Backend F E) (hB : B.Lawful) (hT : B.TotalSer) (n : ℕ) (range : PreparedRange E)
    (hr : PreparedFor B n range) (t : Transcript) :
    ∃ D₀ : Finset (List Entry), ∀ D, D₀ ⊆ D → ∀ (H₀ : List Entry → F) (k : F) (value : ℕ), value < n →
      ∀ (K : PublicKey E), PublicKey.ofSecret B k = some K →
      ∀ guess : (List Entry → F) → PublicKey E → Option (Ciphertext E × RangeProof F E) → ℚ,
      (meanHash D H₀ fun H => mean fun tape : Fin (rangeDraws range) → F =>
        guess H K (rangeOutput (B.withHash H) K range t value (List.ofFn tape))) =
      mean fun rs : Fin (rangeRings range) → F => simulatedRange B D H₀ range t guess K fun j =>
        ⟨rs j • B.gen, ringMessage B range value j + rs j • K.element⟩ := by
  have := hB.finite
  refine ⟨(rangeData_finite B range t).toFinset, fun D hD H₀ k value hv K hK guess => ?_⟩
  have hK' : K = ⟨encOf B (k • B.gen), k • B.gen⟩ :=
    Option.some.inj (hK.symm.trans (generate_tape B hT k).2)
  exact range_simulation B hB hT hr t K k (by rw [hK']) (by rw [hK']) D hD H₀ hv guess

theorem rangeGame_eq (B : Backend F E) (hB : B.Lawful) (hT : B.TotalSer) [Finite E] {n : ℕ} {range : PreparedRange E}
    (hr : PreparedFor B n range) (t : Transcript)
    (D : Finset (List Entry)) (hD : (rangeData_finite B range t).toFinset ⊆ D) (H₀ : List Entry → F)
    (value : PublicKey E → ℕ) (hv : ∀ K, value K < n)
    (guess : (List Entry → F) → PublicKey E → Option (Ciphertext E × RangeProof F E) → ℚ) :
    rangeGame B D H₀ range t value guess = mean fun k : F => mean fun rs : Fin (rangeRings range) → F =>
      onKey B (fun _ => 0) (simulatedRange B D H₀ range t guess) (k • B.gen) fun j =>
        ⟨rs j • B.gen, onKey B (fun _ => 0) (fun K => ringMessage B range (value K)) (k • B.gen) j +
          rs j • k • B.gen⟩ := by
  rw [rangeGame]
  congr 1
  funext k
  simp only [(generate_tape B hT k).1, onKey, (generate_tape B hT k).2]
  exact range_simulation B hB hT hr t _ k rfl rfl D hD H₀ (hv _) guess

/-- C73: values encrypted with range proofs are hidden if the decisional Diffie–Hellman problem is hard, for a random hash
function: for values in the range chosen by the attacker from the public key, the difference of the probabilities to
output 1 is the sum of the advantages of explicit algorithms in the Diffie–Hellman game, one for each ring. Each of
them calls the attacker once, with a simulated proof. -/
theorem C73_range_private (B : Backend F E) (hB : B.Lawful) (hT : B.TotalSer) (n : ℕ) (range : PreparedRange E)
    (hr : PreparedFor B n range) (t : Transcript) :
    ∃ D₀ : Finset (List Entry), ∀ D, D₀ ⊆ D → ∀ (H₀ : List Entry → F)
      (value value' : PublicKey E → ℕ), (∀ K, value K < n) → (∀ K, value' K < n) →
      ∀ guess : (List Entry → F) → PublicKey E → Option (Ciphertext E × RangeProof F E) → ℚ,
      rangeGame B D H₀ range t value guess - rangeGame B D H₀ range t value' guess =
        ∑ i, (ddhGap B (hybridReduction B (onKey B (fun _ => 0) fun K => ringMessage B range (value K))
            (onKey B (fun _ => 0) (simulatedRange B D H₀ range t guess)) i) -
          ddhGap B (hybridReduction B (onKey B (fun _ => 0) fun K => ringMessage B range (value' K))
            (onKey B (fun _ => 0) (simulatedRange B D H₀ range t guess)) i)) := by
  have := hB.finite
  refine ⟨(rangeData_finite B range t).toFinset, fun D hD H₀ value value' hv hv' guess => ?_⟩
  rw [Finset.sum_sub_distrib, ← hybrid_total B hB, ← hybrid_total B hB, rangeGame_eq B hB hT hr t D hD H₀ value hv,
    rangeGame_eq B hB hT hr t D hD H₀ value' hv']
  ring

theorem encryptRangeGame_eq (B : Backend F E) (D : Finset (List Entry)) (H₀ : List Entry → F) (range : PreparedRange E)
    (value : PublicKey E → ℕ)
    (guess : (List Entry → F) → PublicKey E → Option (Ciphertext E × RangeProof F E) → ℚ) :
    encryptRangeGame B D H₀ range value guess =
      rangeGame B D H₀ range (Transcript.new "ciphertext_range") value guess := by
  have h : ∀ (B : Backend F E) (K : PublicKey E) (v : ℕ) (tape : List F),
      (K.encryptRange B.withTape range v tape).map Prod.fst =
        rangeOutput B K range (Transcript.new "ciphertext_range") v tape := by
    intro B K v tape
    simp only [PublicKey.encryptRange, rangeOutput]
    cases RangeProof.new B.withTape K range v (Transcript.new "ciphertext_range") tape <;> rfl
  simp only [encryptRangeGame, rangeGame, h]

/-- C73 for `PublicKey::encrypt_range`. -/
theorem C73_encrypt_range_private (B : Backend F E) (hB : B.Lawful) (hT : B.TotalSer) (n : ℕ) (range : PreparedRange E)
    (hr : PreparedFor B n range) :
    ∃ D₀ : Finset (List Entry), ∀ D, D₀ ⊆ D → ∀ (H₀ : List Entry → F)
      (value value' : PublicKey E → ℕ), (∀ K, value K < n) → (∀ K, value' K < n) →
      ∀ guess : (List Entry → F) → PublicKey E → Option (Ciphertext E × RangeProof F E) → ℚ,
      encryptRangeGame B D H₀ range value guess - encryptRangeGame B D H₀ range value' guess =
        ∑ i, (ddhGap B (hybridReduction B (onKey B (fun _ => 0) fun K => ringMessage B range (value K))
            (onKey B (fun _ => 0) (simulatedRange B D H₀ range (Transcript.new "ciphertext_range") guess)) i) -
          ddhGap B (hybridReduction B (onKey B (fun _ => 0) fun K => ringMessage B range (value' K))
            (onKey B (fun _ => 0) (simulatedRange B D H₀ range (Transcript.new "ciphertext_range") guess)) i)) := by
  simp only [encryptRangeGame_eq]
  exact C73_range_private B hB hT n range hr (Transcript.new "ciphertext_range")

/-- One value replaced. -/
theorem embedRange_game (B : Backend F E) (D : Finset (List Entry)) (H₀ : List Entry → F) (range : PreparedRange E)
    (t : Transcript) {n : ℕ} (values values' : PublicKey E → Fin n → ℕ)
    (guess : (List Entry → F) → PublicKey E → (Fin n → Option (Ciphertext E × RangeProof F E)) → ℚ) (v : Fin n)
    (w : PublicKey E → ℕ) :
    rangeGame B D H₀ range t w (embedRange B range t values values' guess v) =
      rangesGame B D H₀ range t (fun K i => if i = v then w K else if i < v then values' K i else values K i) guess := by
  rw [rangeGame, rangesGame]
  congr 1
  funext k
  split
  · rfl
  · rename_i keypair _ _
    congr 1
    funext H
    simp only [embedRange]
    rw [mean_comm]
    refine Eq.trans ?_ (mean_update v _)
    congr 1
    funext tapes
    congr 1
    funext tape
    congr 1
    funext i
    by_cases hi : i = v
    · subst hi; simp
    · simp [hi]

/-- C73 for several values: the attacker sees all ciphertexts with their proofs, and the hash function. -/
theorem C73_ranges_private (B : Backend F E) (hB : B.Lawful) (hT : B.TotalSer) (n : ℕ) (range : PreparedRange E)
    (hr : PreparedFor B n range) (t : Transcript) :
    ∃ D₀ : Finset (List Entry), ∀ D, D₀ ⊆ D → ∀ (H₀ : List Entry → F) (m : ℕ)
      (values values' : PublicKey E → Fin m → ℕ), (∀ K v, values K v < n) → (∀ K v, values' K v < n) →
      ∀ guess : (List Entry → F) → PublicKey E → (Fin m → Option (Ciphertext E × RangeProof F E)) → ℚ,
      rangesGame B D H₀ range t values guess - rangesGame B D H₀ range t values' guess =
        ∑ v, ∑ i, (ddhGap B (hybridReduction B (onKey B (fun _ => 0) fun K => ringMessage B range (values K v))
            (onKey B (fun _ => 0) (simulatedRange B D H₀ range t (embedRange B range t values values' guess v))) i) -
          ddhGap B (hybridReduction B (onKey B (fun _ => 0) fun K => ringMessage B range (values' K v))
            (onKey B (fun _ => 0) (simulatedRange B D H₀ range t (embedRange B range t values values' guess v))) i)) := by
  obtain ⟨D₀, h⟩ := C73_range_private B hB hT n range hr t
  refine ⟨D₀, fun D hD H₀ m values values' hv hv' guess => ?_⟩
  let mix : ℕ → ℚ := fun s => rangesGame B D H₀ range t
    (fun K i => if i.1 < s then values' K i else values K i) guess
  have h0 : rangesGame B D H₀ range t values guess = mix 0 := by simp [mix]
  have hn : rangesGame B D H₀ range t values' guess = mix m := by simp [mix]
  rw [h0, hn, ← Finset.sum_range_sub' mix, ← Fin.sum_univ_eq_sum_range fun i => mix i - mix (i + 1)]
  refine Finset.sum_congr rfl fun v _ => ?_
  refine Eq.trans ?_ (h D hD H₀ (fun K => values K v) (fun K => values' K v) (fun K => hv K v) (fun K => hv' K v)
    (embedRange B range t values values' guess v))
  rw [embedRange_game, embedRange_game]
  refine congrArg₂ (· - ·) ?_ ?_
  · refine congrArg (fun w => rangesGame B D H₀ range t w guess) ?_
    funext K i
    by_cases hi : i = v
    · subst hi; simp
    · simp [hi]
  · refine congrArg (fun w => rangesGame B D H₀ range t w guess) ?_
    funext K i
    by_cases hi : i = v
    · subst hi; simp
    · have : i.1 < v.1 + 1 ↔ i < v := by
        rw [Fin.lt_def]
        have : i.1 ≠ v.1 := fun h => hi (Fin.ext h)
        omega
      simp [hi, this]

namespace Toy

/-- An attacker that decrypts in the toy group, and outputs 1 for the value 16. -/
def exampleRangeGuess (_ : List Entry → ZMod 101) (K : PublicKey (ZMod 101))
    (out : Option (Ciphertext (ZMod 101) × RangeProof (ZMod 101) (ZMod 101))) : ℚ :=
  match out with
  | none => 0
  | some (ct, _) => if SecretKey.decryptToElement K.element ct = 16 then 1 else 0

theorem exampleRange_key (t : Transcript) (value : ℕ) (hv : value < 17) (k : ZMod 101) (H : List Entry → ZMod 101)
    (tape : Fin (rangeDraws exampleRange) → ZMod 101) :
    exampleRangeGuess H ⟨encOf B101 (k • B101.gen), k • B101.gen⟩
      (rangeOutput (B101.withHash H) ⟨encOf B101 (k • B101.gen), k • B101.gen⟩ exampleRange t value (List.ofFn tape)) =
      if value = 16 then 1 else 0 := by
  obtain ⟨⟨p, t', rest⟩, hp⟩ := C30_range_total (B101.withHash H).withTape B101_total 17 exampleRange
    (exampleRange_prepared.withHash H).withTape ⟨encOf B101 (k • B101.gen), k • B101.gen⟩
    (CiphertextWithValue.newU64 (B101.withHash H).withTape value ⟨encOf B101 (k • B101.gen), k • B101.gen⟩
      (List.ofFn tape)).1 ⟨rfl, rfl⟩ hv t
    (CiphertextWithValue.newU64 (B101.withHash H).withTape value ⟨encOf B101 (k • B101.gen), k • B101.gen⟩
      (List.ofFn tape)).2
  simp only [rangeOutput, RangeProof.new, hp, Option.bind_eq_bind, Option.bind_some, Option.pure_def, Option.map_some,
    exampleRangeGuess]
  have h : SecretKey.decryptToElement (k • B101.gen) (CiphertextWithValue.newU64 (B101.withHash H).withTape value
      ⟨encOf B101 (k • B101.gen), k • B101.gen⟩ (List.ofFn tape)).1.ciphertext = ((value : ℕ) : ZMod 101) := by
    simp only [SecretKey.decryptToElement, CiphertextWithValue.newU64, ExtendedCiphertext.new,
      ExtendedCiphertext.withValue, CiphertextWithValue.ciphertext, Backend.mulGen]
    simp only [Backend.withTape, Backend.withHash, show B101.gen = 1 from rfl, smul_eq_mul]
    ring
  rw [h]
  congr 1
  have : ∀ v : Fin 17, (((v : ℕ) : ZMod 101) = 16) = ((v : ℕ) = 16) := by decide
  exact this ⟨value, hv⟩

theorem exampleRange_wins (D : Finset (List Entry)) (H₀ : List Entry → ZMod 101) (t : Transcript) (value : ℕ)
    (hv : value < 17) :
    rangeGame B101 D H₀ exampleRange t (fun _ => value) exampleRangeGuess = if value = 16 then 1 else 0 := by
  rw [rangeGame]
  simp only [(generate_tape B101 B101_total _).1, exampleRange_key t value hv, mean_const, meanHash_const]

-- the attacker's advantage is 1: so some reduction has advantage at least 1/4
example : ∃ D₀ : Finset (List Entry), ∀ D, D₀ ⊆ D → ∀ H₀ : List Entry → ZMod 101,
    ∑ i, (ddhGap B101 (hybridReduction B101 (onKey B101 (fun _ => 0) fun _ => ringMessage B101 exampleRange 16)
        (onKey B101 (fun _ => 0) (simulatedRange B101 D H₀ exampleRange (Transcript.new "toy") exampleRangeGuess)) i) -
      ddhGap B101 (hybridReduction B101 (onKey B101 (fun _ => 0) fun _ => ringMessage B101 exampleRange 3)
        (onKey B101 (fun _ => 0) (simulatedRange B101 D H₀ exampleRange (Transcript.new "toy") exampleRangeGuess)) i)) =
      1 := by
  obtain ⟨D₀, h⟩ := C73_range_private B101 B101_lawful B101_total 17 exampleRange exampleRange_prepared
    (Transcript.new "toy")
  refine ⟨D₀, fun D hD H₀ => ?_⟩
  rw [← h D hD H₀ (fun _ => 16) (fun _ => 3) (fun _ => by decide) (fun _ => by decide) exampleRangeGuess,
    exampleRange_wins D H₀ _ 16 (by decide), exampleRange_wins D H₀ _ 3 (by decide)]
  simp

-- the same for `encrypt_range`
example : ∃ D₀ : Finset (List Entry), ∀ D, D₀ ⊆ D → ∀ H₀ : List Entry → ZMod 101, ∃ gaps : Fin 2 → ℚ,
    encryptRangeGame B101 D H₀ exampleRange (fun _ => 16) exampleRangeGuess -
      encryptRangeGame B101 D H₀ exampleRange (fun _ => 3) exampleRangeGuess = ∑ i, gaps i ∧ ∑ i, gaps i = 1 := by
  obtain ⟨D₀, h⟩ := C73_encrypt_range_private B101 B101_lawful B101_total 17 exampleRange exampleRange_prepared
  refine ⟨D₀, fun D hD H₀ => ⟨_, h D hD H₀ (fun _ => 16) (fun _ => 3) (fun _ => by decide) (fun _ => by decide)
    exampleRangeGuess, (h D hD H₀ (fun _ => 16) (fun _ => 3) (fun _ => by decide) (fun _ => by decide)
    exampleRangeGuess).symm.trans ?_⟩⟩
  rw [encryptRangeGame_eq, encryptRangeGame_eq, exampleRange_wins D H₀ _ 16 (by decide),
    exampleRange_wins D H₀ _ 3 (by decide)]
  simp

-- hypotheses of the statement for several values: three values rotated
example : ∃ D₀ : Finset (List Entry), ∀ D, D₀ ⊆ D → ∀ (H₀ : List Entry → ZMod 101)
    (guess : (List Entry → ZMod 101) → PublicKey (ZMod 101) →
      (Fin 3 → Option (Ciphertext (ZMod 101) × RangeProof (ZMod 101) (ZMod 101))) → ℚ),
    ∃ gaps : Fin 3 → Fin 2 → ℚ,
    rangesGame B101 D H₀ exampleRange (Transcript.new "toy") (fun _ => ![0, 7, 16]) guess -
      rangesGame B101 D H₀ exampleRange (Transcript.new "toy") (fun _ => ![7, 16, 0]) guess = ∑ v, ∑ i, gaps v i := by
  obtain ⟨D₀, h⟩ := C73_ranges_private B101 B101_lawful B101_total 17 exampleRange exampleRange_prepared
    (Transcript.new "toy")
  exact ⟨D₀, fun D hD H₀ guess => ⟨_, h D hD H₀ 3 _ _ (fun _ v => by revert v; decide)
    (fun _ v => by revert v; decide) guess⟩⟩

example : ∃ D₀ : Finset (List Entry), ∀ D, D₀ ⊆ D → ∀ H₀ : List Entry → ZMod 101,
    mean (fun rs : Fin 2 → ZMod 101 => simulatedRange B101 D H₀ exampleRange (Transcript.new "toy") exampleRangeGuess
      ⟨[42], 42⟩ fun j => ⟨rs j • 1, ringMessage B101 exampleRange 16 j + rs j • 42⟩) = 1 := by
  obtain ⟨D₀, h⟩ := C73_simulation B101 B101_lawful B101_total 17 exampleRange exampleRange_prepared (Transcript.new "toy")
  refine ⟨D₀, fun D hD H₀ => (h D hD H₀ 42 16 (by decide) ⟨[42], 42⟩ (by decide) exampleRangeGuess).symm.trans ?_⟩
  have hK : (⟨[42], 42⟩ : PublicKey (ZMod 101)) =
      ⟨encOf B101 ((42 : ZMod 101) • B101.gen), (42 : ZMod 101) • B101.gen⟩ := by decide
  simp only [hK, exampleRange_key _ 16 (by decide), mean_const, meanHash_const]
  rfl

end Toy

end ElasticElgamal
