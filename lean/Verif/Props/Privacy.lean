import Verif.Lemmas.ChoicePrivacy
import Verif.Toy

/-!
# C66, C67: ciphertexts and ballots hide messages and votes
-/

set_option autoImplicit false
set_option linter.unusedSectionVars false

namespace ElasticElgamal

open Spec

variable {F E : Type} [Field F] [Fintype F] [AddCommGroup E] [Module F E]

/-- Every ciphertext has its own random scalar. -/
theorem encryptAll_tape (B : Backend F E) (K : PublicKey E) : ∀ {n : ℕ} (m r : Fin n → F),
    encryptAll B.withTape K (List.ofFn m) (List.ofFn r) =
      List.ofFn fun j => ⟨r j • B.gen, m j • B.gen + r j • K.element⟩
  | 0, _, _ => by simp [encryptAll]
  | n + 1, m, r => by
    rw [List.ofFn_succ, List.ofFn_succ, List.ofFn_succ, encryptAll]
    congr 1
    exact encryptAll_tape B K (fun j => m j.succ) fun j => r j.succ

theorem cpaGame_eq (B : Backend F E) {n : ℕ} (messages : PublicKey E → Fin n → F)
    (guess : PublicKey E → (Fin n → Ciphertext E) → ℚ) :
    cpaGame B messages guess = mean fun k : F => mean fun rs : Fin n → F =>
      onKey B (fun _ => 0) guess (k • B.gen) fun j =>
        ⟨rs j • B.gen, onKey B (fun _ => 0) (fun K j => messages K j • B.gen) (k • B.gen) j + rs j • k • B.gen⟩ := by
  rw [cpaGame, mean_prod]
  congr 1
  funext k
  congr 1
  funext rs
  cases hK : PublicKey.fromElement B (k • B.gen) with
  | none =>
    have : Keypair.generate B.withTape [k] = none := by
      have : PublicKey.ofSecret B.withTape k = none := hK
      simp [Keypair.generate, SecretKey.generate, this]
    simp only [this, onKey, hK]
  | some K =>
    have : Keypair.generate B.withTape [k] = some (⟨k, K⟩, []) := by
      have : PublicKey.ofSecret B.withTape k = some K := hK
      simp [Keypair.generate, SecretKey.generate, this]
    have he : K.element = k • B.gen := by
      simp only [PublicKey.fromElement, Option.bind_eq_bind, Option.bind_eq_some_iff, Option.pure_def,
        Option.some.injEq] at hK
      obtain ⟨_, -, rfl⟩ := hK
      rfl
    simp only [this, onKey, hK]
    congr 1
    funext j
    rw [encryptAll_tape]
    simp [he]

/-- C66: encryptions hide messages if the decisional Diffie–Hellman problem is hard: for messages chosen by the
attacker from the public key, the difference of the probabilities to output 1 is the sum of the advantages of
explicit algorithms in the Diffie–Hellman game, each of which calls the attacker once. -/
theorem C66_cpa (B : Backend F E) (hB : B.Lawful) {n : ℕ} (messages messages' : PublicKey E → Fin n → F)
    (guess : PublicKey E → (Fin n → Ciphertext E) → ℚ) :
    cpaGame B messages guess - cpaGame B messages' guess =
      ∑ i, (ddhGap B (hybridReduction B (onKey B (fun _ => 0) fun K j => messages K j • B.gen)
          (onKey B (fun _ => 0) guess) i) -
        ddhGap B (hybridReduction B (onKey B (fun _ => 0) fun K j => messages' K j • B.gen)
          (onKey B (fun _ => 0) guess) i)) := by
  rw [Finset.sum_sub_distrib, ← hybrid_total B hB, ← hybrid_total B hB, cpaGame_eq B, cpaGame_eq B]
  ring

/-- C66: if no algorithm among these reductions has advantage above `ε`, the attacker's advantage is at most
`2·n·ε`. -/
theorem C66_cpa_bound (B : Backend F E) (hB : B.Lawful) {n : ℕ} (messages messages' : PublicKey E → Fin n → F)
    (guess : PublicKey E → (Fin n → Ciphertext E) → ℚ) (ε : ℚ)
    (h : ∀ (m : PublicKey E → Fin n → F) (i : Fin n), m = messages ∨ m = messages' →
      |ddhGap B (hybridReduction B (onKey B (fun _ => 0) fun K j => m K j • B.gen)
        (onKey B (fun _ => 0) guess) i)| ≤ ε) :
    |cpaGame B messages guess - cpaGame B messages' guess| ≤ 2 * n * ε := by
  rw [C66_cpa B hB]
  refine (Finset.abs_sum_le_sum_abs _ _).trans ?_
  have : ∀ i ∈ Finset.univ, |ddhGap B (hybridReduction B (onKey B (fun _ => 0) fun K j => messages K j • B.gen)
          (onKey B (fun _ => 0) guess) i) -
        ddhGap B (hybridReduction B (onKey B (fun _ => 0) fun K j => messages' K j • B.gen)
          (onKey B (fun _ => 0) guess) i)| ≤ 2 * ε := fun i _ => by
    refine (abs_sub _ _).trans ?_
    linarith [h messages i (.inl rfl), h messages' i (.inr rfl)]
  refine (Finset.sum_le_card_nsmul _ _ _ this).trans (le_of_eq ?_)
  rw [Finset.card_univ, Fintype.card_fin, nsmul_eq_mul]
  ring

namespace Toy

/-- An attacker that breaks encryption in the toy group, where logarithms are easy. -/
def exampleGuess (K : PublicKey (ZMod 101)) (cts : Fin 2 → Ciphertext (ZMod 101)) : ℚ :=
  if (cts 1).blinded = 5 + (cts 1).random * K.element then 1 else 0

theorem exampleGuess_wins (m : ZMod 101) :
    cpaGame B101 (fun _ => ![1, m]) exampleGuess = if m = 5 then 1 else 0 := by
  rw [cpaGame_eq B101]
  have : ∀ k : ZMod 101, PublicKey.fromElement B101 (k • B101.gen) = some ⟨[UInt8.ofNat k.val], k⟩ := by
    decide +kernel
  simp only [onKey, this, exampleGuess]
  have h1 : B101.gen = 1 := rfl
  simp [h1, mean_const, mul_comm]

-- the attacker's advantage is 1, so that the reductions have advantage 1 in total
example : ∑ i, (ddhGap B101 (hybridReduction B101 (onKey B101 (fun _ => 0) fun _ j => (![1, 5] j : ZMod 101) • B101.gen)
          (onKey B101 (fun _ => 0) exampleGuess) i) -
        ddhGap B101 (hybridReduction B101 (onKey B101 (fun _ => 0) fun _ j => (![1, 6] j : ZMod 101) • B101.gen)
          (onKey B101 (fun _ => 0) exampleGuess) i)) = 1 := by
  rw [← C66_cpa B101 B101_lawful (fun _ => ![1, 5]) (fun _ => ![1, 6]) exampleGuess, exampleGuess_wins,
    exampleGuess_wins, if_pos rfl, if_neg (by decide)]
  norm_num

-- so one of the reductions has advantage above 1/5
example : ∃ (m : PublicKey (ZMod 101) → Fin 2 → ZMod 101) (i : Fin 2),
    (m = (fun _ => ![1, 5]) ∨ m = fun _ => ![1, 6]) ∧
      1 / 5 < |ddhGap B101 (hybridReduction B101 (onKey B101 (fun _ => 0) fun K j => m K j • B101.gen)
        (onKey B101 (fun _ => 0) exampleGuess) i)| := by
  by_contra hcon
  push Not at hcon
  have := C66_cpa_bound B101 B101_lawful (fun _ => ![1, 5]) (fun _ => ![1, 6]) exampleGuess (1 / 5) hcon
  rw [exampleGuess_wins, exampleGuess_wins, if_pos rfl, if_neg (by decide)] at this
  norm_num at this

-- an attacker that only looks at the first components learns nothing
example (messages messages' : PublicKey (ZMod 101) → Fin 2 → ZMod 101)
    (f : PublicKey (ZMod 101) → ZMod 101 → ZMod 101 → ℚ) :
    |cpaGame B101 messages (fun K cts => f K (cts 0).random (cts 1).random) -
      cpaGame B101 messages' (fun K cts => f K (cts 0).random (cts 1).random)| ≤ 2 * (2 : ℕ) * 0 := by
  refine C66_cpa_bound B101 B101_lawful _ _ _ _ fun m i _ => ?_
  have hK : ∀ k : ZMod 101, PublicKey.fromElement B101 k = some ⟨[UInt8.ofNat k.val], k⟩ := by
    decide +kernel
  rw [ddhGap, mean_prod, mean_prod]
  fin_cases i <;> simp [hybridReduction, onKey, hK, mean_prod, mean_const]

end Toy

/-! ## C67: ballots -/

section
variable [DecidableEq F] [DecidableEq E]

theorem Backend.Lawful.finite {B : Backend F E} (hB : B.Lawful) : Finite E :=
  Finite.of_surjective (fun k : F => k • B.gen) fun e => (hB.gen_spans e).imp fun _ h => h.symm

/-- The key pairs generated from `k`. -/
theorem generate_tape (B : Backend F E) (hT : B.TotalSer) (k : F) :
    Keypair.generate B.withTape [k] = some (⟨k, ⟨encOf B (k • B.gen), k • B.gen⟩⟩, []) ∧
    PublicKey.fromElement B (k • B.gen) = some ⟨encOf B (k • B.gen), k • B.gen⟩ := by
  obtain ⟨b, hb⟩ := hT (k • B.gen)
  have h : PublicKey.fromElement B (k • B.gen) = some ⟨encOf B (k • B.gen), k • B.gen⟩ := by
    simp [PublicKey.fromElement, hb, encOf]
  refine ⟨?_, h⟩
  have h' : PublicKey.ofSecret B.withTape k = some ⟨encOf B (k • B.gen), k • B.gen⟩ := h
  simp [Keypair.generate, SecretKey.generate, h']

/-- C67: an honest ballot together with the random hash function is distributed like a simulated one: the
ciphertexts are encryptions of the selection, the scalars of all proofs are uniformly random, and the hash function is
a random one changed at one place per proof. The simulation does not use the selection or the randomness of the
ciphertexts. The distributions are the same, without any error. -/
theorem C67_simulation (B : Backend F E) (hB : B.Lawful) (hT : B.TotalSer) (o : ℕ) (ho : 0 < o) :
    ∃ D₀ : Finset (List Entry), ∀ D, D₀ ⊆ D → ∀ (H₀ : List Entry → F) (kind : ChoiceKind) (k : F)
      (votes : Fin o → Bool), (kind = .single → (List.ofFn votes).count true = 1) →
      ∀ (K : PublicKey E), PublicKey.ofSecret B k = some K →
      ∀ guess : (List Entry → F) → PublicKey E → Option (EncryptedChoice F E kind) → ℚ,
      (meanHash D H₀ fun H => mean fun tape : Fin (choiceDraws o kind) → F =>
        guess H K ((EncryptedChoice.new (B.withHash H).withTape ⟨o, K⟩ (List.ofFn votes) (List.ofFn tape)).map
          Prod.fst)) =
      mean fun rs : Fin o → F => simulatedGuess B D H₀ guess K fun j =>
        (K.encrypt B.withTape (if votes j then 1 else 0) [rs j]).1 := by
  have := hB.finite
  refine ⟨(choiceData_finite B o).toFinset, fun D hD H₀ kind k votes hone K hK guess => ?_⟩
  have hK' : K = ⟨encOf B (k • B.gen), k • B.gen⟩ :=
    Option.some.inj (hK.symm.trans (generate_tape B hT k).2)
  rw [choice_simulation B hB hT ho.ne' K k (by rw [hK']) (by rw [hK']) D hD H₀ votes hone guess]
  congr 1
  funext rs
  congr 1
  funext j
  show _ = (⟨rs j • B.gen, (if votes j then (1 : F) else 0) • B.gen + rs j • K.element⟩ : Ciphertext E)
  cases votes j <;> simp

theorem choiceGame_eq (B : Backend F E) (hB : B.Lawful) (hT : B.TotalSer) [Finite E] {o : ℕ} (ho : 0 < o)
    (D : Finset (List Entry)) (hD : (choiceData_finite B o).toFinset ⊆ D) (H₀ : List Entry → F) {kind : ChoiceKind}
    (votes : PublicKey E → Fin o → Bool) (hone : ∀ K, kind = .single → (List.ofFn (votes K)).count true = 1)
    (guess : (List Entry → F) → PublicKey E → Option (EncryptedChoice F E kind) → ℚ) :
    choiceGame B D H₀ kind votes guess = mean fun k : F => mean fun rs : Fin o → F =>
      onKey B (fun _ => 0) (simulatedGuess B D H₀ guess) (k • B.gen) fun j =>
        ⟨rs j • B.gen, onKey B (fun _ => 0) (fun K j => if votes K j then B.gen else 0) (k • B.gen) j +
          rs j • k • B.gen⟩ := by
  rw [choiceGame]
  congr 1
  funext k
  simp only [(generate_tape B hT k).1, onKey, (generate_tape B hT k).2]
  exact choice_simulation B hB hT ho.ne' _ k rfl rfl D hD H₀ _ (hone _) guess

/-- C67: ballots hide the selection if the decisional Diffie–Hellman problem is hard, for a random hash function: for
selections chosen by the attacker from the public key, the difference of the probabilities to output 1 is the sum of
the advantages of explicit algorithms in the Diffie–Hellman game. Each of them calls the attacker once, with a
simulated ballot. The attacker may know all of the hash function. -/
theorem C67_choice_private (B : Backend F E) (hB : B.Lawful) (hT : B.TotalSer) (o : ℕ) (ho : 0 < o) :
    ∃ D₀ : Finset (List Entry), ∀ D, D₀ ⊆ D → ∀ (H₀ : List Entry → F) (kind : ChoiceKind)
      (votes votes' : PublicKey E → Fin o → Bool),
      (∀ K, kind = .single → (List.ofFn (votes K)).count true = 1) →
      (∀ K, kind = .single → (List.ofFn (votes' K)).count true = 1) →
      ∀ guess : (List Entry → F) → PublicKey E → Option (EncryptedChoice F E kind) → ℚ,
      choiceGame B D H₀ kind votes guess - choiceGame B D H₀ kind votes' guess =
        ∑ i, (ddhGap B (hybridReduction B (onKey B (fun _ => 0) fun K j => if votes K j then B.gen else 0)
            (onKey B (fun _ => 0) (simulatedGuess B D H₀ guess)) i) -
          ddhGap B (hybridReduction B (onKey B (fun _ => 0) fun K j => if votes' K j then B.gen else 0)
            (onKey B (fun _ => 0) (simulatedGuess B D H₀ guess)) i)) := by
  have := hB.finite
  refine ⟨(choiceData_finite B o).toFinset, fun D hD H₀ kind votes votes' hone hone' guess => ?_⟩
  rw [Finset.sum_sub_distrib, ← hybrid_total B hB, ← hybrid_total B hB, choiceGame_eq B hB hT ho D hD H₀ votes hone,
    choiceGame_eq B hB hT ho D hD H₀ votes' hone']
  ring

/-- One voter's ballot replaced. -/
theorem embedBallot_game (B : Backend F E) (D : Finset (List Entry)) (H₀ : List Entry → F) {n o : ℕ} {kind : ChoiceKind}
    (votes votes' : PublicKey E → Fin n → Fin o → Bool)
    (guess : (List Entry → F) → PublicKey E → (Fin n → Option (EncryptedChoice F E kind)) → ℚ) (v : Fin n)
    (w : PublicKey E → Fin o → Bool) :
    choiceGame B D H₀ kind w (embedBallot B votes votes' guess v) =
      choicesGame B D H₀ kind (fun K i => if i = v then w K else if i < v then votes' K i else votes K i) guess := by
  rw [choiceGame, choicesGame]
  congr 1
  funext k
  split
  · rfl
  · rename_i keypair _ _
    congr 1
    funext H
    simp only [embedBallot]
    rw [mean_comm]
    refine Eq.trans ?_ (mean_update v _)
    congr 1
    funext tapes
    congr 1
    funext tape
    congr 1
    funext i
    by_cases hi : i = v
    · subst hi; simp
    · simp [hi]

/-- C67 for several voters: the attacker sees the ballots of `n` voters and the hash function. If voters select options
according to `votes` or `votes'`, the difference of the probabilities to output 1 is again a sum of advantages in
the Diffie–Hellman game. (Ballots of other voters can be part of `guess`.) -/
theorem C67_choices_private (B : Backend F E) (hB : B.Lawful) (hT : B.TotalSer) (o : ℕ) (ho : 0 < o) :
    ∃ D₀ : Finset (List Entry), ∀ D, D₀ ⊆ D → ∀ (H₀ : List Entry → F) (kind : ChoiceKind) (n : ℕ)
      (votes votes' : PublicKey E → Fin n → Fin o → Bool),
      (∀ K v, kind = .single → (List.ofFn (votes K v)).count true = 1) →
      (∀ K v, kind = .single → (List.ofFn (votes' K v)).count true = 1) →
      ∀ guess : (List Entry → F) → PublicKey E → (Fin n → Option (EncryptedChoice F E kind)) → ℚ,
      choicesGame B D H₀ kind votes guess - choicesGame B D H₀ kind votes' guess =
        ∑ v, ∑ i, (ddhGap B (hybridReduction B (onKey B (fun _ => 0) fun K j => if votes K v j then B.gen else 0)
            (onKey B (fun _ => 0) (simulatedGuess B D H₀ (embedBallot B votes votes' guess v))) i) -
          ddhGap B (hybridReduction B (onKey B (fun _ => 0) fun K j => if votes' K v j then B.gen else 0)
            (onKey B (fun _ => 0) (simulatedGuess B D H₀ (embedBallot B votes votes' guess v))) i)) := by
  obtain ⟨D₀, h⟩ := C67_choice_private B hB hT o ho
  refine ⟨D₀, fun D hD H₀ kind n votes votes' hone hone' guess => ?_⟩
  let mix : ℕ → ℚ := fun t => choicesGame B D H₀ kind
    (fun K i => if i.1 < t then votes' K i else votes K i) guess
  have h0 : choicesGame B D H₀ kind votes guess = mix 0 := by simp [mix]
  have hn : choicesGame B D H₀ kind votes' guess = mix n := by simp [mix]
  rw [h0, hn, ← Finset.sum_range_sub' mix, ← Fin.sum_univ_eq_sum_range fun i => mix i - mix (i + 1)]
  refine Finset.sum_congr rfl fun v _ => ?_
  rw [← h D hD H₀ kind (fun K => votes K v) (fun K => votes' K v) (fun K => hone K v) (fun K => hone' K v),
    embedBallot_game, embedBallot_game]
  congr 1
  · simp only [mix]
    congr 1
    funext K i
    by_cases hi : i = v
    · subst hi; simp
    · simp [hi]
  · simp only [mix]
    congr 1
    funext K i
    by_cases hi : i = v
    · subst hi; simp
    · have : i.1 < v.1 + 1 ↔ i < v := by
        rw [Fin.lt_def]
        have : i.1 ≠ v.1 := fun h => hi (Fin.ext h)
        omega
      simp [hi, this]

end

namespace Toy

/-- An attacker that decrypts the first option in the toy group. -/
def exampleChoiceGuess (_ : List Entry → ZMod 101) (K : PublicKey (ZMod 101))
    (ballot : Option (EncryptedChoice (ZMod 101) (ZMod 101) .single)) : ℚ :=
  match ballot with
  | none => 0
  | some ballot => if (ballot.choices.map (SecretKey.decryptToElement K.element)).head? = some 1 then 1 else 0

theorem exampleChoice_key (votes : Fin 2 → Bool) (hone : (List.ofFn votes).count true = 1)
    (k : ZMod 101) (H : List Entry → ZMod 101) (tape : Fin (choiceDraws 2 .single) → ZMod 101) :
    exampleChoiceGuess H ⟨encOf B101 (k • B101.gen), k • B101.gen⟩
      ((EncryptedChoice.new (B101.withHash H).withTape (kind := .single)
        ⟨2, ⟨encOf B101 (k • B101.gen), k • B101.gen⟩⟩ (List.ofFn votes) (List.ofFn tape)).map Prod.fst) =
      if votes 0 then 1 else 0 := by
  obtain ⟨⟨ballot, rest⟩, hnew⟩ := (C32_choice_total (B101.withHash H).withTape B101_total (kind := .single)
    ⟨2, ⟨encOf B101 (k • B101.gen), k • B101.gen⟩⟩ (List.ofFn votes) (List.ofFn tape)).mpr ⟨by simp, by simp⟩
  obtain ⟨-, -, hdec, -⟩ := C32_choice_complete (B101.withHash H).withTape (kind := .single)
    ⟨2, ⟨encOf B101 (k • B101.gen), k • B101.gen⟩⟩ k rfl _ (fun _ => hone) _ _ _ hnew
  have hk : k • B101.gen = k := mul_one k
  rw [hnew]
  simp only [Option.map_some, exampleChoiceGuess]
  rw [hk, hdec]
  cases h : votes 0
  · have : ¬ (0 : ZMod 101) = 1 := by decide
    simp [h, this]
  · have : B101.gen = 1 := rfl
    simp [h, this]

theorem exampleChoice_wins (D : Finset (List Entry)) (H₀ : List Entry → ZMod 101) (votes : Fin 2 → Bool)
    (hone : (List.ofFn votes).count true = 1) :
    choiceGame B101 D H₀ .single (fun _ => votes) exampleChoiceGuess = if votes 0 then 1 else 0 := by
  rw [choiceGame]
  simp only [(generate_tape B101 B101_total _).1, exampleChoice_key votes hone, mean_const, meanHash_const]

-- the attacker's advantage is 1: so some reduction has advantage at least 1/4
example : ∃ D₀ : Finset (List Entry), ∀ D, D₀ ⊆ D → ∀ H₀ : List Entry → ZMod 101,
    ∑ i, (ddhGap B101 (hybridReduction B101 (onKey B101 (fun _ => 0) fun _ j => if ![true, false] j then B101.gen else 0)
        (onKey B101 (fun _ => 0) (simulatedGuess B101 D H₀ exampleChoiceGuess)) i) -
      ddhGap B101 (hybridReduction B101 (onKey B101 (fun _ => 0) fun _ j => if ![false, true] j then B101.gen else 0)
        (onKey B101 (fun _ => 0) (simulatedGuess B101 D H₀ exampleChoiceGuess)) i)) = 1 := by
  obtain ⟨D₀, h⟩ := C67_choice_private B101 B101_lawful B101_total 2 (by norm_num)
  refine ⟨D₀, fun D hD H₀ => ?_⟩
  rw [← h D hD H₀ .single (fun _ => ![true, false]) (fun _ => ![false, true]) (fun _ _ => by decide)
    (fun _ _ => by decide) exampleChoiceGuess, exampleChoice_wins D H₀ _ (by decide),
    exampleChoice_wins D H₀ _ (by decide)]
  simp

-- hypotheses of the other statements: three voters in a single-choice poll swap their votes
example : ∃ D₀ : Finset (List Entry), ∀ D, D₀ ⊆ D → ∀ (H₀ : List Entry → ZMod 101)
    (guess : (List Entry → ZMod 101) → PublicKey (ZMod 101) →
      (Fin 3 → Option (EncryptedChoice (ZMod 101) (ZMod 101) .single)) → ℚ),
    ∃ gaps : Fin 3 → Fin 2 → ℚ,
    choicesGame B101 D H₀ .single (fun _ v => if v = 0 then ![true, false] else ![false, true]) guess -
      choicesGame B101 D H₀ .single (fun _ v => if v = 2 then ![true, false] else ![false, true]) guess =
      ∑ v, ∑ i, gaps v i := by
  obtain ⟨D₀, h⟩ := C67_choices_private B101 B101_lawful B101_total 2 (by norm_num)
  exact ⟨D₀, fun D hD H₀ guess => ⟨_, h D hD H₀ .single 3 _ _ (fun _ v _ => by revert v; decide)
    (fun _ v _ => by revert v; decide) guess⟩⟩

example : ∃ D₀ : Finset (List Entry), ∀ D, D₀ ⊆ D → ∀ H₀ : List Entry → ZMod 101,
    mean (fun rs : Fin 2 → ZMod 101 => simulatedGuess B101 D H₀ exampleChoiceGuess ⟨[42], 42⟩ fun j =>
        (PublicKey.encrypt B101.withTape ⟨[42], 42⟩ (if ![true, false] j then 1 else 0) [rs j]).1) = 1 := by
  obtain ⟨D₀, h⟩ := C67_simulation B101 B101_lawful B101_total 2 (by norm_num)
  refine ⟨D₀, fun D hD H₀ => ?_⟩
  rw [← h D hD H₀ .single 42 ![true, false] (fun _ => by decide) ⟨[42], 42⟩ (by decide)]
  have hK : (⟨[42], 42⟩ : PublicKey (ZMod 101)) =
      ⟨encOf B101 ((42 : ZMod 101) • B101.gen), (42 : ZMod 101) • B101.gen⟩ := by decide
  simp only [hK, exampleChoice_key ![true, false] (by decide), mean_const, meanHash_const]
  rfl

end Toy

end ElasticElgamal
