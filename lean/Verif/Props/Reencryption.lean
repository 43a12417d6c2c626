import Verif.Spec.Reencryption
import Verif.Props.Privacy
import Verif.Props.RandomOracle

/-!
# C92: ciphertexts can be re-encrypted, and changed without knowing the message
-/

set_option autoImplicit false
set_option linter.unusedSectionVars false

namespace ElasticElgamal

open Spec Toy

variable {F E : Type} [Field F] [AddCommGroup E] [Module F E]

/-! ## Re-encryption -/

/-- C92: adding the result of `encrypt_zero` keeps the message, and everybody can check it. -/
theorem C92_reencrypt [DecidableEq F] (B : Backend F E) (k : F) (K : PublicKey E) (hK : K.element = k • B.gen)
    (rng rng' : B.Rng) (zero : Ciphertext E) (proof : LogEqualityProof F)
    (h : K.encryptZero B rng = some ((zero, proof), rng')) (ct : Ciphertext E) :
    K.verifyZero B ((ct.add zero).sub ct) proof = some (.ok ()) ∧
      SecretKey.decryptToElement k (ct.add zero) = SecretKey.decryptToElement k ct := by
  obtain ⟨h1, r, h2, h3⟩ := C21_zero_complete B k K hK rng rng' zero proof h
  constructor
  · rwa [show (ct.add zero).sub ct = zero by simp [Ciphertext.add, Ciphertext.sub]]
  · simp only [SecretKey.decryptToElement, Ciphertext.add, h2, h3]
    module

example : ∃ zero proof rng', PublicKey.encryptZero B101 ⟨[42], 42⟩ (5 : ℕ) = some ((zero, proof), rng') ∧
    SecretKey.decryptToElement (42 : ZMod 101) ((⟨3, 4⟩ : Ciphertext (ZMod 101)).add zero) =
      SecretKey.decryptToElement (42 : ZMod 101) ⟨3, 4⟩ := by
  obtain ⟨⟨⟨z, p⟩, r⟩, h⟩ := C21_zero_total B101 B101_total ⟨[42], 42⟩ (5 : ℕ)
  exact ⟨z, p, r, h, (C92_reencrypt B101 42 ⟨[42], 42⟩ (by decide) _ _ _ _ h ⟨3, 4⟩).2⟩

/-- C92: if a ciphertext is replaced by another one with a proof that the difference is an encryption of zero, the
message stays the same, except with probability `(q + 1)/|F|` for attackers that evaluate the hash function `q`
times. The attacker may choose key and ciphertexts. -/
theorem C92_replace_bound [Fintype F] [DecidableEq F] [DecidableEq E] (B : Backend F E) (hB : B.Lawful)
    (adv : OracleAlg (List Entry) F (PublicKey E × Ciphertext E × Ciphertext E × LogEqualityProof F))
    (q : ℕ) (hq : adv.AtMost q) :
    ProbLe (fun H => ∃ K ct ct' proof k, adv.run H = (K, ct, ct', proof) ∧ WellFormedKey B K ∧
        K.element = (k : F) • B.gen ∧ K.verifyZero (B.withHash H) (ct'.sub ct) proof = some (.ok ()) ∧
        SecretKey.decryptToElement k ct' ≠ SecretKey.decryptToElement k ct)
      (((q : ℚ) + 1) / Fintype.card F) := by
  refine (probLe_logEqForged hB hq fun o => some ((Transcript.new "zero_encryption").log, o.1,
    ((o.2.2.1.sub o.2.1).random, (o.2.2.1.sub o.2.1).blinded), o.2.2.2)).mono ?_ (by
      simp [hashBound])
  rintro H ⟨K, ct, ct', proof, k, hrun, hK, hk, hv, hne⟩
  simp only [PublicKey.verifyZero, Option.bind_eq_bind, Option.bind_eq_some_iff, Option.pure_def,
    Option.some.injEq, Prod.exists] at hv
  obtain ⟨res, t', hv, rfl⟩ := hv
  refine ⟨_, _, _, _, by rw [hrun], hK, (LogEqualityProof.verify_forged hv).resolve_left ?_⟩
  rintro ⟨r, h1, h2⟩
  apply hne
  simp only [Ciphertext.sub] at h1 h2
  rw [SecretKey.decryptToElement, SecretKey.decryptToElement, sub_eq_sub_iff_sub_eq_sub, h2, hk, ← smul_sub, h1,
    smul_comm]

example := C92_replace_bound B101 B101_lawful
  (.ask [] fun a => .done (⟨[42], 42⟩, ⟨1, 2⟩, ⟨1, 3⟩, ⟨a, 3⟩)) 1 fun _ => trivial

/-- C92: each ciphertext with the same message is the re-encryption for exactly one random scalar. -/
theorem C92_unique (B : Backend F E) (hB : B.Lawful) (k : F) (K : PublicKey E) (hK : K.element = k • B.gen)
    (ct ct' : Ciphertext E) (h : SecretKey.decryptToElement k ct = SecretKey.decryptToElement k ct') (rest : List F) :
    ∃! r : F, ct.add (K.encrypt B.withTape 0 (r :: rest)).1 = ct' := by
  obtain ⟨r, hr⟩ := hB.gen_spans (ct'.random - ct.random)
  obtain ⟨x, y⟩ := ct
  obtain ⟨x', y'⟩ := ct'
  dsimp only at hr
  simp only [SecretKey.decryptToElement] at h
  refine ⟨r, ?_, fun s hs => ?_⟩
  · simp only [PublicKey.encrypt, ExtendedCiphertext.new, SecretKey.generate, Ciphertext.add, Backend.mulGen,
      List.headD_cons, Ciphertext.mk.injEq, hK]
    have hx : x' = x + r • B.gen := by rw [← hr]; abel
    have hy : y' = y - k • x + k • x' := by rw [h]; abel
    refine ⟨hx.symm, ?_⟩
    rw [hy, hx]
    module
  · simp only [PublicKey.encrypt, ExtendedCiphertext.new, SecretKey.generate, Ciphertext.add, Backend.mulGen,
      List.headD_cons, Ciphertext.mk.injEq] at hs
    refine hB.smul_gen_inj ?_
    rw [← hr, ← hs.1]
    abel

example : ∃! r : ZMod 101, (⟨3, 4⟩ : Ciphertext (ZMod 101)).add
    (PublicKey.encrypt B101.withTape ⟨[42], 42⟩ 0 (r :: [])).1 = ⟨5, 88⟩ :=
  C92_unique B101 B101_lawful 42 ⟨[42], 42⟩ (by decide) ⟨3, 4⟩ ⟨5, 88⟩ (by decide) []

theorem reencryptAll_tape (B : Backend F E) (K : PublicKey E) : ∀ {n : ℕ} (c : Fin n → Ciphertext E) (r : Fin n → F),
    reencryptAll B.withTape K (List.ofFn c) (List.ofFn r) =
      List.ofFn fun j => (c j).add ⟨r j • B.gen, r j • K.element⟩
  | 0, _, _ => by simp [reencryptAll]
  | n + 1, c, r => by
    rw [List.ofFn_succ, List.ofFn_succ, List.ofFn_succ, reencryptAll]
    congr 1
    · simp [PublicKey.encrypt, ExtendedCiphertext.new, SecretKey.generate, Backend.mulGen]
    · exact reencryptAll_tape B K (fun j => c j.succ) fun j => r j.succ

variable [Fintype F]

theorem mixGame_eq (B : Backend F E) {n : ℕ} (inputs : PublicKey E → Fin n → Ciphertext E)
    (guess : PublicKey E → (Fin n → Ciphertext E) → ℚ) :
    mixGame B inputs guess = mean fun k : F => mean fun rs : Fin n → F =>
      onKey B (fun _ => 0) (fun K cts => guess K fun j => (inputs K j).add (cts j)) (k • B.gen) fun j =>
        ⟨rs j • B.gen, 0 + rs j • k • B.gen⟩ := by
  rw [mixGame, mean_prod]
  congr 1
  funext k
  congr 1
  funext rs
  cases hK : PublicKey.fromElement B (k • B.gen) with
  | none =>
    have : Keypair.generate B.withTape [k] = none := by
      have : PublicKey.ofSecret B.withTape k = none := hK
      simp [Keypair.generate, SecretKey.generate, this]
    simp only [this, onKey, hK]
  | some K =>
    have : Keypair.generate B.withTape [k] = some (⟨k, K⟩, []) := by
      have : PublicKey.ofSecret B.withTape k = some K := hK
      simp [Keypair.generate, SecretKey.generate, this]
    have he : K.element = k • B.gen := by
      simp only [PublicKey.fromElement, Option.bind_eq_bind, Option.bind_eq_some_iff, Option.pure_def,
        Option.some.injEq] at hK
      obtain ⟨_, -, rfl⟩ := hK
      rfl
    simp only [this, onKey, hK]
    congr 1
    funext j
    rw [reencryptAll_tape]
    simp [he]

theorem mixReduction_eq (B : Backend F E) {n : ℕ} (inputs : PublicKey E → Fin n → Ciphertext E)
    (guess : PublicKey E → (Fin n → Ciphertext E) → ℚ) (i : Fin n) :
    mixReduction B inputs guess i = hybridReduction B (fun _ _ => 0)
      (onKey B (fun _ => 0) fun K cts => guess K fun j => (inputs K j).add (cts j)) i := by
  funext X Y Z
  rw [mixReduction, hybridReduction]
  simp only [onKey]
  cases PublicKey.fromElement B X with
  | none => simp [mean_const]
  | some K => simp

/-- Adding fixed elements to random ones. -/
theorem mean_shift (B : Backend F E) (hB : B.Lawful) {n : ℕ} (c : Fin n → Ciphertext E)
    (f : (Fin n → Ciphertext E) → ℚ) :
    (mean fun rs : (Fin n → F) × (Fin n → F) => f fun j => (c j).add ⟨rs.1 j • B.gen, rs.2 j • B.gen⟩) =
      mean fun rs : (Fin n → F) × (Fin n → F) => f fun j => ⟨rs.1 j • B.gen, rs.2 j • B.gen⟩ := by
  choose x hx using fun j => hB.gen_spans (c j).random
  choose y hy using fun j => hB.gen_spans (c j).blinded
  rw [← mean_equiv (Equiv.prodCongr (Equiv.addLeft (-x)) (Equiv.addLeft (-y)))]
  congr 1
  funext rs
  congr 1
  funext j
  simp [Ciphertext.add, hx, hy, add_smul]

/-- C92: re-encryption unlinks ciphertexts: whatever two lists of ciphertexts the attacker chooses from the public key
(for example the same ones in different orders), the difference of its probabilities to output 1 for their
re-encryptions is the sum of advantages of explicit algorithms in the decisional Diffie–Hellman game. -/
theorem C92_mix (B : Backend F E) (hB : B.Lawful) {n : ℕ} (inputs inputs' : PublicKey E → Fin n → Ciphertext E)
    (guess : PublicKey E → (Fin n → Ciphertext E) → ℚ) :
    mixGame B inputs guess - mixGame B inputs' guess =
      ∑ i, (ddhGap B (mixReduction B inputs guess i) - ddhGap B (mixReduction B inputs' guess i)) := by
  simp only [mixReduction_eq]
  rw [Finset.sum_sub_distrib, ← hybrid_total B hB, ← hybrid_total B hB, mixGame_eq B, mixGame_eq B]
  have : ∀ inputs : PublicKey E → Fin n → Ciphertext E,
      (mean fun k : F => mean fun rs : (Fin n → F) × (Fin n → F) =>
        onKey B (fun _ => 0) (fun K cts => guess K fun j => (inputs K j).add (cts j)) (k • B.gen) fun j =>
          ⟨rs.1 j • B.gen, rs.2 j • B.gen⟩) =
      mean fun k : F => mean fun rs : (Fin n → F) × (Fin n → F) =>
        onKey B (fun _ => 0) guess (k • B.gen) fun j => ⟨rs.1 j • B.gen, rs.2 j • B.gen⟩ := by
    intro inputs
    congr 1
    funext k
    simp only [onKey]
    cases PublicKey.fromElement B (k • B.gen) with
    | none => rfl
    | some K => exact mean_shift B hB (inputs K) (guess K)
  rw [this, this]
  ring

/-- Two ciphertexts in two orders. -/
example (guess : PublicKey (ZMod 101) → (Fin 2 → Ciphertext (ZMod 101)) → ℚ) :
    mixGame B101 (fun _ => ![⟨1, 2⟩, ⟨3, 4⟩]) guess - mixGame B101 (fun _ => ![⟨3, 4⟩, ⟨1, 2⟩]) guess =
      ∑ i, (ddhGap B101 (mixReduction B101 (fun _ => ![⟨1, 2⟩, ⟨3, 4⟩]) guess i) -
        ddhGap B101 (mixReduction B101 (fun _ => ![⟨3, 4⟩, ⟨1, 2⟩]) guess i)) :=
  C92_mix B101 B101_lawful _ _ guess

/-! ## Chosen-ciphertext attacks -/

/-- C92: chosen-ciphertext attacks always succeed (as the documentation says): a single decryption of another ciphertext
tells which message is encrypted. -/
theorem C92_cca [DecidableEq E] (B : Backend F E) (hB : B.Lawful) (hT : B.TotalSer) :
    ∃ attack : CcaAttack E, ccaGame B attack true - ccaGame B attack false = 1 := by
  refine ⟨⟨fun _ => (0, B.gen), fun _ ct => ct.add ⟨0, B.gen⟩, fun _ _ m => decide (m = B.gen + B.gen)⟩, ?_⟩
  have key : ∀ second : Bool, ccaGame B ⟨fun _ => (0, B.gen), fun _ ct => ct.add ⟨0, B.gen⟩,
      fun _ _ m => decide (m = B.gen + B.gen)⟩ second = if second then 1 else 0 := by
    intro second
    rw [ccaGame, ← mean_const (α := F × F) (if second then 1 else 0)]
    congr 1
    funext kr
    obtain ⟨b, hb⟩ := hT (kr.1 • B.gen)
    have hK : PublicKey.ofSecret B.withTape kr.1 = some ⟨b, kr.1 • B.gen⟩ := by
      simp [PublicKey.ofSecret, PublicKey.fromElement, Backend.mulGen, hb]
    have : Keypair.generate B.withTape [kr.1, kr.2] = some (⟨kr.1, ⟨b, kr.1 • B.gen⟩⟩, [kr.2]) := by
      simp [Keypair.generate, SecretKey.generate, hK]
    simp only [this]
    have hne : ∀ c : Ciphertext E, c.add ⟨0, B.gen⟩ ≠ c := by
      intro c hc
      have := congrArg Ciphertext.blinded hc
      simp only [Ciphertext.add] at this
      exact hB.gen_ne_zero (by simpa using this)
    have hgg : B.gen ≠ B.gen + B.gen := fun h => hB.gen_ne_zero (by simpa using h)
    have hdec : ∀ m : E, SecretKey.decryptToElement kr.1 ((PublicKey.encryptElement B.withTape
        (⟨b, kr.1 • B.gen⟩ : PublicKey E) m [kr.2]).1.add ⟨0, B.gen⟩) = m + B.gen := by
      intro m
      simp only [SecretKey.decryptToElement, Ciphertext.add, PublicKey.encryptElement, ExtendedCiphertext.new,
        SecretKey.generate, Backend.mulGen, List.headD_cons]
      module
    simp only [hne, hdec, if_false]
    cases second <;> simp [hgg]
  rw [key, key]
  norm_num

example : ∃ attack : CcaAttack (ZMod 101), ccaGame B101 attack true - ccaGame B101 attack false = 1 :=
  C92_cca B101 B101_lawful B101_total

end ElasticElgamal
