import Verif.Props.RandomOracle

/-!
# C93: two range proofs for shorter ranges
-/

set_option autoImplicit false
set_option linter.unusedSectionVars false

namespace ElasticElgamal

open Spec Toy

variable {F E : Type} [Field F] [AddCommGroup E] [Module F E] [DecidableEq F] [DecidableEq E]

/-- C93: proofs that `x` and `n - 1 - x` are in `0..N` show that `x` is in `0..n`; the second proof is for the
ciphertext computed from the first one. An attacker that evaluates the hash function `q` times succeeds for another
ciphertext with at most twice the probability for single proofs (C58). -/
theorem C93_two_bound [Fintype F] (B : Backend F E) (hB : B.Lawful) (p : ℕ) [CharP F p] (K : PublicKey E) (k : F)
    (hK : K.element = k • B.gen) (N : ℕ) (range : PreparedRange E) (hr : PreparedFor B N range) (n : ℕ) (h1 : 1 ≤ n)
    (hn : n ≤ N) (hN : 2 * N ≤ p + n)
    (adv : OracleAlg (List Entry) F (Ciphertext E × RangeProof F E × RangeProof F E)) (q : ℕ) (hq : adv.AtMost q) :
    ProbLe (fun H => ∃ ct proof proof', adv.run H = (ct, proof, proof') ∧
        K.verifyRange (B.withHash H) range ct proof = some (.ok ()) ∧
        K.verifyRange (B.withHash H) range ((Ciphertext.nonBlinded B ((n - 1 : ℕ) : F)).sub ct) proof' = some (.ok ()) ∧
        ∀ x < n, SecretKey.decryptToElement k ct ≠ (x : F) • B.gen)
      (2 * ringsBound (Fintype.card F) q (range.inner.rings.map (·.size))) := by
  refine ((probLe_rangeForged hB K (Transcript.new "ciphertext_range").log hr hq
    fun o => some (o.1, o.2.1)).or (probLe_rangeForged hB K (Transcript.new "ciphertext_range").log hr hq
    fun o => some ((Ciphertext.nonBlinded B ((n - 1 : ℕ) : F)).sub o.1, o.2.2))).mono ?_ (le_of_eq (two_mul _).symm)
  rintro H ⟨ct, proof, proof', hrun, hv, hv', hne⟩
  simp only [PublicKey.verifyRange, Option.bind_eq_bind, Option.bind_eq_some_iff, Option.pure_def,
    Option.some.injEq, Prod.exists] at hv hv'
  obtain ⟨res, t, hv, rfl⟩ := hv
  obtain ⟨res', t', hv', rfl⟩ := hv'
  rcases RangeProof.verify_forged (B := B.withHash H) hr hK hv with ⟨x, hx, r, h4, h5⟩ | hf
  swap
  · exact .inl ⟨_, _, by rw [hrun], hf⟩
  rcases RangeProof.verify_forged (B := B.withHash H) hr hK hv' with ⟨y, hy, s, h6, h7⟩ | hf
  swap
  · exact .inr ⟨_, _, by rw [hrun], hf⟩
  exfalso
  have hdec : SecretKey.decryptToElement k ct = (x : F) • B.gen := by
    rw [SecretKey.decryptToElement, h4, h5]
    show (x : F) • B.gen + r • k • B.gen - k • r • B.gen = _
    module
  have hdec' : ((n - 1 : ℕ) : F) • B.gen - SecretKey.decryptToElement k ct = (y : F) • B.gen := by
    have h6 : (0 : E) - ct.random = s • B.gen := h6
    have h7 : ((n - 1 : ℕ) : F) • B.gen - ct.blinded = (y : F) • B.gen + s • k • B.gen := h7
    have : ct.random = -(s • B.gen) := by rw [← h6]; abel
    rw [SecretKey.decryptToElement, this, sub_sub_eq_add_sub, add_sub_right_comm, h7]
    module
  rw [hdec, ← sub_smul] at hdec'
  have hxy : ((n - 1 : ℕ) : F) = ((x + y : ℕ) : F) := by
    rw [Nat.cast_add, ← hB.smul_gen_inj hdec']
    ring
  rw [CharP.cast_eq_iff_mod_eq F p, Nat.mod_eq_of_lt (show n - 1 < p by omega)] at hxy
  refine hne x ?_ hdec
  by_cases hlt : x + y < p
  · rw [Nat.mod_eq_of_lt hlt] at hxy
    omega
  · rw [Nat.mod_eq_sub_mod (by omega), Nat.mod_eq_of_lt (by omega)] at hxy
    omega

/-- An attacker that has to show that a value is in `0..10` with two proofs for `0..17`. -/
example := C93_two_bound B101 B101_lawful 101 ⟨[42], 42⟩ 42 (by decide) 17 exampleRange exampleRange_prepared 10
  (by norm_num) (by norm_num) (by norm_num)
  (.ask [] fun a => .done (⟨1, 2⟩, ⟨[⟨1, 2⟩], ⟨a, List.replicate 9 1⟩⟩, ⟨[⟨1, 2⟩], ⟨a, List.replicate 9 1⟩⟩)) 1
  fun _ => trivial

/-- C93: both proofs can be made for values in `0..n`, and are accepted. The second one is for the opened ciphertext with
the negated randomness. -/
theorem C93_two_complete (B : Backend F E) (hT : B.TotalSer) (K : PublicKey E) (N : ℕ) (range : PreparedRange E)
    (hr : PreparedFor B N range) (n : ℕ) (hn : n ≤ N) (ct : CiphertextWithValue F E ℕ) (hct : OpenedNat B K.element ct)
    (hv : ct.value < n) (t : Transcript) (rng : B.Rng) :
    ∃ ct' : CiphertextWithValue F E ℕ, ct'.ciphertext = (Ciphertext.nonBlinded B ((n - 1 : ℕ) : F)).sub ct.ciphertext ∧
      ct'.value = n - 1 - ct.value ∧
      ∃ proof t₁ rng₁ proof' t₂ rng₂, RangeProof.fromCiphertext B K range ct t rng = some (proof, t₁, rng₁) ∧
        RangeProof.fromCiphertext B K range ct' t rng₁ = some (proof', t₂, rng₂) ∧
        proof.verify B K range ct.ciphertext t = some (.ok (), t₁) ∧
        proof'.verify B K range ((Ciphertext.nonBlinded B ((n - 1 : ℕ) : F)).sub ct.ciphertext) t =
          some (.ok (), t₂) := by
  refine ⟨⟨⟨(Ciphertext.nonBlinded B ((n - 1 : ℕ) : F)).sub ct.ciphertext, -ct.randomness⟩, n - 1 - ct.value⟩, rfl, rfl,
    ?_⟩
  set ct' : CiphertextWithValue F E ℕ :=
    ⟨⟨(Ciphertext.nonBlinded B ((n - 1 : ℕ) : F)).sub ct.ciphertext, -ct.randomness⟩, n - 1 - ct.value⟩ with hct'
  have ho : OpenedNat B K.element ct' := by
    constructor
    · show (0 : E) - ct.ciphertext.random = (-ct.randomness) • B.gen
      rw [hct.1]
      module
    · show ((n - 1 : ℕ) : F) • B.gen - ct.ciphertext.blinded =
        ((n - 1 - ct.value : ℕ) : F) • B.gen + (-ct.randomness) • K.element
      have : ((n - 1 - ct.value : ℕ) : F) = ((n - 1 : ℕ) : F) - (ct.value : F) := Nat.cast_sub (by omega)
      rw [hct.2, this]
      module
  obtain ⟨⟨proof, t₁, rng₁⟩, h1⟩ := C30_range_total B hT N range hr K ct hct (by omega) t rng
  obtain ⟨⟨proof', t₂, rng₂⟩, h2⟩ := C30_range_total B hT N range hr K ct' ho (show n - 1 - ct.value < N by omega) t rng₁
  exact ⟨proof, t₁, rng₁, proof', t₂, rng₂, h1, h2, C30_range_complete B N range hr K ct hct t t₁ rng rng₁ proof h1,
    C30_range_complete B N range hr K ct' ho t t₂ rng₁ rng₂ proof' h2⟩

example := C93_two_complete B101 B101_total ⟨[42], 42⟩ 17 exampleRange exampleRange_prepared 10 (by norm_num)
  ⟨⟨⟨5, 8 + 5 * 42⟩, 5⟩, 8⟩ ⟨by decide, by decide⟩ (by decide) (Transcript.new "test") (3 : ℕ)

/-- C93: the condition on the length of the range is exact: otherwise both proofs can be made for some value that is not
in `0..n`. -/
theorem C93_two_long (B : Backend F E) (hT : B.TotalSer) (p : ℕ) [CharP F p] (K : PublicKey E) (N : ℕ)
    (range : PreparedRange E) (hr : PreparedFor B N range) (n : ℕ) (h1 : 1 ≤ n) (hNp : N ≤ p) (hN : p + n < 2 * N)
    (ct : CiphertextWithValue F E ℕ) (hct : OpenedNat B K.element ct) (hv : ct.value = N - 1) (t : Transcript)
    (rng : B.Rng) :
    (∀ x < n, (ct.value : F) ≠ (x : F)) ∧
    ∃ (proof proof' : RangeProof F E) (t₁ t₂ : Transcript), proof.verify B K range ct.ciphertext t = some (.ok (), t₁) ∧
      proof'.verify B K range ((Ciphertext.nonBlinded B ((n - 1 : ℕ) : F)).sub ct.ciphertext) t =
        some (.ok (), t₂) := by
  refine ⟨fun x hx => ?_, ?_⟩
  · rw [Ne, CharP.cast_eq_iff_mod_eq F p, Nat.mod_eq_of_lt (by omega), Nat.mod_eq_of_lt (by omega)]
    omega
  set ct' : CiphertextWithValue F E ℕ :=
    ⟨⟨(Ciphertext.nonBlinded B ((n - 1 : ℕ) : F)).sub ct.ciphertext, -ct.randomness⟩, n + p - N⟩ with hct'
  have ho : OpenedNat B K.element ct' := by
    constructor
    · show (0 : E) - ct.ciphertext.random = (-ct.randomness) • B.gen
      rw [hct.1]
      module
    · show ((n - 1 : ℕ) : F) • B.gen - ct.ciphertext.blinded =
        ((n + p - N : ℕ) : F) • B.gen + (-ct.randomness) • K.element
      have : ((n + p - N : ℕ) : F) = ((n - 1 : ℕ) : F) - (ct.value : F) := by
        rw [eq_sub_iff_add_eq, ← Nat.cast_add, hv, show n + p - N + (N - 1) = n - 1 + p by omega, Nat.cast_add,
          CharP.cast_eq_zero F p, add_zero]
      rw [hct.2, this]
      module
  obtain ⟨⟨proof, t₁, rng₁⟩, h1⟩ := C30_range_total B hT N range hr K ct hct (by omega) t rng
  obtain ⟨⟨proof', t₂, rng₂⟩, h2⟩ := C30_range_total B hT N range hr K ct' ho (show n + p - N < N by omega) t rng₁
  exact ⟨proof, proof', t₁, t₂, C30_range_complete B N range hr K ct hct t t₁ rng rng₁ proof h1,
    C30_range_complete B N range hr K ct' ho t t₂ rng₁ rng₂ proof' h2⟩

/-- The value 59 has proofs for 59 and for 9 - 59 = 51 modulo 101 in the range `0..60`. -/
example : ∃ range : PreparedRange (ZMod 101), PreparedFor B101 60 range ∧
    ∃ (proof proof' : RangeProof (ZMod 101) (ZMod 101)) (t₁ t₂ : Transcript),
      proof.verify B101 ⟨[42], 42⟩ range ⟨5, 59 + 5 * 42⟩ (Transcript.new "test") = some (.ok (), t₁) ∧
      proof'.verify B101 ⟨[42], 42⟩ range ((Ciphertext.nonBlinded B101 ((10 - 1 : ℕ) : ZMod 101)).sub ⟨5, 59 + 5 * 42⟩)
        (Transcript.new "test") = some (.ok (), t₂) := by
  obtain ⟨d, range, -, -, hr, -⟩ := C26_prepared_total B101 RangeDecomposition.exactLowerLenEstimate C27_estimate_exact 60
    (by norm_num) (by norm_num)
  exact ⟨range, hr, (C93_two_long B101 B101_total 101 ⟨[42], 42⟩ 60 range hr 10 (by norm_num) (by norm_num) (by norm_num)
    ⟨⟨⟨5, 59 + 5 * 42⟩, 5⟩, 59⟩ ⟨by decide, by decide⟩ rfl (Transcript.new "test") (3 : ℕ)).2⟩

end ElasticElgamal
