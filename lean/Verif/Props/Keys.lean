import Verif.Spec.Keys
import Verif.Lemmas.Basic
import Verif.Toy

/-!
# C01–C07: keys, encryption, parsing
-/

set_option autoImplicit false
set_option linter.unusedSectionVars false

namespace ElasticElgamal

open Spec Toy

variable {F E : Type} [Field F] [AddCommGroup E] [Module F E]

/-! ## C01 -/

/-- C01: decrypting what `encrypt_element` produced returns the encrypted element, for every receiver
key object whose element is `[k]G`, every element and RNG state. -/
theorem C01_decrypt_encryptElement (B : Backend F E) (k : F) (pk : PublicKey E)
    (hpk : pk.element = k • B.gen) (m : E) (rng : B.Rng) :
    SecretKey.decryptToElement k (PublicKey.encryptElement B pk m rng).1 = m ∧
      Encrypts B k (PublicKey.encryptElement B pk m rng).1 m := by
  refine ⟨?_, (B.genScalar rng).1, ?_⟩
  · simp only [SecretKey.decryptToElement, PublicKey.encryptElement, ExtendedCiphertext.new,
      SecretKey.generate, Backend.mulGen, hpk]
    module
  · simp [PublicKey.encryptElement, ExtendedCiphertext.new, SecretKey.generate, Backend.mulGen, hpk]

example : SecretKey.decryptToElement (42 : ZMod 101) (PublicKey.encryptElement B101 ⟨[42], 42⟩ 77 (3 : ℕ)).1 = 77 :=
  (C01_decrypt_encryptElement B101 42 ⟨[42], 42⟩ (by decide) 77 (3 : ℕ)).1

/-- C01: decrypting what `encrypt` produced returns `[v]G`. -/
theorem C01_decrypt_encrypt (B : Backend F E) (k : F) (pk : PublicKey E)
    (hpk : pk.element = k • B.gen) (v : F) (rng : B.Rng) :
    SecretKey.decryptToElement k (PublicKey.encrypt B pk v rng).1 = v • B.gen ∧
      Encrypts B k (PublicKey.encrypt B pk v rng).1 (v • B.gen) :=
  C01_decrypt_encryptElement B k pk hpk (v • B.gen) rng

example : Encrypts B101 42 (PublicKey.encrypt B101 ⟨[42], 42⟩ 5 (3 : ℕ)).1 5 :=
  (C01_decrypt_encrypt B101 42 ⟨[42], 42⟩ (by decide) 5 (3 : ℕ)).2

/-- C01 for generated key pairs: the pair returned by `Keypair::generate` decrypts what is encrypted to
its public key. -/
theorem C01_keypair_generate (B : Backend F E) (rng rng' rng'' : B.Rng) (kp : Keypair F E)
    (h : Keypair.generate B rng = some (kp, rng')) (m : E) :
    SecretKey.decryptToElement kp.secret (PublicKey.encryptElement B kp.publicKey m rng'').1 = m := by
  refine (C01_decrypt_encryptElement B kp.secret kp.publicKey ?_ m rng'').1
  simp only [Keypair.generate, PublicKey.ofSecret, PublicKey.fromElement, Option.bind_eq_bind,
    Option.bind_eq_some_iff, Option.pure_def, Option.some.injEq, Prod.mk.injEq] at h
  obtain ⟨pk, ⟨b, hb, rfl⟩, rfl, -⟩ := h
  rfl

example : SecretKey.decryptToElement (25 : ZMod 101) (PublicKey.encryptElement B101 ⟨[25], 25⟩ 77 (9 : ℕ)).1 = 77 :=
  C01_keypair_generate B101 (3 : ℕ) (4 : ℕ) (9 : ℕ) ⟨25, ⟨[25], 25⟩⟩ rfl 77

/-- C01, soundness of the specification: a ciphertext is an encryption of `m` in the sense of `Encrypts`
iff it decrypts to `m` (for lawful backends); so "decrypts to" and "encrypts" coincide. -/
theorem C01_encrypts_iff_decrypts (B : Backend F E) (hB : B.Lawful) (k : F) (c : Ciphertext E) (m : E) :
    Encrypts B k c m ↔ SecretKey.decryptToElement k c = m := by
  constructor
  · rintro ⟨r, h1, h2⟩
    rw [SecretKey.decryptToElement, h1, h2]
    module
  · intro h
    obtain ⟨r, hr⟩ := hB.gen_spans c.random
    refine ⟨r, hr, ?_⟩
    rw [← h, SecretKey.decryptToElement, hr]
    module

example : Encrypts B101 42 ⟨3, 30⟩ (5 : ZMod 101) ∧ ¬ Encrypts B101 42 ⟨3, 30⟩ (6 : ZMod 101) :=
  ⟨(C01_encrypts_iff_decrypts B101 B101_lawful 42 ⟨3, 30⟩ 5).mpr (by decide),
    fun h => absurd ((C01_encrypts_iff_decrypts B101 B101_lawful 42 ⟨3, 30⟩ 6).mp h) (by decide)⟩

example : ∃ pk : PublicKey (ZMod 101), KeyOf B101 pk 42 ∧
    SecretKey.decryptToElement (42 : ZMod 101) (PublicKey.encrypt B101 pk 5 (3 : ℕ)).1 = 5 :=
  ⟨⟨[42], 42⟩, by constructor <;> decide, by decide⟩

/-! ## C02 -/

omit [Field F] [Module F E] in
theorem lookup_eq_some {l : List (Bytes × ℕ)} {b : Bytes} {v : ℕ} (h : l.lookup b = some v) :
    (b, v) ∈ l := by
  induction l with
  | nil => cases h
  | cons x xs ih =>
    obtain ⟨k, w⟩ := x
    rw [List.lookup_cons] at h
    split at h
    · rename_i hk
      cases h
      have : b = k := by simpa using hk
      subst this
      exact List.mem_cons_self
    · exact List.mem_cons_of_mem _ (ih h)

theorem lookup_isSome {l : List (Bytes × ℕ)} {b : Bytes} {v : ℕ} (h : (b, v) ∈ l) :
    ∃ w, l.lookup b = some w := by
  induction l with
  | nil => cases h
  | cons x xs ih =>
    obtain ⟨k, w⟩ := x
    rw [List.lookup_cons]
    split
    · exact ⟨w, rfl⟩
    · rename_i hk
      rcases List.mem_cons.mp h with h | h
      · cases h; simp at hk
      · exact ih h

theorem foldl_cons_eq {α : Type} (l acc : List α) :
    l.foldl (fun table kv => kv :: table) acc = l.reverse ++ acc := by
  induction l generalizing acc with
  | nil => rfl
  | cons x xs ih => simp [ih]

/-- The table contains exactly the pairs (encoding of `[v]G`, `v`) for nonzero requested values. -/
theorem table_mem {B : Backend F E} {values : List ℕ} {table : DiscreteLogTable}
    (h : DiscreteLogTable.new B values = some table) (b : Bytes) (v : ℕ) :
    (b, v) ∈ table.inner ↔ v ∈ values ∧ v ≠ 0 ∧ B.serElem ((v : F) • B.gen) = some b := by
  simp only [DiscreteLogTable.new, Option.bind_eq_bind, Option.bind_eq_some_iff, Option.pure_def,
    Option.some.injEq] at h
  obtain ⟨pairs, hp, rfl⟩ := h
  rw [mapM_option_eq_some] at hp
  simp only [foldl_cons_eq, List.append_nil, List.mem_reverse]
  have key : ∀ (vs : List ℕ) (ps : List (Bytes × ℕ)),
      List.Forall₂ (fun (i : ℕ) kv => ((B.serElem (B.mulGen (i : F))).bind fun bytes =>
        some (bytes, i)) = some kv) vs ps →
      ((b, v) ∈ ps ↔ v ∈ vs ∧ B.serElem ((v : F) • B.gen) = some b) := by
    intro vs ps hf
    induction hf with
    | nil => simp
    | cons h1 h2 ih =>
      simp only [Option.bind_eq_some_iff, Option.some.injEq] at h1
      obtain ⟨bytes, hb, rfl⟩ := h1
      simp only [List.mem_cons, ih, Prod.mk.injEq]
      constructor
      · rintro (⟨rfl, rfl⟩ | ⟨h, h'⟩)
        · exact ⟨.inl rfl, hb⟩
        · exact ⟨.inr h, h'⟩
      · rintro ⟨rfl | h, h'⟩
        · rw [Backend.mulGen, h'] at hb
          exact .inl ⟨Option.some.inj hb, rfl⟩
        · exact .inr ⟨h, h'⟩
  rw [key _ _ hp]
  simp only [List.mem_filter, decide_eq_true_eq]
  tauto

variable [DecidableEq E]

/-- C02: constructing a table never panics when the group order exceeds `2^64`. -/
theorem C02_new_total (B : Backend F E) (hB : B.Lawful) (hu : Backend.U64Inj F) (values : List ℕ)
    (hv : ∀ v ∈ values, v < 2 ^ 64) : ∃ table, DiscreteLogTable.new B values = some table := by
  have : ∃ pairs, (values.filter (fun value => decide (value ≠ 0))).mapM (fun (i : ℕ) => do
      let bytes ← B.serElem (B.mulGen (i : F))
      return (bytes, i)) = some pairs := by
    refine mapM_option_exists fun v hmem => ?_
    simp only [List.mem_filter, decide_eq_true_eq] at hmem
    have hne : B.mulGen (v : F) ≠ 0 := by
      intro h0
      have := hB.smul_gen_eq_zero h0
      exact hmem.2 (hu v 0 (hv v hmem.1) (by norm_num) (by simpa using this))
    obtain ⟨b, hb⟩ := hB.serElem_ne_zero _ hne
    exact ⟨(b, v), by simp [hb]⟩
  obtain ⟨pairs, hp⟩ := this
  exact ⟨⟨pairs.foldl (fun table kv => kv :: table) []⟩, by
    simp only [DiscreteLogTable.new, hp]; rfl⟩

/-- C02: a lookup never panics. -/
theorem C02_get_total (B : Backend F E) (hB : B.Lawful) (table : DiscreteLogTable) (e : E) :
    ∃ r, table.get B e = some r := by
  by_cases h : e = 0
  · exact ⟨some 0, by simp [DiscreteLogTable.get, h]⟩
  · obtain ⟨b, hb⟩ := hB.serElem_ne_zero e h
    exact ⟨table.inner.lookup b, by simp [DiscreteLogTable.get, h, hb]⟩

example : ∃ r, (⟨[([7], 7)]⟩ : DiscreteLogTable).get B101 8 = some r := C02_get_total B101 B101_lawful _ 8

/-- C02: an answer `Some(v)` is always the discrete log of the element, and it is a requested value
unless it is 0. -/
theorem C02_get_sound (B : Backend F E) (hB : B.Lawful) (values : List ℕ) (table : DiscreteLogTable)
    (h : DiscreteLogTable.new B values = some table) (e : E) (v : ℕ)
    (hg : table.get B e = some (some v)) : e = (v : F) • B.gen ∧ (v ∈ values ∨ v = 0) := by
  unfold DiscreteLogTable.get at hg
  split at hg
  · rename_i he
    cases hg
    exact ⟨by simp [he], .inr rfl⟩
  · simp only [Option.bind_eq_bind, Option.bind_eq_some_iff, Option.pure_def, Option.some.injEq] at hg
    obtain ⟨b, hb, hl⟩ := hg
    have := (table_mem h b v).mp (lookup_eq_some hl)
    exact ⟨hB.serElem_inj hb this.2.2, .inl this.1⟩

example : ∃ table, DiscreteLogTable.new B101 [3, 0, 7] = some table ∧ table.get B101 7 = some (some 7) ∧
    (7 : ZMod 101) = ((7 : ℕ) : ZMod 101) • B101.gen :=
  ⟨⟨[([7], 7), ([3], 3)]⟩, by decide, by decide,
    (C02_get_sound B101 B101_lawful [3, 0, 7] ⟨[([7], 7), ([3], 3)]⟩ (by decide) 7 7 (by decide)).1⟩

/-- C02: every requested value is found. -/
theorem C02_get_complete (B : Backend F E) (hB : B.Lawful) (hu : Backend.U64Inj F) (values : List ℕ)
    (hv : ∀ v ∈ values, v < 2 ^ 64) (table : DiscreteLogTable)
    (h : DiscreteLogTable.new B values = some table) (v : ℕ) (hmem : v ∈ values) :
    table.get B ((v : F) • B.gen) = some (some v) := by
  obtain ⟨r, hr⟩ := C02_get_total B hB table ((v : F) • B.gen)
  rw [hr]
  by_cases h0 : (v : F) • B.gen = 0
  · have hv0 : v = 0 := hu v 0 (hv v hmem) (by norm_num) (by simpa using hB.smul_gen_eq_zero h0)
    simp only [DiscreteLogTable.get, h0, if_true, Option.some.injEq] at hr
    rw [← hr, hv0]
  · obtain ⟨b, hb⟩ := hB.serElem_ne_zero _ h0
    have hne : v ≠ 0 := by rintro rfl; simp at h0
    obtain ⟨w, hw⟩ := lookup_isSome ((table_mem h b v).mpr ⟨hmem, hne, hb⟩)
    simp only [DiscreteLogTable.get, h0, if_false, hb, Option.bind_eq_bind, Option.bind_some,
      Option.pure_def, Option.some.injEq, hw] at hr
    have hw' := (table_mem h b w).mp (lookup_eq_some hw)
    have := hB.smul_gen_inj (hB.serElem_inj hw'.2.2 hb)
    rw [← hr, hu w v (hv w hw'.1) (hv v hmem) this]

/-- C02: elements that are neither the identity nor a multiple of the generator by a requested value
are not found. -/
theorem C02_get_none (B : Backend F E) (hB : B.Lawful) (values : List ℕ) (table : DiscreteLogTable)
    (h : DiscreteLogTable.new B values = some table) (e : E) (he : e ≠ 0)
    (hne : ∀ v ∈ values, e ≠ (v : F) • B.gen) : table.get B e = some none := by
  obtain ⟨r, hr⟩ := C02_get_total B hB table e
  cases r with
  | none => exact hr
  | some v =>
    exfalso
    obtain ⟨h1, h2 | rfl⟩ := C02_get_sound B hB values table h e v hr
    · exact hne v h2 h1
    · simp at h1; exact he h1

/-- C02: decrypting an encryption of a `u64` value with a table that contains it returns the value. -/
theorem C02_decrypt_encrypt (B : Backend F E) (hB : B.Lawful) (hu : Backend.U64Inj F)
    (values : List ℕ) (hv : ∀ v ∈ values, v < 2 ^ 64) (table : DiscreteLogTable)
    (h : DiscreteLogTable.new B values = some table) (k : F) (pk : PublicKey E)
    (hpk : pk.element = k • B.gen) (v : ℕ) (hmem : v ∈ values) (rng : B.Rng) :
    SecretKey.decrypt B k (PublicKey.encrypt B pk (v : F) rng).1 table = some (some v) := by
  rw [SecretKey.decrypt, (C01_decrypt_encrypt B k pk hpk v rng).1]
  exact C02_get_complete B hB hu values hv table h v hmem

example : ∃ table, DiscreteLogTable.new BBig [3, 0, 7, 3] = some table ∧
    SecretKey.decrypt BBig 5 (PublicKey.encrypt BBig ⟨[5], 5 • BBig.gen⟩ ((7 : ℕ) : ZMod bigPrime) (3 : ℕ)).1 table =
      some (some 7) := by
  obtain ⟨table, h⟩ := C02_new_total BBig BBig_lawful bigPrime_u64 [3, 0, 7, 3] (by simp)
  exact ⟨table, h, C02_decrypt_encrypt BBig BBig_lawful bigPrime_u64 [3, 0, 7, 3] (by simp) table h 5 _ rfl 7
    (by simp) (3 : ℕ)⟩

/-- C02, disagreement with the documentation ("Gets the discrete log of `decrypted_element`, or `None`
if it is not present among `values` stored in this table"): the identity is always found. -/
theorem C02_zero_always_found (B : Backend F E) (values : List ℕ) (table : DiscreteLogTable)
    (_h : DiscreteLogTable.new B values = some table) :
    table.get B (0 : E) = some (some 0) := by
  simp [DiscreteLogTable.get]

example : ∃ table, DiscreteLogTable.new BBig [3, 0, 7, 3] = some table ∧
    table.get BBig ((7 : ℕ) • BBig.gen) = some (some 7) ∧
    table.get BBig ((8 : ℕ) • BBig.gen) = some none := by
  obtain ⟨table, h⟩ := C02_new_total BBig BBig_lawful bigPrime_u64 [3, 0, 7, 3] (by simp)
  refine ⟨table, h, ?_, ?_⟩
  · have := C02_get_complete BBig BBig_lawful bigPrime_u64 _ (by simp) table h 7 (by simp)
    rwa [Nat.cast_smul_eq_nsmul] at this
  · have hb : (2 : ℕ) ^ 64 < bigPrime := by norm_num [bigPrime, mersenne]
    refine C02_get_none BBig BBig_lawful _ table h _ ?_ ?_
    · intro h0
      rw [← Nat.cast_smul_eq_nsmul (ZMod bigPrime)] at h0
      have := bigPrime_u64 8 0 (by norm_num) (by norm_num)
        (by simpa using BBig_lawful.smul_gen_eq_zero h0)
      omega
    · intro v hv h0
      rw [← Nat.cast_smul_eq_nsmul (ZMod bigPrime)] at h0
      have h1 := BBig_lawful.smul_gen_inj h0
      have := bigPrime_u64 8 v (by norm_num) (by simp at hv; omega) h1
      simp at hv; omega

/-- The disagreement, on a concrete table which does not contain 0. -/
example : ∃ table, DiscreteLogTable.new BBig [1] = some table ∧
    table.get BBig 0 = some (some 0) := by
  obtain ⟨table, h⟩ := C02_new_total BBig BBig_lawful bigPrime_u64 [1] (by simp)
  exact ⟨table, h, C02_zero_always_found _ _ _ h⟩

omit [DecidableEq E]

/-! ## C03 -/

/-- C03: evaluating an expression on ciphertexts and decrypting equals decrypting and evaluating. -/
theorem C03_homomorphic (B : Backend F E) (k : F) (env : ℕ → Ciphertext E) (e : CtExpr F) :
    SecretKey.decryptToElement k (e.evalCiphertext B env) =
      e.evalPlain B (fun i => SecretKey.decryptToElement k (env i)) := by
  induction e with
  | leaf i => rfl
  | zero => simp [CtExpr.evalCiphertext, CtExpr.evalPlain, SecretKey.decryptToElement, Ciphertext.zero]
  | nonBlinded v =>
    simp [CtExpr.evalCiphertext, CtExpr.evalPlain, SecretKey.decryptToElement, Ciphertext.nonBlinded,
      Backend.mulGen]
  | add a b iha ihb =>
    rw [CtExpr.evalPlain, ← iha, ← ihb]
    simp only [CtExpr.evalCiphertext, SecretKey.decryptToElement, Ciphertext.add]
    module
  | sub a b iha ihb =>
    rw [CtExpr.evalPlain, ← iha, ← ihb]
    simp only [CtExpr.evalCiphertext, SecretKey.decryptToElement, Ciphertext.sub]
    module
  | neg a iha =>
    rw [CtExpr.evalPlain, ← iha]
    simp only [CtExpr.evalCiphertext, SecretKey.decryptToElement, Ciphertext.neg]
    module
  | mul a x iha =>
    rw [CtExpr.evalPlain, ← iha]
    simp only [CtExpr.evalCiphertext, SecretKey.decryptToElement, Ciphertext.mul]
    module
  | mulU64 a x iha =>
    rw [CtExpr.evalPlain, ← iha]
    simp only [CtExpr.evalCiphertext, SecretKey.decryptToElement, Ciphertext.mulU64, Ciphertext.mul]
    module

/-- The difference of ciphertexts, one of them not an encryption made with the right key. -/
example : SecretKey.decryptToElement (42 : ZMod 101)
    ((CtExpr.sub (.leaf 0) (.leaf 1)).evalCiphertext B101 fun i => if i = 0 then ⟨3, 30⟩ else ⟨8, 1⟩) =
    (30 - 42 * 3) - (1 - 42 * 8) := by
  rw [C03_homomorphic]
  decide

/-- C03 for honestly encrypted integers / scalars: if leaf `i` encrypts the scalar `x i`, the result
encrypts the value of the expression on the scalars. -/
theorem C03_homomorphic_scalars (B : Backend F E) (k : F) (env : ℕ → Ciphertext E) (x : ℕ → F)
    (henv : ∀ i, Encrypts B k (env i) (x i • B.gen)) (e : CtExpr F) :
    Encrypts B k (e.evalCiphertext B env) (e.evalScalar x • B.gen) := by
  induction e with
  | leaf i => exact henv i
  | zero => exact ⟨0, by simp [CtExpr.evalCiphertext, CtExpr.evalScalar, Ciphertext.zero]⟩
  | nonBlinded v =>
    exact ⟨0, by simp [CtExpr.evalCiphertext, CtExpr.evalScalar, Ciphertext.nonBlinded, Backend.mulGen]⟩
  | add a b iha ihb =>
    obtain ⟨r, h1, h2⟩ := iha
    obtain ⟨s, h3, h4⟩ := ihb
    refine ⟨r + s, ?_, ?_⟩ <;>
      simp only [CtExpr.evalCiphertext, CtExpr.evalScalar, Ciphertext.add, h1, h2, h3, h4] <;> module
  | sub a b iha ihb =>
    obtain ⟨r, h1, h2⟩ := iha
    obtain ⟨s, h3, h4⟩ := ihb
    refine ⟨r - s, ?_, ?_⟩ <;>
      simp only [CtExpr.evalCiphertext, CtExpr.evalScalar, Ciphertext.sub, h1, h2, h3, h4] <;> module
  | neg a iha =>
    obtain ⟨r, h1, h2⟩ := iha
    refine ⟨-r, ?_, ?_⟩ <;>
      simp only [CtExpr.evalCiphertext, CtExpr.evalScalar, Ciphertext.neg, h1, h2] <;> module
  | mul a y iha =>
    obtain ⟨r, h1, h2⟩ := iha
    refine ⟨y * r, ?_, ?_⟩ <;>
      simp only [CtExpr.evalCiphertext, CtExpr.evalScalar, Ciphertext.mul, h1, h2] <;> module
  | mulU64 a y iha =>
    obtain ⟨r, h1, h2⟩ := iha
    refine ⟨y * r, ?_, ?_⟩ <;>
      simp only [CtExpr.evalCiphertext, CtExpr.evalScalar, Ciphertext.mulU64, Ciphertext.mul, h1, h2] <;>
      module

example : Encrypts B101 42 ((CtExpr.mul (.add (.leaf 0) (.leaf 1)) 3).evalCiphertext B101
    fun i => (PublicKey.encrypt B101 ⟨[42], 42⟩ (i : ZMod 101) i).1) (3 : ZMod 101) :=
  C03_homomorphic_scalars B101 42 _ (fun i => (i : ZMod 101))
    (fun i => (C01_decrypt_encrypt B101 42 ⟨[42], 42⟩ (by decide) _ _).2) (.mul (.add (.leaf 0) (.leaf 1)) 3)

/-- Non-vacuity: (2·c₀ − c₁)·3 + 4 on encryptions of 10 and 7 decrypts to 43. -/
example :
    let pk : PublicKey (ZMod 101) := ⟨[42], 42⟩
    let env : ℕ → Ciphertext (ZMod 101) := fun i =>
      if i = 0 then (PublicKey.encrypt B101 pk 10 (0 : ℕ)).1 else (PublicKey.encrypt B101 pk 7 (1 : ℕ)).1
    let e : CtExpr (ZMod 101) :=
      .add (.mulU64 (.sub (.mul (.leaf 0) 2) (.leaf 1)) 3) (.nonBlinded 4)
    SecretKey.decryptToElement (42 : ZMod 101) (e.evalCiphertext B101 env) = 43 := by
  decide

/-! ## C04 -/

theorem fromElement_eq_some {B : Backend F E} {e : E} {pk : PublicKey E} :
    PublicKey.fromElement B e = some pk ↔ pk.element = e ∧ B.serElem e = some pk.bytes := by
  simp only [PublicKey.fromElement, Option.bind_eq_bind, Option.bind_eq_some_iff, Option.pure_def,
    Option.some.injEq]
  constructor
  · rintro ⟨b, hb, rfl⟩; exact ⟨rfl, hb⟩
  · rintro ⟨rfl, h⟩; exact ⟨_, h, rfl⟩

/-- C04: for any key expression, whenever the public key operations return, the resulting public key is
`[secret]G` for the secret computed by the secret key operations, with matching cached bytes. -/
theorem C04_key_arithmetic (B : Backend F E) (e : KeyExpr F) (pk : PublicKey E)
    (h : e.publicKey B = some pk) : KeyOf B pk e.secret := by
  induction e generalizing pk with
  | leaf s =>
    obtain ⟨h1, h2⟩ := fromElement_eq_some.mp h
    exact ⟨h1, h2⟩
  | add a b iha ihb =>
    simp only [KeyExpr.publicKey, Option.bind_eq_bind, Option.bind_eq_some_iff] at h
    obtain ⟨pa, ha, pb, hb, h⟩ := h
    obtain ⟨h1, h2⟩ := fromElement_eq_some.mp h
    rw [(iha pa ha).1, (ihb pb hb).1, ← add_smul] at h1 h2
    exact ⟨h1, h2⟩
  | mul a k iha =>
    simp only [KeyExpr.publicKey, Option.bind_eq_bind, Option.bind_eq_some_iff] at h
    obtain ⟨pa, ha, h⟩ := h
    obtain ⟨h1, h2⟩ := fromElement_eq_some.mp h
    rw [(iha pa ha).1, smul_smul, mul_comm] at h1 h2
    exact ⟨h1, h2⟩
  | mulU64 a k iha =>
    simp only [KeyExpr.publicKey, Option.bind_eq_bind, Option.bind_eq_some_iff] at h
    obtain ⟨pa, ha, h⟩ := h
    obtain ⟨h1, h2⟩ := fromElement_eq_some.mp h
    rw [(iha pa ha).1, smul_smul, mul_comm] at h1 h2
    exact ⟨h1, h2⟩

example : KeyOf B101 ⟨[81], 81⟩ (5 * 7 + 9 * 50 : ZMod 101) :=
  C04_key_arithmetic B101 (.add (.mulU64 (.leaf 5) 7) (.mul (.leaf 9) 50)) _ (by decide)

/-- C04: with total encodings the public key operations always return. -/
theorem C04_key_arithmetic_total (B : Backend F E) (hT : B.TotalSer) (e : KeyExpr F) :
    ∃ pk, e.publicKey B = some pk ∧ KeyOf B pk e.secret := by
  have hf : ∀ x : E, ∃ pk, PublicKey.fromElement B x = some pk := by
    intro x
    obtain ⟨b, hb⟩ := hT x
    exact ⟨⟨b, x⟩, by simp [PublicKey.fromElement, hb]⟩
  suffices ∃ pk, e.publicKey B = some pk by
    obtain ⟨pk, h⟩ := this
    exact ⟨pk, h, C04_key_arithmetic B e pk h⟩
  induction e with
  | leaf s => exact hf _
  | add a b iha ihb =>
    obtain ⟨pa, ha⟩ := iha
    obtain ⟨pb, hb⟩ := ihb
    obtain ⟨pk, h⟩ := hf (pa.element + pb.element)
    exact ⟨pk, by simp [KeyExpr.publicKey, ha, hb, PublicKey.add, h]⟩
  | mul a k iha =>
    obtain ⟨pa, ha⟩ := iha
    obtain ⟨pk, h⟩ := hf (k • pa.element)
    exact ⟨pk, by simp [KeyExpr.publicKey, ha, PublicKey.mul, h]⟩
  | mulU64 a k iha =>
    obtain ⟨pa, ha⟩ := iha
    obtain ⟨pk, h⟩ := hf ((k : F) • pa.element)
    exact ⟨pk, by simp [KeyExpr.publicKey, ha, PublicKey.mulU64, PublicKey.mul, h]⟩

example : ∃ pk, (KeyExpr.add (.leaf (5 : ZMod 101)) (.leaf 96)).publicKey B101 = some pk ∧ KeyOf B101 pk (5 + 96) :=
  C04_key_arithmetic_total B101 B101_total (.add (.leaf 5) (.leaf 96))

/-- C04: subtracting secret keys subtracts the public elements. -/
theorem C04_secret_sub (B : Backend F E) (a b : F) (pa pb pk : PublicKey E) (ha : KeyOf B pa a)
    (hb : KeyOf B pb b) (h : PublicKey.ofSecret B (SecretKey.sub a b) = some pk) :
    pk.element = pa.element - pb.element := by
  rw [(fromElement_eq_some.mp h).1, ha.1, hb.1]
  simp only [Backend.mulGen, SecretKey.sub]
  module

example : (98 : ZMod 101) = 5 - 8 :=
  C04_secret_sub B101 5 8 ⟨[5], 5⟩ ⟨[8], 8⟩ ⟨[98], 98⟩ (by constructor <;> decide) (by constructor <;> decide)
    (by decide)

/-- C04 for key pairs: pairs produced by `generate`, `From<SecretKey>` are consistent. -/
theorem C04_keypair_new (B : Backend F E) (rng rng' : B.Rng) (s : F) (kp : Keypair F E)
    (h : Keypair.generate B rng = some (kp, rng') ∨ Keypair.ofSecret B s = some kp) :
    KeyOf B kp.publicKey kp.secret := by
  rcases h with h | h
  · simp only [Keypair.generate, Option.bind_eq_bind,
      Option.bind_eq_some_iff, Option.pure_def, Option.some.injEq, Prod.mk.injEq] at h
    obtain ⟨pk, hpk, rfl, -⟩ := h
    exact fromElement_eq_some.mp hpk
  · simp only [Keypair.ofSecret, Option.bind_eq_bind,
      Option.bind_eq_some_iff, Option.pure_def, Option.some.injEq] at h
    obtain ⟨pk, hpk, rfl⟩ := h
    exact fromElement_eq_some.mp hpk

example : KeyOf B101 ⟨[25], 25⟩ (25 : ZMod 101) ∧ KeyOf B101 ⟨[9], 9⟩ (9 : ZMod 101) :=
  ⟨C04_keypair_new B101 (3 : ℕ) (4 : ℕ) 0 ⟨25, ⟨[25], 25⟩⟩ (.inl rfl),
    C04_keypair_new B101 (3 : ℕ) (4 : ℕ) 9 ⟨9, ⟨[9], 9⟩⟩ (.inr (by decide))⟩

/-- C04 for key pairs: any sequence of scalings keeps a consistent pair consistent, and multiplies the
secret by the product of the factors. -/
theorem C04_keypair_scale (B : Backend F E) (ks : List F) (kp kp' : Keypair F E)
    (hkp : KeyOf B kp.publicKey kp.secret)
    (h : ks.foldlM (fun kp k => Keypair.mul B kp k) kp = some kp') :
    KeyOf B kp'.publicKey kp'.secret ∧ kp'.secret = kp.secret * ks.prod := by
  induction ks generalizing kp with
  | nil => simp at h; subst h; exact ⟨hkp, by simp⟩
  | cons k ks ih =>
    simp only [List.foldlM_cons, Option.bind_eq_bind, Option.bind_eq_some_iff] at h
    obtain ⟨kp1, h1, h⟩ := h
    simp only [Keypair.mul, Option.bind_eq_bind, Option.bind_eq_some_iff, Option.pure_def,
      Option.some.injEq] at h1
    obtain ⟨pk, hpk, rfl⟩ := h1
    have hk : KeyOf B pk (SecretKey.mul kp.secret k) := by
      obtain ⟨h1, h2⟩ := fromElement_eq_some.mp hpk
      rw [hkp.1, smul_smul, mul_comm] at h1 h2
      exact ⟨h1, h2⟩
    obtain ⟨h2, h3⟩ := ih _ hk h
    exact ⟨h2, by rw [h3, List.prod_cons]; simp only [SecretKey.mul]; ring⟩

example : KeyOf B101 ⟨[72], 72⟩ (72 : ZMod 101) ∧ (72 : ZMod 101) = 25 * [3, 5].prod :=
  C04_keypair_scale B101 [3, 5] ⟨25, ⟨[25], 25⟩⟩ ⟨72, ⟨[72], 72⟩⟩ (by constructor <;> decide) (by decide)

example : ∃ pk, (KeyExpr.add (.mulU64 (.leaf (5 : ZMod 101)) 7) (.mul (.leaf 9) 50)).publicKey B101
    = some pk ∧ pk.element = 81 :=
  ⟨⟨[81], 81⟩, by decide, rfl⟩

/-! ## C05, C06 -/

/-- C05: outcome of `PublicKey::from_bytes` for every byte string. -/
theorem C05_from_bytes_spec [DecidableEq E] (B : Backend F E) (b : Bytes) :
    (PublicKey.fromBytes B b = .error .InvalidByteSize ↔ b.length ≠ B.elementSize) ∧
    (PublicKey.fromBytes B b = .error .InvalidGroupElement ↔
      b.length = B.elementSize ∧ B.deElem b = none) ∧
    (PublicKey.fromBytes B b = .error .IdentityKey ↔
      b.length = B.elementSize ∧ B.deElem b = some 0) ∧
    (∀ pk : PublicKey E, PublicKey.fromBytes B b = .ok pk ↔
      b.length = B.elementSize ∧ B.deElem b = some pk.element ∧ pk.element ≠ 0 ∧ pk.bytes = b) := by
  unfold PublicKey.fromBytes
  by_cases hl : b.length = B.elementSize
  · cases hd : B.deElem b with
    | none => simp [hl]
    | some e =>
      by_cases he : e = 0
      · subst he
        simp only [hl, ne_eq, not_true_eq_false, if_false, if_true, reduceCtorEq, Option.some.injEq,
          Except.error.injEq, true_and, and_false, and_self, iff_self, false_iff, not_and]
        intro pk h h'
        exact absurd h.symm h'
      · simp only [hl, ne_eq, not_true_eq_false, if_false, he, reduceCtorEq, Option.some.injEq,
          and_false, iff_self, true_and, Except.ok.injEq]
        intro pk
        constructor
        · rintro rfl; exact ⟨rfl, he, rfl⟩
        · rintro ⟨rfl, -, rfl⟩; rfl
  · simp [hl]

example : PublicKey.fromBytes S101 [2, 5] = .ok ⟨[2, 5], 5⟩ ∧ PublicKey.fromBytes S101 [3, 5] = .error .InvalidGroupElement :=
  ⟨((C05_from_bytes_spec S101 [2, 5]).2.2.2 ⟨[2, 5], 5⟩).mpr (by decide),
    (C05_from_bytes_spec S101 [3, 5]).2.1.mpr (by decide)⟩

/-- C05: `from_bytes(key.as_bytes())` recovers every non-identity key produced from an element. -/
theorem C05_roundtrip [DecidableEq E] (B : Backend F E) (hB : B.Lawful) (e : E) (he : e ≠ 0)
    (pk : PublicKey E) (h : PublicKey.fromElement B e = some pk) :
    PublicKey.fromBytes B pk.bytes = .ok pk := by
  obtain ⟨h1, h2⟩ := fromElement_eq_some.mp h
  refine ((C05_from_bytes_spec B pk.bytes).2.2.2 pk).mpr ⟨hB.serElem_length _ _ h2, ?_, ?_, rfl⟩
  · rw [hB.deElem_serElem _ _ h2, h1]
  · rwa [h1]

example : PublicKey.fromBytes B101 [5] = .ok ⟨[5], 5⟩ :=
  C05_roundtrip B101 B101_lawful 5 (by decide) ⟨[5], 5⟩ (by decide)

/-- C05: `as_bytes` of a parsed key is the input, and parsing it again gives the same key. -/
theorem C05_parsed_bytes [DecidableEq E] (B : Backend F E) (b : Bytes) (pk : PublicKey E)
    (h : PublicKey.fromBytes B b = .ok pk) :
    pk.bytes = b ∧ PublicKey.fromBytes B pk.bytes = .ok pk := by
  have := ((C05_from_bytes_spec B b).2.2.2 pk).mp h
  exact ⟨this.2.2.2, by rw [this.2.2.2, h]⟩

example : PublicKey.fromBytes S101 [2, 5] = .ok ⟨[2, 5], 5⟩ :=
  (C05_parsed_bytes S101 [2, 5] ⟨[2, 5], 5⟩ (by decide)).2

/-- C05, finding: a secret key of 0 gives a public key object (identity) which cannot be parsed back. -/
theorem C05_identity_not_parsed [DecidableEq E] (B : Backend F E) (hB : B.Lawful) (pk : PublicKey E)
    (h : PublicKey.ofSecret B (0 : F) = some pk) :
    PublicKey.fromBytes B pk.bytes = .error .IdentityKey := by
  obtain ⟨h1, h2⟩ := fromElement_eq_some.mp h
  simp only [Backend.mulGen, zero_smul] at h1 h2
  exact (C05_from_bytes_spec B pk.bytes).2.2.1.mpr
    ⟨hB.serElem_length _ _ h2, hB.deElem_serElem _ _ h2⟩

example : PublicKey.fromBytes B101 [0] = .error .IdentityKey :=
  C05_identity_not_parsed B101 B101_lawful ⟨[0], 0⟩ (by decide)

example : PublicKey.fromBytes B101 [5] = .ok ⟨[5], 5⟩ ∧
    PublicKey.fromBytes B101 [0] = .error .IdentityKey ∧
    PublicKey.fromBytes B101 [200] = .error .InvalidGroupElement ∧
    PublicKey.fromBytes B101 [5, 5] = .error .InvalidByteSize := by
  decide

/-- C06: `SecretKey::from_bytes` succeeds exactly on canonical encodings of the right length. -/
theorem C06_from_bytes_iff (B : Backend F E) (hB : B.Lawful) (b : Bytes) (s : F) :
    SecretKey.fromBytes B b = some s ↔ B.serScalar s = b := by
  unfold SecretKey.fromBytes
  constructor
  · intro h
    split at h
    · cases h
    · rename_i hl
      exact hB.serScalar_deScalar b s (not_not.mp hl) h
  · rintro rfl
    rw [if_neg (not_not.mpr (hB.serScalar_length s)), hB.deScalar_serScalar]

example : SecretKey.fromBytes B101 [100] = some 100 := (C06_from_bytes_iff B101 B101_lawful [100] 100).mpr (by decide)

/-- C06: everything else is rejected; in particular wrong lengths. -/
theorem C06_from_bytes_none (B : Backend F E) (hB : B.Lawful) (b : Bytes) :
    SecretKey.fromBytes B b = none ↔ ∀ s : F, B.serScalar s ≠ b := by
  constructor
  · intro h s hs
    rw [(C06_from_bytes_iff B hB b s).mpr hs] at h
    cases h
  · intro h
    cases hb : SecretKey.fromBytes B b with
    | none => rfl
    | some s => exact absurd ((C06_from_bytes_iff B hB b s).mp hb) (h s)

example : ∀ s : ZMod 101, B101.serScalar s ≠ [101] := (C06_from_bytes_none B101 B101_lawful [101]).mp (by decide)

example : SecretKey.fromBytes B101 [100] = some 100 ∧ SecretKey.fromBytes B101 [101] = none ∧
    SecretKey.fromBytes B101 [] = none := by
  decide

/-! ## C07 -/

/-- Every constructed public key caches the canonical encoding of its element. -/
theorem constructed_bytes [DecidableEq E] (B : Backend F E) (hC : B.CanonicalNonzero)
    (pk : PublicKey E) (h : Constructed B pk) : B.serElem pk.element = some pk.bytes := by
  cases h with
  | fromBytes h =>
    obtain ⟨h1, h2, h3, h4⟩ := ((C05_from_bytes_spec B _).2.2.2 pk).mp h
    rw [h4]
    exact hC _ _ h1 h3 h2
  | ofSecret h => obtain ⟨h1, h2⟩ := fromElement_eq_some.mp h; rw [h1, h2]
  | fromElement h => obtain ⟨h1, h2⟩ := fromElement_eq_some.mp h; rw [h1, h2]
  | add ha hb h => obtain ⟨h1, h2⟩ := fromElement_eq_some.mp h; rw [h1, h2]
  | mul ha h => obtain ⟨h1, h2⟩ := fromElement_eq_some.mp h; rw [h1, h2]
  | mulU64 ha h => obtain ⟨h1, h2⟩ := fromElement_eq_some.mp h; rw [h1, h2]

/-- C07: public keys compare equal iff they are the same group element. -/
theorem C07_eq_iff [DecidableEq E] (B : Backend F E) (hB : B.Lawful) (hC : B.CanonicalNonzero)
    (a b : PublicKey E) (ha : Constructed B a) (hb : Constructed B b) :
    PublicKey.eq a b = true ↔ a.element = b.element := by
  have h1 := constructed_bytes B hC a ha
  have h2 := constructed_bytes B hC b hb
  simp only [PublicKey.eq, decide_eq_true_eq]
  constructor
  · intro h
    rw [h] at h1
    exact hB.serElem_inj h1 h2
  · intro h
    rw [h, h2] at h1
    exact (Option.some.inj h1).symm

example : PublicKey.eq (⟨[5], 5⟩ : PublicKey (ZMod 101)) ⟨[5], 5⟩ = true :=
  (C07_eq_iff B101 B101_lawful B101_canonicalNonzero ⟨[5], 5⟩ ⟨[5], 5⟩ (.fromBytes (b := [5]) (by decide))
    (.ofSecret (s := 5) (by decide))).mpr rfl

example : ∃ a b : PublicKey (ZMod 101), Constructed B101 a ∧ Constructed B101 b ∧
    PublicKey.eq a b = true :=
  ⟨⟨[5], 5⟩, ⟨[5], 5⟩, .fromBytes (b := [5]) (by decide), .ofSecret (s := 5) (by decide), by decide⟩

end ElasticElgamal
