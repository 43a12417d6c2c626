import Verif.Props.Curves
import Verif.Lemmas.Concrete
import Verif.Lemmas.ChaChaVector

/-!
# The groups with everything filled in (C79)
-/

set_option autoImplicit false
set_option linter.unusedSectionVars false

namespace ElasticElgamal

open Toy Curves

/-- C79: multiplication of points by doubling and adding in projective coordinates is repeated addition, on any
complete Edwards curve and on secp256k1. -/
theorem C79_multiplication :
    (∀ {K : Type} [Field K] (d : K) [EdwardsComplete d] (k : ℕ) (P : EdPoint d),
      EdPoint.mul k P = (List.replicate k P).sum) ∧
    ∀ (k : ℕ) (P : Secp256k1.Element), Secp256k1.Element.mul k P = (List.replicate k P).sum :=
  ⟨fun _ _ k P => (List.sum_replicate k P).symm, fun k P => (List.sum_replicate k P).symm⟩

example : EdPoint.mul 3 Ed25519.base = Ed25519.base + (Ed25519.base + Ed25519.base) := by
  rw [C79_multiplication.1]
  simp [List.replicate_succ]

/-- C79: the external functions return strings of the right lengths. -/
theorem C79_externals (debug : Bool) : (concreteExt debug).Ok :=
  ⟨Merlin.challengeBytesOf_length, ChaCha.fill_length, Sha256.digest_length⟩

/-- C79: `Generic<Secp256k1>` with everything filled in meets the contract of the `Group` trait; its encoding is
canonical; it panics on serializing the identity and on nothing else. -/
theorem C79_k256 (debug : Bool) : (Secp256k1.concrete debug).Lawful ∧ (Secp256k1.concrete debug).Sec1Ser ∧
    (Secp256k1.concrete debug).CanonicalElems := by
  obtain ⟨⟨h₁, -, h₃, h₄, h₅, h₆, h₇, h₈, h₉, h₁₀, h₁₁⟩, hS, hC⟩ := C78_secp256k1 false (concreteExt debug) (Secp256k1.randomScalar Secp256k1.attempts)
    (fun seed => (Secp256k1.randomScalar Secp256k1.attempts (.fromSeed seed)).1) (C79_externals debug)
  refine ⟨?_, hS, hC rfl⟩
  constructor
  case gen_ne_zero => exact h₁
  case gen_spans =>
    intro e
    obtain ⟨k, hk⟩ := Secp256k1.gen_spans e
    refine ⟨(k : ZMod Secp256k1.n), ?_⟩
    rw [Nat.cast_smul_eq_nsmul]
    exact hk.trans (Secp256k1.Element.mul_eq k _).symm
  case scalarSize_pos => exact h₃
  case serScalar_length => exact h₄
  case deScalar_serScalar => exact h₅
  case serScalar_deScalar => exact h₆
  case serElem_length => exact h₇
  case deElem_serElem => exact h₈
  case serElem_ne_zero => exact h₉
  case sha256_length => exact h₁₀
  case fill32_length => exact h₁₁

/-- C79: `Ristretto` with everything filled in meets the contract of the `Group` trait; its encoding is canonical and
total. -/
theorem C79_ristretto (debug : Bool) : (Ristretto255.concrete debug).Lawful ∧ (Ristretto255.concrete debug).TotalSer ∧
    (Ristretto255.concrete debug).CanonicalElems :=
  C63_ristretto _ (Ristretto255.concreteParams_ok debug (C79_externals debug))

/-- C79: taking representatives of order `ℓ` does not change the group `Ristretto` or its codec. -/
theorem C79_ristretto_same (debug : Bool) : ∃ φ : Ristretto255.Representative ≃+ Ristretto255.Element,
    φ (Ristretto255.concreteParams debug).basepoint = (Ristretto255.params (concreteExt debug)).basepoint ∧
    (∀ e, (Ristretto255.params (concreteExt debug)).compress (φ e) = (Ristretto255.concreteParams debug).compress e) ∧
    ∀ b, b.length = 32 → (Ristretto255.params (concreteExt debug)).decompress b =
      ((Ristretto255.concreteParams debug).decompress b).map φ := by
  refine ⟨AddEquiv.ofBijective Ristretto255.toElement
    ⟨Ristretto255.toElement_injective, Ristretto255.toElement_surjective⟩, rfl,
    Ristretto255.compress_toElement _ _, fun b hb => ?_⟩
  have h₁ := (Ristretto255.params_ok _ (C79_externals debug)).decompress_iff b
  have h₂ := (Ristretto255.concreteParams_ok debug (C79_externals debug)).decompress_iff b
  cases hd : (Ristretto255.concreteParams debug).decompress b with
  | some e =>
    refine (h₁ _ hb).mpr ?_
    exact (Ristretto255.compress_toElement _ debug _).trans ((h₂ e hb).mp hd)
  | none =>
    cases hd' : (Ristretto255.params (concreteExt debug)).decompress b with
    | none => rfl
    | some e' =>
      obtain ⟨e, rfl⟩ := Ristretto255.toElement_surjective e'
      have := (h₂ e hb).mpr ((Ristretto255.compress_toElement _ debug _).symm.trans ((h₁ _ hb).mp hd'))
      rw [hd] at this
      cases this

/-- C79: `Curve25519Subgroup` with everything filled in meets the contract of the `Group` trait. -/
theorem C79_curve25519 (debug : Bool) : (Ed25519.concrete debug).Lawful ∧ (Ed25519.concrete debug).TotalSer ∧
    (Ed25519.concrete debug).CanonicalNonzero := C78_curve25519 _ (C79_externals debug)

/-- C79: requests for whole words from `ChaChaRng` continue the same stream: reading `4a` bytes and then `b` bytes is
reading `4a + b` bytes. -/
theorem C79_chacha_stream (a b : ℕ) (rng : ChaCha.Rng) :
    ((rng.fill (4 * a)).1 ++ ((rng.fill (4 * a)).2.fill b).1, ((rng.fill (4 * a)).2.fill b).2) =
      rng.fill (4 * a + b) := by
  simp only [ChaCha.fill_eq]
  refine Prod.ext ?_ ?_
  · rw [List.range_add, List.map_append, List.map_map]
    refine congrArg (List.append _) (List.map_congr_left fun j _ => ?_)
    rw [Function.comp_apply]
    refine congrArg (ChaCha.streamByte rng.seed) ?_
    omega
  · simp only [ChaCha.Rng.mk.injEq, true_and]
    omega

example : ((ChaCha.Rng.seedFromU64 7).fill 12).1.length = 12 ∧
    ((ChaCha.Rng.seedFromU64 7).fill 12).1 = ((ChaCha.Rng.seedFromU64 7).fill 8).1 ++
      (((ChaCha.Rng.seedFromU64 7).fill 8).2.fill 4).1 :=
  ⟨ChaCha.fill_length _ _, (congrArg Prod.fst (C79_chacha_stream 2 4 (ChaCha.Rng.seedFromU64 7))).symm⟩

/-- The number in 32 bytes of the stream, after skipping `i` times as many. -/
def randomValue (rng : ChaCha.Rng) (i : ℕ) : ℕ :=
  beValue ((List.range 32).map fun j => ChaCha.streamByte rng.seed (4 * rng.wordPos + 32 * i + j))

/-- C79: the random scalar for secp256k1 is the first value below the order of the group. -/
theorem C79_random_scalar (attempts : ℕ) (rng : ChaCha.Rng) (i : ℕ) (hi : i < attempts)
    (hbig : ∀ j < i, Secp256k1.n ≤ randomValue rng j) (hlt : randomValue rng i < Secp256k1.n) :
    Secp256k1.randomScalar attempts rng =
      ((randomValue rng i : ZMod Secp256k1.n), ⟨rng.seed, rng.wordPos + 8 * (i + 1)⟩) := by
  induction attempts generalizing rng i with
  | zero => exact absurd hi (Nat.not_lt_zero _)
  | succ attempts ih =>
    have h0 : beValue ((List.range 32).map fun j => ChaCha.streamByte rng.seed (4 * rng.wordPos + j)) =
        randomValue rng 0 := rfl
    have hfill := ChaCha.fill_eq 32 rng
    simp only [Secp256k1.randomScalar, hfill, Generic.fromRepr, h0]
    cases i with
    | zero => rw [if_pos hlt]
    | succ i =>
      rw [if_neg (not_lt.mpr (hbig 0 (Nat.succ_pos i)))]
      have hval : ∀ j, randomValue ⟨rng.seed, rng.wordPos + (32 + 3) / 4⟩ j = randomValue rng (j + 1) := by
        intro j
        unfold randomValue
        refine congrArg beValue (List.map_congr_left fun t _ => congrArg (ChaCha.streamByte rng.seed) ?_)
        change 4 * (rng.wordPos + 8) + 32 * j + t = 4 * rng.wordPos + 32 * (j + 1) + t
        ring
      have := ih ⟨rng.seed, rng.wordPos + (32 + 3) / 4⟩ i (Nat.lt_of_succ_lt_succ hi)
        (fun j hj => by rw [hval]; exact hbig _ (Nat.succ_lt_succ hj)) (by rw [hval]; exact hlt)
      refine this.trans ?_
      rw [hval]
      refine congrArg _ (congrArg (ChaCha.Rng.mk rng.seed) ?_)
      change rng.wordPos + 8 + 8 * (i + 1) = rng.wordPos + 8 * (i + 1 + 1)
      ring

example : Secp256k1.randomScalar 1 (.fromSeed (List.replicate 32 0)) =
    ((randomValue (.fromSeed (List.replicate 32 0)) 0 : ZMod Secp256k1.n), ⟨List.replicate 32 0, 0 + 8 * (0 + 1)⟩) := by
  have h : randomValue (.fromSeed (List.replicate 32 0)) 0 < Secp256k1.n := by
    have hb : ((List.range 32).map fun j => ChaCha.streamByte (List.replicate 32 0) (4 * 0 + 32 * 0 + j)) =
        (List.range 32).map fun j => (ChaCha.block (List.replicate 32 0) 0).getD j 0 := by
      refine List.map_congr_left fun j hj => ?_
      have hj := List.mem_range.mp hj
      rw [ChaCha.streamByte, show (4 * 0 + 32 * 0 + j) / 64 = 0 by omega, show (4 * 0 + 32 * 0 + j) % 64 = j by omega]
    rw [randomValue, ChaCha.Rng.fromSeed, hb, ChaCha.block_zero]
    decide +kernel
  exact C79_random_scalar 1 (.fromSeed (List.replicate 32 0)) 0 Nat.one_pos (fun _ h => absurd h (Nat.not_lt_zero _)) h

/-- C79: random scalars of the groups over curve25519-dalek are 64 bytes of the generator, as a number in little-endian
order, reduced modulo the order. Challenges are the same for 64 bytes from the transcript. -/
theorem C79_wide_scalars (debug : Bool) (rng : ChaCha.Rng) (log : List Entry) :
    let bytes := (List.range 64).map fun j => ChaCha.streamByte rng.seed (4 * rng.wordPos + j)
    let scalar := ((leValue bytes : ZMod Ed25519.ℓ), (⟨rng.seed, rng.wordPos + 16⟩ : ChaCha.Rng))
    (Ristretto255.concrete debug).genScalar rng = scalar ∧ (Ed25519.concrete debug).genScalar rng = scalar ∧
    (Ristretto255.concrete debug).challenge log = leValue (Merlin.challengeBytesOf log 64) ∧
    (Ed25519.concrete debug).challenge log = leValue (Merlin.challengeBytesOf log 64) := by
  have h := ChaCha.fill_eq 64 rng
  have h' : Curve25519.generateScalar Ed25519.ℓ 32 (concreteExt debug) rng =
      ((leValue (rng.fill 64).1 : ZMod Ed25519.ℓ), (rng.fill 64).2) := rfl
  rw [h] at h'
  exact ⟨h', h', rfl, rfl⟩

-- the second scalar comes from the second block
example (debug : Bool) : ((Ed25519.concrete debug).genScalar
    ((Ed25519.concrete debug).genScalar (ChaCha.Rng.seedFromU64 7)).2).1 =
      leValue ((List.range 64).map fun j => ChaCha.streamByte (ChaCha.Rng.seedFromU64 7).seed (64 + j)) := by
  rw [(C79_wide_scalars debug (ChaCha.Rng.seedFromU64 7) []).2.1, (C79_wide_scalars debug ⟨_, _⟩ []).2.1]
  rfl

/-- C79: challenges of secp256k1 are the first value below the order of the group in the stream of a generator seeded with
32 bytes from the transcript (unless 256 values are too large). -/
theorem C79_seeded_challenge (debug : Bool) (log : List Entry) :
    let value := randomValue ⟨Merlin.challengeBytesOf log 32, 0⟩
    (∀ j < 256, Secp256k1.n ≤ value j) ∨ ∃ i < 256, (∀ j < i, Secp256k1.n ≤ value j) ∧ value i < Secp256k1.n ∧
      (Secp256k1.concrete debug).challenge log = value i := by
  intro value
  by_cases h : ∀ j < 256, Secp256k1.n ≤ value j
  · exact .inl h
  · have hex : ∃ i, i < 256 ∧ value i < Secp256k1.n := by
      by_contra hn
      exact h fun j hj => not_lt.mp fun hlt => hn ⟨j, hj, hlt⟩
    classical
    have hbig : ∀ j < Nat.find hex, Secp256k1.n ≤ value j := fun j hj => not_lt.mp fun hlt =>
      Nat.find_min hex hj ⟨hj.trans (Nat.find_spec hex).1, hlt⟩
    refine .inr ⟨Nat.find hex, (Nat.find_spec hex).1, hbig, (Nat.find_spec hex).2, ?_⟩
    have h : (Secp256k1.concrete debug).challenge log =
      (Secp256k1.randomScalar Secp256k1.attempts (.fromSeed (Merlin.challengeBytesOf log 32))).1 := rfl
    rw [h, C79_random_scalar Secp256k1.attempts (.fromSeed (Merlin.challengeBytesOf log 32)) (Nat.find hex)
      (Nat.find_spec hex).1 hbig (Nat.find_spec hex).2]
    rfl

-- unless the first value is too large, it is the challenge
example (debug : Bool) (h : randomValue ⟨Merlin.challengeBytesOf (Transcript.new "x").log 32, 0⟩ 0 < Secp256k1.n) :
    (Secp256k1.concrete debug).challenge (Transcript.new "x").log =
      (randomValue ⟨Merlin.challengeBytesOf (Transcript.new "x").log 32, 0⟩ 0 : ZMod Secp256k1.n) := by
  rcases C79_seeded_challenge debug (Transcript.new "x").log with h' | ⟨i, -, h1, -, h3⟩
  · exact absurd h (not_lt.mpr (h' 0 (by norm_num)))
  · rcases Nat.eq_zero_or_pos i with rfl | hi
    · exact h3
    · exact absurd h (not_lt.mpr (h1 0 hi))

/-- C79: padding in SHA-256 (FIPS 180-4, 5.1.1) is a bit 1, the least number of bits 0 that gives whole blocks, and the
length in bits. It keeps different messages different. -/
theorem C79_sha256_pad : (∀ msg, 64 ∣ (Sha256.pad msg).length ∧
      ∃ k < 64, Sha256.pad msg = msg ++ [0x80] ++ List.replicate k 0 ++ beBytes 8 (8 * msg.length)) ∧
    ∀ m m' : Bytes, m.length < 2 ^ 61 → m'.length < 2 ^ 61 → Sha256.pad m = Sha256.pad m' → m = m' := by
  have hlen : ∀ msg : Bytes, (Sha256.pad msg).length =
      msg.length + (1 + (119 - msg.length % 64) % 64) + 8 := by
    intro msg
    simp only [Sha256.pad, List.length_append, List.length_cons, List.length_replicate, beBytes, List.length_reverse,
      leBytes_length]
    omega
  constructor
  · intro msg
    refine ⟨?_, (119 - msg.length % 64) % 64, Nat.mod_lt _ (by norm_num), by simp [Sha256.pad]⟩
    rw [hlen]
    omega
  · intro m m' hm hm' h
    have hl := hlen m
    have hl' := hlen m'
    have hk := congrArg (fun l => beValue (l.drop (l.length - 8))) h
    have hval : ∀ msg : Bytes, msg.length < 2 ^ 61 →
        beValue ((Sha256.pad msg).drop ((Sha256.pad msg).length - 8)) = 8 * msg.length := by
      intro msg hmsg
      have hb : (beBytes 8 (8 * msg.length)).length = 8 := by rw [beBytes, List.length_reverse, leBytes_length]
      rw [Sha256.pad, List.length_append, hb, Nat.add_sub_cancel, List.drop_left, beValue, beBytes,
        List.reverse_reverse, leValue_leBytes]
      omega
    simp only [hval m hm, hval m' hm'] at hk
    have hmm : m.length = m'.length := by omega
    have ht := congrArg (List.take m.length) h
    rw [Sha256.pad, Sha256.pad, List.append_assoc, List.append_assoc, List.take_left, hmm, List.take_left] at ht
    exact ht

example : Sha256.pad [1] ≠ Sha256.pad [1, 0x80] := fun h =>
  absurd (C79_sha256_pad.2 [1] [1, 0x80] (by norm_num) (by norm_num) h) (by decide)

end ElasticElgamal
