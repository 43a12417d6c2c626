import Verif.Model.DropVec
import Verif.Props.Drop
import Verif.Props.Range

/-!
# C97: vectors of secrets

Vectors of secret indexes and of unfinished rings never grow, so that growth leaves no copies in deallocated buffers. Findings:
nonces and rings are moved out of vectors when proofs are made, and the buffers of these are not overwritten.
-/

set_option autoImplicit false
set_option linter.unusedSectionVars false

namespace ElasticElgamal

open Spec Toy

theorem VecBuf.foldl_push {α : Type} (xs : List α) : ∀ v : VecBuf α, v.items.length + xs.length ≤ v.capacity →
    xs.foldl VecBuf.push v = { v with items := v.items ++ xs } := by
  induction xs with
  | nil => intro v _; simp
  | cons x xs ih =>
    intro v h
    simp only [List.length_cons] at h
    rw [List.foldl_cons, VecBuf.push, if_pos (by omega), ih _ (by simp; omega)]
    simp

/-- Vectors that grow leave copies: the reason to reserve capacity. -/
theorem C97_growth_copies {α : Type} (n : ℕ) (xs ys : List α) (y : α) (hx : xs.length = n) (zero : α) :
    xs <+: ((xs ++ y :: ys).foldl VecBuf.push (.withCapacity n)).freed ∧
      ∃ l, ((xs ++ y :: ys).foldl VecBuf.push (.withCapacity n)).dropZeroizing zero =
        List.replicate ((xs ++ y :: ys).foldl VecBuf.push (.withCapacity n)).capacity zero ++ (xs ++ l) := by
  have h : xs <+: ((xs ++ y :: ys).foldl VecBuf.push (.withCapacity n)).freed := by
    rw [List.foldl_append, VecBuf.foldl_push xs _ (by simp [VecBuf.withCapacity, hx]), List.foldl_cons, VecBuf.push,
      if_neg (by simp [VecBuf.withCapacity, hx])]
    have hmono : ∀ (l : List α) (v : VecBuf α), v.freed <+: (l.foldl VecBuf.push v).freed := by
      intro l
      induction l with
      | nil => intro v; exact List.prefix_refl _
      | cons a l ih =>
        intro v
        refine List.IsPrefix.trans ?_ (ih _)
        unfold VecBuf.push
        split
        · exact List.prefix_refl _
        · exact List.prefix_append _ _
    refine List.IsPrefix.trans ?_ (hmono ys _)
    simp [VecBuf.withCapacity]
  obtain ⟨l, hl⟩ := h
  exact ⟨⟨l, hl⟩, l, by rw [VecBuf.dropZeroizing, ← hl]⟩

example : ([3, 7, 5].foldl VecBuf.push (.withCapacity 2)).dropZeroizing 0 = [0, 0, 0, 0, 3, 7] := by decide

example : [3, 7] <+: (([3, 7] ++ 5 :: [9]).foldl VecBuf.push (.withCapacity 2)).freed :=
  (C97_growth_copies 2 [3, 7] [9] 5 rfl 0).1

variable {F E : Type} [Field F] [AddCommGroup E] [Module F E]

/-- C97: what is left of the decomposition of a value, after the vector is dropped, does not depend on the value. -/
theorem C97_decomposition (B : Backend F E) (n : ℕ) (range : PreparedRange E) (hr : PreparedFor B n range) (dbg : Bool)
    (x y : ℕ) (hx : x < n) (hy : y < n) : ∃ v w, range.decomposeVec dbg x = some v ∧ range.decomposeVec dbg y = some w ∧
      range.decompose dbg x = some v.items ∧ range.decompose dbg y = some w.items ∧
      v.dropZeroizing 0 = w.dropZeroizing 0 := by
  have key : ∀ x < n, ∃ idx, range.decompose dbg x = some idx ∧
      range.decomposeVec dbg x = some ⟨idx, range.admissibleValues.length, []⟩ := by
    intro x hx
    obtain ⟨idx, h, hrep⟩ := hr.facts.decompose (dbg := dbg) hx
    refine ⟨idx, h, ?_⟩
    have hlen : idx.length = range.admissibleValues.length := by
      rw [hr.facts.values, List.length_map]
      exact hrep.1.length_eq
    simp only [PreparedRange.decompose, Option.bind_eq_bind, Option.bind_eq_some_iff] at h
    obtain ⟨ub, hub, u, hu, h⟩ := h
    simp only [PreparedRange.decomposeVec, RangeDecomposition.decomposeInto, hub, hu, h, Option.bind_eq_bind,
      Option.bind_some, Option.pure_def]
    rw [VecBuf.foldl_push idx _ (by simp [VecBuf.withCapacity, hlen])]
    simp [VecBuf.withCapacity]
  obtain ⟨v, hv, hv'⟩ := key x hx
  obtain ⟨w, hw, hw'⟩ := key y hy
  exact ⟨_, _, hv', hw', hv, hw, rfl⟩

example : ∃ v w, exampleRange.decomposeVec true 3 = some v ∧ exampleRange.decomposeVec true 13 = some w ∧
    exampleRange.decompose true 3 = some v.items ∧ exampleRange.decompose true 13 = some w.items ∧
    v.dropZeroizing 0 = w.dropZeroizing 0 :=
  C97_decomposition B101 17 exampleRange exampleRange_prepared true 3 13 (by decide) (by decide)

/-- The values are not the same before the vectors are dropped. -/
example : exampleRange.decomposeVec true 3 ≠ exampleRange.decomposeVec true 13 := by decide +kernel

variable [DecidableEq E]

/-- C97: what is left of the choices in `EncryptedChoice::single` does not depend on the choice. -/
theorem C97_single_choice [DecidableEq F] (B : Backend F E) (params : ChoiceParams E .single) (c c' : ℕ)
    (hc : c < params.optionsCount) (rng : B.Rng) :
    EncryptedChoice.single B params c rng = EncryptedChoice.new B params (EncryptedChoice.singleVec params c).items rng ∧
      (EncryptedChoice.singleVec params c).dropZeroizing false =
        (EncryptedChoice.singleVec params c').dropZeroizing false := by
  refine ⟨?_, by simp [EncryptedChoice.singleVec, VecBuf.collect, VecBuf.dropZeroizing]⟩
  simp [EncryptedChoice.single, EncryptedChoice.singleVec, VecBuf.collect, hc, guard]

example : (EncryptedChoice.singleVec (⟨3, ⟨[42], 42⟩⟩ : ChoiceParams (ZMod 101) .single) 1).dropZeroizing false =
    (EncryptedChoice.singleVec ⟨3, ⟨[42], 42⟩⟩ 2).dropZeroizing false :=
  (C97_single_choice B101 _ 1 2 (by decide) (0 : ℕ)).2

theorem addPrecomputed_rings {B : Backend F E} {b b' : RingProofBuilder B} {ct : ExtendedCiphertext F E} {values : List E}
    {index : ℕ} (h : b.addPrecomputedValue B ct values index = some b') : b'.rings.length = b.rings.length + 1 := by
  simp only [RingProofBuilder.addPrecomputedValue, Option.bind_eq_bind, Option.bind_eq_some_iff] at h
  obtain ⟨_, _, ⟨ring, rng⟩, _, hb⟩ := h
  simp only [Option.pure_def, Option.some.injEq] at hb
  subst hb
  simp

theorem addValue_rings {B : Backend F E} {b b' : RingProofBuilder B} {ct : ExtendedCiphertext F E} {values : List E}
    {index : ℕ} (h : b.addValue B values index = some (ct, b')) : b'.rings.length = b.rings.length + 1 := by
  simp only [RingProofBuilder.addValue, Option.bind_eq_bind, Option.bind_eq_some_iff] at h
  obtain ⟨_, _, b1, hb1, hb⟩ := h
  simp only [Option.pure_def, Option.some.injEq, Prod.mk.injEq] at hb
  obtain ⟨-, rfl⟩ := hb
  have h2 := addPrecomputed_rings (b := { b with rng := _ }) hb1
  simpa using h2

theorem ringVec_freed {B : Backend F E} {n : ℕ} {b : RingProofBuilder B} (h : b.rings.length ≤ n) :
    (b.ringVec n).dropItems Ring.drop = b.drop.rings := by
  rw [RingProofBuilder.ringVec, VecBuf.foldl_push _ _ (by simpa [VecBuf.withCapacity] using h)]
  simp [VecBuf.dropItems, VecBuf.withCapacity, RingProofBuilder.drop]

/-- C97, `src/keys/impls.rs:85-87`: the vector of rings in `encrypt_bool` does not grow: if the builder is dropped, then all that is
left are dropped rings. (If the proof is built, rings are moved: `C97_rings_left`.) -/
theorem C97_bool_rings (B : Backend F E) (K : PublicKey E) (rs : List F) (t : Transcript) (rng : B.Rng) (values : List E)
    (index : ℕ) (ct : ExtendedCiphertext F E) (b : RingProofBuilder B)
    (h : (RingProofBuilder.new B K rs t rng).addValue B values index = some (ct, b)) :
    (PublicKey.boolRings b).dropItems Ring.drop = b.drop.rings :=
  ringVec_freed (by simpa [RingProofBuilder.new] using (addValue_rings h).le)

example : ∃ ct b, (RingProofBuilder.new B101 ⟨[42], 42⟩ [0, 0] (Transcript.new "x") (1 : ℕ)).addValue B101 [0, 1] 1 =
    some (ct, b) ∧ (PublicKey.boolRings b).dropItems Ring.drop = b.drop.rings := by
  have h : ((RingProofBuilder.new B101 ⟨[42], 42⟩ [0, 0] (Transcript.new "x") (1 : ℕ)).addValue B101 [0, 1] 1).isSome =
    true := by decide +kernel
  obtain ⟨⟨ct, b⟩, h⟩ := Option.isSome_iff_exists.mp h
  exact ⟨ct, b, h, C97_bool_rings B101 _ _ _ _ _ _ ct b h⟩

/-- C97, `src/app/choice.rs:324-337`: the same for ballots; `ring_count` is `params.options_count`, which is the number of
choices. -/
theorem C97_choice_rings (B : Backend F E) {kind : ChoiceKind} (params : ChoiceParams E kind) (choices : List Bool)
    (hl : choices.length = params.optionsCount) (K : PublicKey E) (rs : List F) (t : Transcript) (rng : B.Rng)
    (values : List E) (cts : List (ExtendedCiphertext F E)) (b : RingProofBuilder B)
    (h : EncryptedChoice.addChoices B values choices (RingProofBuilder.new B K rs t rng) = some (cts, b)) :
    (EncryptedChoice.rings params b).dropItems Ring.drop = b.drop.rings := by
  have key : ∀ (choices : List Bool) (b₀ b : RingProofBuilder B) (cts : List (ExtendedCiphertext F E)),
      EncryptedChoice.addChoices B values choices b₀ = some (cts, b) → b.rings.length = b₀.rings.length + choices.length := by
    intro choices
    induction choices with
    | nil =>
      intro b₀ b cts h
      simp only [EncryptedChoice.addChoices, Option.some.injEq, Prod.mk.injEq] at h
      simp [h.2]
    | cons c choices ih =>
      intro b₀ b cts h
      simp only [EncryptedChoice.addChoices, Option.bind_eq_bind, Option.bind_eq_some_iff] at h
      obtain ⟨⟨ct, b1⟩, h1, ⟨cts', b2⟩, h2, h3⟩ := h
      simp only [Option.pure_def, Option.some.injEq, Prod.mk.injEq] at h3
      obtain ⟨-, rfl⟩ := h3
      rw [ih _ _ _ h2, addValue_rings h1, List.length_cons]
      omega
  refine ringVec_freed ?_
  rw [key choices _ _ _ h, ← hl]
  simp [RingProofBuilder.new]

example : ∃ cts b, EncryptedChoice.addChoices B101 [0, 1] [true, false]
      (RingProofBuilder.new B101 ⟨[42], 42⟩ [0, 0, 0, 0] (Transcript.new "x") (1 : ℕ)) = some (cts, b) ∧
    (EncryptedChoice.rings (⟨2, ⟨[42], 42⟩⟩ : ChoiceParams (ZMod 101) .multi) b).dropItems Ring.drop = b.drop.rings := by
  have h : (EncryptedChoice.addChoices B101 [0, 1] [true, false]
    (RingProofBuilder.new B101 ⟨[42], 42⟩ [0, 0, 0, 0] (Transcript.new "x") (1 : ℕ))).isSome = true := by decide +kernel
  obtain ⟨⟨cts, b⟩, h⟩ := Option.isSome_iff_exists.mp h
  exact ⟨cts, b, h, C97_choice_rings B101 _ _ rfl _ _ _ _ _ cts b h⟩

/-- C97, `src/proofs/range.rs:498-528`: the same for range proofs; `ring_count` is `range.admissible_values.len()`. -/
theorem C97_range_rings (B : Backend F E) (range : PreparedRange E) (indexes : List ℕ) (K : PublicKey E) (rs : List F)
    (t : Transcript) (rng : B.Rng) (cts : List (Ciphertext E)) (cumulative ct : ExtendedCiphertext F E)
    (b b' : RingProofBuilder B) (values : List E) (index : ℕ)
    (h : RangeProof.addValues B ((indexes.zip range.admissibleValues).take (indexes.length - 1)) ExtendedCiphertext.zero
      (RingProofBuilder.new B K rs t rng) = some (cts, cumulative, b))
    (hlast : ((indexes.zip range.admissibleValues).drop (indexes.length - 1)).head? = some (index, values))
    (h' : b.addPrecomputedValue B ct values index = some b') :
    (RangeProof.rings range b').dropItems Ring.drop = b'.drop.rings := by
  have key : ∀ (l : List (ℕ × List E)) (c c' : ExtendedCiphertext F E) (b₀ b : RingProofBuilder B) (cts : List (Ciphertext E)),
      RangeProof.addValues B l c b₀ = some (cts, c', b) → b.rings.length = b₀.rings.length + l.length := by
    intro l
    induction l with
    | nil =>
      intro c c' b₀ b cts h
      simp only [RangeProof.addValues, Option.some.injEq, Prod.mk.injEq] at h
      simp [h.2.2]
    | cons p l ih =>
      obtain ⟨i, vs⟩ := p
      intro c c' b₀ b cts h
      simp only [RangeProof.addValues, Option.bind_eq_bind, Option.bind_eq_some_iff] at h
      obtain ⟨⟨ct, b1⟩, h1, ⟨cts', c1, b2⟩, h2, h3⟩ := h
      simp only [Option.pure_def, Option.some.injEq, Prod.mk.injEq] at h3
      obtain ⟨-, -, rfl⟩ := h3
      rw [ih _ _ _ _ _ h2, addValue_rings h1, List.length_cons]
      omega
  refine ringVec_freed ?_
  have hne : 0 < ((indexes.zip range.admissibleValues).drop (indexes.length - 1)).length :=
    List.length_pos_iff.mpr fun hnil => by simp [hnil] at hlast
  rw [addPrecomputed_rings h', key _ _ _ _ _ _ h]
  simp only [List.length_drop, List.length_zip, List.length_take, RingProofBuilder.new, List.length_nil] at hne ⊢
  omega

/-- The rings of a range proof: one partial ciphertext, and a given last ciphertext. -/
def exRangeRings : Option (List (Ciphertext (ZMod 101)) × RingProofBuilder B101 × RingProofBuilder B101) := do
  let (cts, _, b) ← RangeProof.addValues B101
    ((([1, 0] : List ℕ).zip [[0, 5], [0, 1]]).take (([1, 0] : List ℕ).length - 1)) ExtendedCiphertext.zero
    (RingProofBuilder.new B101 ⟨[42], 42⟩ [0, 0, 0, 0] (Transcript.new "x") (1 : ℕ))
  let b' ← b.addPrecomputedValue B101 ExtendedCiphertext.zero [0, 1] 0
  return (cts, b, b')

example : ∃ cts b b', exRangeRings = some (cts, b, b') ∧
    (RangeProof.rings ⟨exampleRange.inner, [[0, 5], [0, 1]]⟩ b').dropItems Ring.drop = b'.drop.rings := by
  have h : exRangeRings.isSome = true := by decide +kernel
  obtain ⟨⟨cts, b, b'⟩, h⟩ := Option.isSome_iff_exists.mp h
  refine ⟨cts, b, b', h, ?_⟩
  simp only [exRangeRings, Option.bind_eq_bind, Option.bind_eq_some_iff] at h
  obtain ⟨⟨cts1, cum, b1⟩, h1, b2, h2, h3⟩ := h
  simp only [Option.pure_def, Option.some.injEq, Prod.mk.injEq] at h3
  obtain ⟨rfl, rfl, rfl⟩ := h3
  exact C97_range_rings B101 ⟨exampleRange.inner, [[0, 5], [0, 1]]⟩ [1, 0] _ _ _ _ _ _ _ _ _ [0, 1] 0 h1 rfl h2

omit [DecidableEq E] in
theorem commitLoop_fst {B : Backend F E} {K : PublicKey E} {cts : List (CiphertextWithValue F E)} :
    ∀ {s : F} {t : Transcript} {rng : B.Rng} {out : List (CiphertextWithValue F E × F × F) × F × Transcript × B.Rng},
      SumOfSquaresProof.commitLoop B K cts s t rng = some out → out.1.map (·.1) = cts := by
  induction cts with
  | nil =>
    intro s t rng out h
    simp only [SumOfSquaresProof.commitLoop, Option.some.injEq] at h
    simp [← h]
  | cons ct cts ih =>
    intro s t rng out h
    simp only [SumOfSquaresProof.commitLoop, Option.bind_eq_bind, Option.bind_eq_some_iff] at h
    obtain ⟨_, _, _, _, _, _, _, _, out', h', h⟩ := h
    simp only [Option.pure_def, Option.some.injEq] at h
    simp [← h, ih h']

theorem flatMap_pair {α β : Type} (f g : α → β) (l : List α) :
    ∀ i, (l.flatMap fun a => [f a, g a])[2 * i + 1]? = l[i]?.map g := by
  induction l with
  | nil => simp
  | cons a l ih =>
    intro i
    cases i with
    | zero => simp
    | succ i =>
      rw [show 2 * (i + 1) + 1 = (2 * i + 1) + 1 + 1 by ring]
      simpa using ih i

omit [DecidableEq E] in
/-- Finding: nonces of a sum-of-squares proof stay in the buffer from which they are moved, and encrypted values can be computed
from these and the proof. -/
theorem C97_square_nonces_left (B : Backend F E) (cts : List (CiphertextWithValue F E)) (sum : CiphertextWithValue F E)
    (K : PublicKey E) (t t' : Transcript) (rng rng' : B.Rng) (proof : SumOfSquaresProof F)
    (h : SumOfSquaresProof.new B cts sum K t rng = some (proof, t', rng')) (i : ℕ) (hi : i < cts.length) :
    ∃ v nonces response ct, SumOfSquaresProof.partialScalars B cts sum K t rng = some v ∧
      (SumOfSquaresProof.leftScalars v)[i]? = some nonces ∧
      proof.ciphertextResponses[2 * i + 1]? = some response ∧ cts[i]? = some ct ∧
      (proof.challenge ≠ 0 → (response - nonces.2) / proof.challenge = ct.value) := by
  simp only [SumOfSquaresProof.new, Option.bind_eq_bind, Option.bind_eq_some_iff] at h
  obtain ⟨⟨ps, s, t1, rng1⟩, h, _, _, _, _, _, _, _, _, hp⟩ := h
  simp only [Option.pure_def, Option.some.injEq, Prod.mk.injEq] at hp
  obtain ⟨rfl, -, -⟩ := hp
  have hfst := commitLoop_fst h
  have hlen : ps.length = cts.length := by simpa using congrArg List.length hfst
  have hips : i < ps.length := by omega
  refine ⟨.collect (ps.map fun p => (p.2.1, p.2.2)), (ps[i].2.1, ps[i].2.2), _, cts[i], ?_, ?_,
    flatMap_pair _ _ ps i |>.trans (by rw [List.getElem?_eq_getElem hips]; rfl), List.getElem?_eq_getElem _, ?_⟩
  · simp [SumOfSquaresProof.partialScalars, h]
  · simp [SumOfSquaresProof.leftScalars, VecBuf.movedOut, VecBuf.collect, hips]
  · intro hc
    have hval : ps[i].1 = cts[i] := by
      have := congrArg (fun l => l[i]?) hfst
      simpa [hips, hi] using this
    rw [← hval]
    field_simp
    ring

/-- Five ciphertexts. -/
def exSquares : List (CiphertextWithValue (ZMod 101) (ZMod 101)) :=
  [1, 2, 0, 3, 1].map fun v => ⟨⟨⟨5, 5 * 42 + v⟩, 5⟩, v⟩

example : ∃ v nonces response ct proof,
    SumOfSquaresProof.partialScalars B101 exSquares ⟨⟨⟨7, 7 * 42 + 15⟩, 7⟩, 15⟩ ⟨[42], 42⟩ (Transcript.new "x") (1 : ℕ) =
      some v ∧ (SumOfSquaresProof.leftScalars v)[3]? = some nonces ∧
    (proof : SumOfSquaresProof (ZMod 101)).ciphertextResponses[7]? = some response ∧ exSquares[3]? = some ct ∧
    (response - nonces.2) / proof.challenge = ct.value := by
  have h : (SumOfSquaresProof.new B101 exSquares ⟨⟨⟨7, 7 * 42 + 15⟩, 7⟩, 15⟩ ⟨[42], 42⟩ (Transcript.new "x")
    (1 : ℕ)).isSome = true := by decide +kernel
  have hc : (SumOfSquaresProof.new B101 exSquares ⟨⟨⟨7, 7 * 42 + 15⟩, 7⟩, 15⟩ ⟨[42], 42⟩ (Transcript.new "x")
    (1 : ℕ)).map (·.1.challenge) ≠ some 0 := by decide +kernel
  obtain ⟨⟨proof, t', rng'⟩, h⟩ := Option.isSome_iff_exists.mp h
  rw [h] at hc
  obtain ⟨v, nonces, response, ct, h1, h2, h3, h4, h5⟩ := C97_square_nonces_left B101 _ _ _ _ _ _ _ _ h 3 (by decide)
  exact ⟨v, nonces, response, ct, proof, h1, h2, h3, h4, h5 (by simpa using hc)⟩

omit [DecidableEq E] in
theorem drawRandomScalars_length {B : Backend F E} {n : ℕ} : ∀ {t : Transcript} {rng : B.Rng}
    {out : List F × Transcript × B.Rng}, ProofOfPossession.drawRandomScalars B n t rng = some out → out.1.length = n := by
  induction n with
  | zero =>
    intro t rng out h
    simp only [ProofOfPossession.drawRandomScalars, Option.some.injEq] at h
    simp [← h]
  | succ n ih =>
    intro t rng out h
    simp only [ProofOfPossession.drawRandomScalars, Option.bind_eq_bind, Option.bind_eq_some_iff] at h
    obtain ⟨_, _, out', h', h⟩ := h
    simp only [Option.pure_def, Option.some.injEq] at h
    simp [← h, ih h']

omit [DecidableEq E] in
/-- Finding: the same for proofs of possession, with which a dealer shows that they know the secret polynomial: its coefficients
can be computed from what is left of nonces and the public proof. -/
theorem C97_possession_nonces_left (B : Backend F E) (keys : List (Keypair F E)) (t t' : Transcript) (rng rng' : B.Rng)
    (proof : ProofOfPossession F) (h : ProofOfPossession.new B keys t rng = some (proof, t', rng')) (i : ℕ)
    (hi : i < keys.length) :
    ∃ v nonce response, ProofOfPossession.randomScalars B (keys.map (·.publicKey)) t rng = some v ∧
      (ProofOfPossession.leftScalars v)[i]? = some nonce ∧ proof.responses[i]? = some response ∧
      (proof.challenge ≠ 0 → (response - nonce) / proof.challenge = keys[i].secret) := by
  simp only [ProofOfPossession.new, ProofOfPossession.fromKeys, Option.bind_eq_bind, Option.bind_eq_some_iff] at h
  obtain ⟨⟨rs, t1, rng1⟩, h, hp⟩ := h
  simp only [Option.pure_def, Option.some.injEq, Prod.mk.injEq] at hp
  obtain ⟨rfl, -, -⟩ := hp
  have hlen : rs.length = keys.length := by simpa using drawRandomScalars_length h
  have hirs : i < rs.length := by omega
  refine ⟨.collect rs, rs[i], SecretKey.add rs[i] (SecretKey.mul keys[i].secret (B.challengeScalar t1 "c").1), ?_, ?_, ?_, ?_⟩
  · simp only [ProofOfPossession.randomScalars, h, Option.bind_eq_bind, Option.bind_some, Option.pure_def]
  · simp [ProofOfPossession.leftScalars, VecBuf.movedOut, VecBuf.collect, hirs]
  · simp [hi, hirs]
  · intro hc
    simp only [SecretKey.add, SecretKey.mul]
    field_simp
    ring

example : ∃ v nonce response proof, ProofOfPossession.randomScalars B101 [⟨[5], 5⟩, ⟨[6], 6⟩] (Transcript.new "x") (1 : ℕ) =
      some v ∧ (ProofOfPossession.leftScalars v)[1]? = some nonce ∧
    (proof : ProofOfPossession (ZMod 101)).responses[1]? = some response ∧
    (response - nonce) / proof.challenge = 6 := by
  have h : (ProofOfPossession.new B101 [⟨5, ⟨[5], 5⟩⟩, ⟨6, ⟨[6], 6⟩⟩] (Transcript.new "x") (1 : ℕ)).isSome = true := by
    decide +kernel
  have hc : (ProofOfPossession.new B101 [⟨5, ⟨[5], 5⟩⟩, ⟨6, ⟨[6], 6⟩⟩] (Transcript.new "x") (1 : ℕ)).map (·.1.challenge) ≠
    some 0 := by decide +kernel
  obtain ⟨⟨proof, t', rng'⟩, h⟩ := Option.isSome_iff_exists.mp h
  rw [h] at hc
  obtain ⟨v, nonce, response, h1, h2, h3, h4⟩ := C97_possession_nonces_left B101 _ _ _ _ _ _ h 1 (by decide)
  exact ⟨v, nonce, response, proof, h1, h2, h3, h4 (by simpa using hc)⟩

/-- Finding: rings are moved out when the proof is built, so that the index of the encrypted value and the randomness of the
ciphertext stay in the buffer. -/
theorem C97_rings_left (B : Backend F E) (n : ℕ) (b b' : RingProofBuilder B) (ct : ExtendedCiphertext F E) (values : List E)
    (index : ℕ) (h : b.addPrecomputedValue B ct values index = some b') :
    ∃ ring ∈ b'.builtRings n, ring.ciphertext = ct.inner ∧ ring.valueIndex = index ∧ ring.discreteLog = ct.randomScalar := by
  have hitems : ∀ (l : List (Ring F E)) (v : VecBuf (Ring F E)), (l.foldl VecBuf.push v).items = v.items ++ l := by
    intro l
    induction l with
    | nil => intro v; simp
    | cons a l ih =>
      intro v
      rw [List.foldl_cons, ih, VecBuf.push]
      split <;> simp
  simp only [RingProofBuilder.addPrecomputedValue, Option.bind_eq_bind, Option.bind_eq_some_iff] at h
  obtain ⟨_, _, ⟨ring, rng⟩, hnew, hb⟩ := h
  simp only [Option.pure_def, Option.some.injEq] at hb
  subst hb
  refine ⟨ring, ?_, ?_⟩
  · simp only [RingProofBuilder.builtRings, RingProofBuilder.ringVec, VecBuf.movedOut, hitems]
    simp
  · simp only [Ring.new, Option.bind_eq_bind, Option.bind_eq_some_iff] at hnew
    obtain ⟨-, -, _, -, -, -, v, -, -, -, bytes, -, ⟨c, rs', rng1⟩, -, h3⟩ := hnew
    simp only [Option.pure_def, Option.some.injEq, Prod.mk.injEq] at h3
    obtain ⟨rfl, -⟩ := h3
    exact ⟨rfl, rfl, rfl⟩

example : ∃ b', exBuilder 1 = some b' ∧ ∃ ring ∈ b'.builtRings 1, ring.valueIndex = 1 := by
  have hb : (exBuilder 1).isSome = true := by decide +kernel
  obtain ⟨b, hb⟩ := Option.isSome_iff_exists.mp hb
  obtain ⟨ring, h1, -, h2, -⟩ := C97_rings_left B101 1 _ b _ _ 1 hb
  exact ⟨b, hb, ring, h1, h2⟩

end ElasticElgamal
