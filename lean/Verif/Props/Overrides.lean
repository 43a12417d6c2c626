import Verif.Lemmas.Overrides
import Verif.Toy

/-!
# Groups over `curve25519-dalek` compute the same and do not panic more often (C80)
-/

set_option autoImplicit false
set_option linter.unusedSectionVars false

namespace ElasticElgamal

open Toy

variable {F E : Type} [Field F] [DecidableEq F] [AddCommGroup E] [Module F E]

/-- C80: inverting nonzero scalars in a batch is inverting each of them. With a zero scalar, debug builds panic, and
release builds return zero in place of all inverses. -/
theorem C80_batch_invert (debug : Bool) (xs : List F) :
    ((∀ x ∈ xs, x ≠ 0) → (Arith.dalek debug : Arith F E).invertScalars xs = some (xs.map (·⁻¹))) ∧
    (0 ∈ xs → (Arith.dalek debug : Arith F E).invertScalars xs =
      if debug then none else some (List.replicate xs.length 0)) :=
  ⟨Arith.dalekInvertScalars_of_ne debug,
    fun h => (Arith.dalekInvertScalars_zero debug h).trans (by rw [List.map_const'])⟩

example : (Arith.dalek true : Arith (ZMod 101) (ZMod 101)).invertScalars [2, 3, 5] =
      some [2⁻¹, 3⁻¹, 5⁻¹] ∧
    (Arith.dalek false : Arith (ZMod 101) (ZMod 101)).invertScalars [2, 0, 5] = some [0, 0, 0] :=
  ⟨(C80_batch_invert true _).1 (by decide), (C80_batch_invert false _).2 (by decide)⟩

/-- C80: products of arrays or vectors of the same size do not panic. -/
theorem C80_multi_mul (debug : Bool) (scalars : List F) (elements : List E) :
    (Arith.dalek debug).multiMul (.ofList scalars) (.ofList elements) =
      if scalars.length = elements.length then some (List.zipWith (· • ·) scalars elements).sum else none := by
  split_ifs with h
  · refine (Arith.dalekMultiMul_ofList h).trans (congrArg some ?_)
    rw [Backend.multiMul_eq_sum]
  · exact Arith.dalekMultiMul_none fun h' => h h'.1

example : (Arith.dalek true : Arith (ZMod 101) (ZMod 101)).multiMul (.ofList [2, 3]) (.ofList [5, 7]) = some 31 ∧
    (Arith.dalek true : Arith (ZMod 101) (ZMod 101)).multiMul (.ofList [2, 3]) (.ofList [5]) = none :=
  ⟨(C80_multi_mul true _ _).trans (by decide), (C80_multi_mul true _ _).trans (by decide)⟩

/-- C80: `value_at` never panics. -/
theorem C80_value_at (debug : Bool) (poly : PublicPolynomial E) (x : F) :
    PublicPolynomial.valueAtWith (.dalek debug) poly x = some (PublicPolynomial.valueAt poly x) :=
  Arith.dalekMultiMul_ofList (PublicPolynomial.powers_length x _ 1)

example : PublicPolynomial.valueAtWith (.dalek true) [(7 : ZMod 101), 5] (3 : ZMod 101) = some 22 :=
  (C80_value_at true _ _).trans (by decide)

/-- C80: `PublicKeySet::new` is the same for all polynomials, proofs and parameters. -/
theorem C80_key_set_new (debug : Bool) (B : Backend F E) (params : Params) (poly : List E) (proof : ProofOfPossession F) :
    PublicKeySet.newWith (.dalek debug) B params poly proof = PublicKeySet.new B params poly proof := by
  simp only [PublicKeySet.newWith, PublicKeySet.new, C80_value_at, Option.bind_eq_bind, Option.bind_some]
  rfl

example (proof : ProofOfPossession (ZMod 101)) : PublicKeySet.newWith (.dalek true) B101 ⟨3, 2⟩ [42, 7, 9] proof =
    some (.error .MalformedDealerPolynomial) := (C80_key_set_new true B101 _ _ proof).trans rfl

/-- C80: `combine_shares` is the same for all shares. -/
theorem C80_combine_shares (debug : Bool) (p : ℕ) [CharP F p] (params : Params) (hn : params.shares < p)
    (shares : List (ℕ × VerifiableDecryption E)) :
    params.combineSharesWith (.dalek debug : Arith F E) shares = params.combineShares F shares := by
  simp only [Params.combineSharesWith, Params.combineShares]
  split_ifs with h
  · rfl
  · by_cases hall : ((shares.take params.threshold).map Prod.fst).all fun index => index < params.shares
    · have hall' : ∀ i ∈ (shares.take params.threshold).map Prod.fst, i < params.shares := fun i hi =>
        of_decide_eq_true (List.all_eq_true.mp hall i hi)
      rw [lagrangeCoefficientsWith_eq debug p hn hall', lagrangeCoefficients_eq p hn hall']
      simp only [Option.bind_eq_bind, Option.bind_some]
      rw [show (Arith.dalek debug : Arith F E).multiMul = Arith.dalekMultiMul from rfl,
        Arith.dalekMultiMul_ofList (by simp only [List.length_map])]
      rfl
    · simp only [guard, if_neg hall]
      rfl

example : (⟨3, 2⟩ : Params).combineSharesWith (.dalek true : Arith (ZMod 101) (ZMod 101)) [(2, ⟨22⟩), (0, ⟨12⟩)] =
    (⟨3, 2⟩ : Params).combineShares (ZMod 101) [(2, ⟨22⟩), (0, ⟨12⟩)] :=
  C80_combine_shares true 101 _ (by norm_num) _

/-- C80: `from_participants` is the same for parameters with `threshold ≤ shares`. Otherwise the groups over
`curve25519-dalek` panic if the number of keys is right. -/
theorem C80_from_participants [DecidableEq E] (debug : Bool) (B : Backend F E) (p : ℕ) [CharP F p] (params : Params)
    (keys : List (PublicKey E)) :
    (params.threshold ≤ params.shares → params.shares < p →
      PublicKeySet.fromParticipantsWith (.dalek debug) B params keys = PublicKeySet.fromParticipants B params keys) ∧
    (params.shares < params.threshold → params.shares = keys.length →
      PublicKeySet.fromParticipantsWith (.dalek debug) B params keys = none) := by
  constructor
  · intro ht hn
    simp only [PublicKeySet.fromParticipantsWith, PublicKeySet.fromParticipants]
    split_ifs with hs
    · rfl
    · have hr : ∀ i ∈ List.range params.threshold, i < params.shares := fun i hi =>
        (List.mem_range.mp hi).trans_le ht
      have hs : params.shares = keys.length := not_not.mp hs
      have hne : ∀ x ∈ (List.range' 1 params.shares).map fun i : ℕ => (i : F), x ≠ 0 := by
        intro x hx
        obtain ⟨i, hi, rfl⟩ := List.mem_map.mp hx
        rw [List.mem_range'_1] at hi
        rw [Ne, CharP.cast_eq_zero_iff F p]
        exact fun h => absurd (Nat.le_of_dvd (by omega) h) (by omega)
      rw [lagrangeCoefficientsWith_eq debug p hn hr, lagrangeCoefficients_eq p hn hr]
      simp only [Option.bind_eq_bind, Option.bind_some, invertScalars_of_ne hne]
      rw [show (Arith.dalek debug : Arith F E).multiMul = Arith.dalekMultiMul from rfl,
        show (Arith.dalek debug : Arith F E).invertScalars = Arith.dalekInvertScalars debug from rfl,
        Arith.dalekInvertScalars_of_ne debug hne,
        Arith.dalekMultiMul_eq (n := params.threshold) (by simp [Iter.ofList]) (by simp [Iter.ofList])
          (by simp [Iter.take, Iter.map, Iter.ofList]; omega) (by simp [Iter.take, Iter.map, Iter.ofList]; omega)]
      simp only [Option.bind_some]
      rw [checkKeysWith_eq debug _ _ _ _ (by simp [Iter.take, Iter.map, Iter.ofList]; omega)
        (by simp [Iter.take, Iter.map, Iter.ofList]; omega)]
      rfl
  · intro ht hs
    simp only [PublicKeySet.fromParticipantsWith, lagrangeCoefficientsWith]
    rw [if_neg (not_not.mpr hs)]
    cases hi : (Arith.dalek debug : Arith F E).invertScalars
        ((List.range params.threshold).map (lagrangeDenominator (F := F) (List.range params.threshold))) with
    | none => rfl
    | some ds =>
      have hl := dalekInvertScalars_length debug hi
      rw [List.length_map, List.length_range] at hl
      simp only [Option.bind_eq_bind, Option.bind_some, Option.pure_def]
      rw [show (Arith.dalek debug : Arith F E).multiMul = Arith.dalekMultiMul from rfl, Arith.dalekMultiMul_none]
      · rfl
      · rintro ⟨h, -⟩
        simp only [Iter.ofList, Iter.take, Iter.map, hl] at h
        omega

/-- C80, finding: the same call with too large a threshold panics for one group and succeeds for another. -/
example : PublicKeySet.fromParticipantsWith (.dalek false) B101 ⟨1, 2⟩ [⟨[42], 42⟩] = none ∧
    (PublicKeySet.fromParticipantsWith .generic B101 ⟨1, 2⟩ [⟨[42], 42⟩]).map Except.isOk = some true :=
  ⟨(C80_from_participants false B101 101 ⟨1, 2⟩ _).2 (by decide) rfl, by decide⟩

/-- C80: `OddItems` yields the items with odd indexes, and its size hint is exact at the start and after each item. -/
theorem C80_odd_items {α : Type} (l : List α) :
    (∀ i, (OddItems.new l).collect[i]? = l[2 * i + 1]?) ∧
    (OddItems.new l).sizeHint = ((OddItems.new l).collect.length, some (OddItems.new l).collect.length) ∧
    ∀ x it, (OddItems.new l).next = (some x, it) → ∃ y l', l = y :: x :: l' ∧ it = OddItems.new l' := by
  rw [oddItems_collect]
  refine ⟨everySecond_getElem? l, ?_, ?_⟩
  · rw [everySecond_length]
    rfl
  · intro x it h
    match l, h with
    | y :: z :: l', h =>
      simp only [OddItems.new, OddItems.next, OddItems.iterNext, Bool.false_eq_true, if_false, Option.isNone_some,
        Prod.mk.injEq, Option.some.injEq] at h
      exact ⟨y, l', by rw [h.1], h.2.symm⟩
    | [y], h => simp [OddItems.new, OddItems.next, OddItems.iterNext] at h
    | [], h => simp [OddItems.new, OddItems.next, OddItems.iterNext] at h

example : (OddItems.new [1, 2, 3, 4, 5]).sizeHint = (2, some 2) := (C80_odd_items [1, 2, 3, 4, 5]).2.1

/-- C80: `SumOfSquaresProof::new` is the same for all iterators. -/
theorem C80_sum_of_squares_new (debug : Bool) (B : Backend F E) (cts : Iter (CiphertextWithValue F E))
    (sumCt : CiphertextWithValue F E) (K : PublicKey E) (t : Transcript) (rng : B.Rng) :
    SumOfSquaresProof.newWith (.dalek debug) B cts sumCt K t rng =
      SumOfSquaresProof.new B cts.items sumCt K t rng := by
  simp only [SumOfSquaresProof.newWith, SumOfSquaresProof.new]
  congr 1
  funext r
  obtain ⟨partialScalars, sumRandomScalar, t', rng'⟩ := r
  have h : ∀ (f : CiphertextWithValue F E × F × F → F) (g : CiphertextWithValue F E × F × F → E) (a : F) (b : E),
      (Arith.dalek debug : Arith F E).multiMul (((Iter.ofList partialScalars).map f).chain (.ofList [a]))
        (((Iter.ofList partialScalars).map g).chain (.ofList [b])) =
      some (Backend.multiMul (partialScalars.map f ++ [a]) (partialScalars.map g ++ [b])) := fun f g a b =>
    Arith.dalekMultiMul_eq (n := partialScalars.length + 1) rfl rfl rfl rfl
  simp only [h, Option.bind_eq_bind, Option.bind_some]

example (ct : CiphertextWithValue (ZMod 101) (ZMod 101)) :
    SumOfSquaresProof.newWith (.dalek true) B101 ((Iter.ofList [ct, ct]).filter fun _ => true) ct ⟨[42], 42⟩
      (Transcript.new "x") (6 : ℕ) = SumOfSquaresProof.new B101 [ct, ct] ct ⟨[42], 42⟩ (Transcript.new "x") (6 : ℕ) :=
  C80_sum_of_squares_new true B101 _ ct _ _ _

/-- C80: `SumOfSquaresProof::verify` is the same for iterators over ciphertexts with exact size hints, as in this
crate. For any other iterator it panics if the number of responses is right. -/
theorem C80_sum_of_squares_verify (debug : Bool) (B : Backend F E) (proof : SumOfSquaresProof F)
    (cts : Iter (Ciphertext E)) (sumCt : Ciphertext E) (K : PublicKey E) (t : Transcript) :
    SumOfSquaresProof.verifyWith (.dalek debug) B proof cts sumCt K t =
      if proof.ciphertextResponses.length = cts.items.length * 2 ∧
          ¬ (cts.lower = cts.items.length ∧ cts.upper = some cts.items.length) then none
      else proof.verify B cts.items sumCt K t := by
  by_cases hl : proof.ciphertextResponses.length = cts.items.length * 2
  · have hc : VerificationError.checkLengths "ciphertext responses" proof.ciphertextResponses.length
        (cts.items.length * 2) = .ok () := if_pos hl
    obtain ⟨hlo, hup⟩ := oddItems_eq _ _ hl
    by_cases he : cts.lower = cts.items.length ∧ cts.upper = some cts.items.length
    · rw [if_neg (fun h => h.2 he)]
      have h : ∀ (g : Ciphertext E → E) (a b : F) (c d : E),
          (Arith.dalek debug : Arith F E).multiMul ((Iter.oddItems proof.ciphertextResponses).chain (.ofList [a, b]))
            ((cts.map g).chain (.ofList [c, d])) =
          some (Backend.multiMul ((OddItems.new proof.ciphertextResponses).collect ++ [a, b])
            (cts.items.map g ++ [c, d])) := fun g a b c d =>
        Arith.dalekMultiMul_eq (n := cts.items.length + 2) (by simp [Iter.chain, Iter.ofList, hlo])
          (by simp [Iter.chain, Iter.ofList, hup]) (by simp [Iter.chain, Iter.map, Iter.ofList, he.1])
          (by simp [Iter.chain, Iter.map, Iter.ofList, he.2])
      simp only [SumOfSquaresProof.verifyWith, SumOfSquaresProof.verify, hc, h, Option.bind_eq_bind, Option.bind_some]
    · rw [if_pos ⟨hl, he⟩]
      have h : ∀ (g : Ciphertext E → E) (a b : F) (c d : E),
          (Arith.dalek debug : Arith F E).multiMul ((Iter.oddItems proof.ciphertextResponses).chain (.ofList [a, b]))
            ((cts.map g).chain (.ofList [c, d])) = none := by
        intro g a b c d
        refine Arith.dalekMultiMul_none ?_
        simp only [Iter.chain, Iter.map, Iter.ofList, hlo, hup]
        rintro ⟨h₁, -, h₃⟩
        have h₁ : cts.lower = cts.items.length := by simpa using h₁.symm
        refine he ⟨h₁, ?_⟩
        cases hu : cts.upper with
        | none => rw [hu] at h₃; simp at h₃
        | some u => rw [hu] at h₃; simp [h₁] at h₃; rw [h₃]
      simp only [SumOfSquaresProof.verifyWith, hc, h, Option.bind_eq_bind, Option.bind_none, Option.bind_fun_none]
  · rw [if_neg (fun h => hl h.1)]
    simp only [SumOfSquaresProof.verifyWith, SumOfSquaresProof.verify, VerificationError.checkLengths, if_neg hl]

/-- Filtering an array panics, although the same ciphertexts in a vector are checked. -/
example : SumOfSquaresProof.verifyWith (.dalek false) B101 ⟨7, [3, 4], 5⟩
      ((Iter.ofList [⟨1, 43⟩, ⟨0, 0⟩]).filter fun ct => ct.random ≠ 0) ⟨1, 44⟩ ⟨[42], 42⟩ (Transcript.new "x") = none ∧
    SumOfSquaresProof.verifyWith (.dalek false) B101 ⟨7, [3, 4], 5⟩ (.ofList [⟨1, 43⟩]) ⟨1, 44⟩ ⟨[42], 42⟩
      (Transcript.new "x") =
    (⟨7, [3, 4], 5⟩ : SumOfSquaresProof (ZMod 101)).verify B101 [⟨1, 43⟩] ⟨1, 44⟩ ⟨[42], 42⟩ (Transcript.new "x") :=
  ⟨(C80_sum_of_squares_verify false B101 _ _ _ _ _).trans (if_pos (by decide)),
    (C80_sum_of_squares_verify false B101 _ _ _ _ _).trans (if_neg (by decide))⟩

end ElasticElgamal
