import Verif.Props.Serde
import Verif.Spec.Wire

/-!
# The wire format (C71)

For each serializable struct: the names and the order of the fields that are written, and exactly which data
are read and as what. Other implementations, and data stored by earlier versions, depend on these names;
round trips do not.
-/

set_option autoImplicit false
set_option linter.unusedSectionVars false

namespace ElasticElgamal

open Spec Toy Serde

variable {F E : Type} [Field F] [AddCommGroup E] [Module F E] [DecidableEq F] [DecidableEq E]

/-! ## Fields and sequences -/

theorem field_iff {fields : List (String × Data)} {name : String} {d : Data} :
    field fields name = .ok d ↔ OneField fields name d := by
  rw [field_eq_ok]
  constructor
  · intro h
    induction fields with
    | nil => simp at h
    | cons f fs ih =>
      by_cases hf : f.1 = name
      · rw [List.filter_cons_of_pos (by simpa using hf)] at h
        obtain ⟨rfl, h'⟩ := List.cons.inj h
        refine ⟨[], fs, rfl, fun g hg => ?_⟩
        have := List.filter_eq_nil_iff.mp h' g hg
        simpa using this
      · rw [List.filter_cons_of_neg (by simpa using hf)] at h
        obtain ⟨pre, post, rfl, hn⟩ := ih h
        refine ⟨f :: pre, post, rfl, fun g hg => ?_⟩
        rcases List.mem_cons.mp hg with rfl | hg
        · exact hf
        · exact hn g hg
  · rintro ⟨pre, post, rfl, hn⟩
    have h1 : pre.filter (fun f => f.1 = name) = [] :=
      List.filter_eq_nil_iff.mpr fun g hg => by simpa using hn g (by simp [hg])
    have h2 : post.filter (fun f => f.1 = name) = [] :=
      List.filter_eq_nil_iff.mpr fun g hg => by simpa using hn g (by simp [hg])
    simp [List.filter_append, h1, h2]

theorem asMap_eq_ok {d : Data} {fields : List (String × Data)} : asMap d = .ok fields ↔ d = .map fields := by
  cases d <;> simp [asMap]

theorem asSeq_eq_ok {d : Data} {items : List Data} : asSeq d = .ok items ↔ d = .seq items := by
  cases d <;> simp [asSeq]

theorem forall₂_congr_iff {α β : Type} {R S : α → β → Prop} (h : ∀ a b, R a b ↔ S a b) {l : List α} {l' : List β} :
    List.Forall₂ R l l' ↔ List.Forall₂ S l l' :=
  ⟨fun H => H.imp fun a b => (h a b).mp, fun H => H.imp fun a b => (h a b).mpr⟩

theorem vec_iff {fmt : Format} (hf : fmt.Lawful) {α : Type} {min : ℕ} {item : Data → Except DeError α}
    {P : Data → α → Prop} (h : ∀ d x, item d = .ok x ↔ P d x) {d : Data} {l : List α} :
    deserializeVec fmt min item d = .ok l ↔ IsSeq min P d l := by
  rw [C52_vec_accepts hf]
  constructor
  · rintro ⟨items, h1, h2, h3⟩
    exact ⟨h2, items, h1, (forall₂_congr_iff h).mp h3⟩
  · rintro ⟨h2, items, h1, h3⟩
    exact ⟨items, h1, h2, (forall₂_congr_iff h).mpr h3⟩

theorem list_iff {α : Type} {item : Data → Except DeError α} {P : Data → α → Prop}
    (h : ∀ d x, item d = .ok x ↔ P d x) {d : Data} {l : List α} :
    deserializeList item d = .ok l ↔ IsSeq 0 P d l := by
  simp only [deserializeList, except_bind_eq_ok, asSeq_eq_ok, except_mapM_eq_ok]
  constructor
  · rintro ⟨items, rfl, h3⟩
    exact ⟨Nat.zero_le _, items, rfl, (forall₂_congr_iff h).mp h3⟩
  · rintro ⟨-, items, rfl, h3⟩
    exact ⟨items, rfl, (forall₂_congr_iff h).mpr h3⟩

theorem ciphertexts_list (B : Backend F E) (fmt : Format) (d : Data) :
    deserializeCiphertexts B fmt d = deserializeList (deserializeCiphertext B fmt) d := by
  cases d <;> rfl

theorem option_iff {α : Type} {item : Data → Except DeError α} {P : Data → α → Prop}
    (h : ∀ d x, item d = .ok x ↔ P d x) {d : Data} {x : Option α} :
    deserializeOption item d = .ok x ↔ IsOption P d x := by
  cases x with
  | none =>
    cases d <;> simp only [deserializeOption, IsOption, reduceCtorEq, iff_false, Except.map] <;>
      split <;> simp
  | some x =>
    have hm (r : Except DeError α) : r.map some = .ok (some x) ↔ r = .ok x := by cases r <;> simp [Except.map]
    simp only [IsOption]
    rw [← h]
    cases d <;> simp [deserializeOption, hm]

theorem mapItems_iff {α : Type} {item : Data → Option (Except DeError α)} {P : Data → α → Prop}
    (h : ∀ d x, item d = some (.ok x) ↔ P d x) {items : List Data} {l : List α} :
    mapItems item items = some (.ok l) ↔ List.Forall₂ P items l := by
  induction items generalizing l with
  | nil => simp [mapItems, eq_comm]
  | cons d ds ih =>
    simp only [mapItems, Option.bind_eq_bind, Option.bind_eq_some_iff]
    constructor
    · rintro ⟨r, h1, h2⟩
      cases r with
      | error e => simp at h2
      | ok x =>
        simp only [Option.pure_def, Option.bind_eq_some_iff, Option.some.injEq] at h2
        obtain ⟨r, h2, h3⟩ := h2
        cases r with
        | error e => simp [Except.map] at h3
        | ok xs =>
          simp only [Except.map, Except.ok.injEq] at h3
          subst h3
          exact .cons ((h _ _).mp h1) (ih.mp h2)
    · intro H
      cases H with
      | cons h1 h2 =>
        refine ⟨_, (h _ _).mpr h1, ?_⟩
        simp [ih.mpr h2, Except.map]

theorem usize_iff {d : Data} {n : ℕ} : deserializeUsize d = .ok n ↔ IsUsize d n := by
  unfold IsUsize
  cases d with
  | uint m =>
    simp only [deserializeUsize]
    split
    · rename_i h; simp only [Except.ok.injEq, Data.uint.injEq]; constructor
      · rintro rfl; exact ⟨rfl, h⟩
      · exact fun h => h.1
    · rename_i h; simp only [reduceCtorEq, Data.uint.injEq, false_iff]; rintro ⟨rfl, h'⟩; exact h h'
  | _ => simp [deserializeUsize]

theorem bool_iff {d : Data} {b : Bool} : deserializeBool d = .ok b ↔ IsBool d b := by
  unfold IsBool
  cases d <;> simp [deserializeBool]

section

variable {fmt : Format} {B : Backend F E}

/-! ## Ciphertexts and decryptions -/

/-- A ciphertext is a map of `random_element` and `blinded_element`. -/
theorem C71_ciphertext (c : Ciphertext E) (d : Data) :
    (deserializeCiphertext B fmt d = .ok c ↔ IsCiphertext B fmt d c) ∧
    (serializeCiphertext B fmt c = some d → HasFields d ["random_element", "blinded_element"]) := by
  constructor
  · simp only [deserializeCiphertext, except_bind_eq_ok, asMap_eq_ok, field_iff, C52_element_accepts, except_pure,
      Except.ok.injEq, IsCiphertext, IsStruct, List.mem_cons, List.not_mem_nil, or_false, forall_eq_or_imp,
      forall_eq, IsElement]
    constructor
    · rintro ⟨fs, hd, d1, h1, x, h2, d2, h3, y, h4, rfl⟩
      exact ⟨fs, hd, ⟨d1, h1, h2⟩, d2, h3, h4⟩
    · rintro ⟨fs, hd, ⟨d1, h1, h2⟩, d2, h3, h4⟩
      exact ⟨fs, hd, d1, h1, _, h2, d2, h3, _, h4, rfl⟩
  · simp only [serializeCiphertext, Option.bind_eq_bind, Option.bind_eq_some_iff, Option.pure_def, Option.some.injEq]
    rintro ⟨x, -, y, -, rfl⟩
    exact ⟨_, rfl, rfl⟩

/-- A decryption share is a map of `dh_element`. -/
theorem C71_decryption (c : CandidateDecryption E) (d : Data) :
    (deserializeCandidate B fmt d = .ok c ↔ IsCandidate B fmt d c) ∧
    (serializeDecryption B fmt c.inner = some d → HasFields d ["dh_element"]) := by
  constructor
  · simp only [deserializeCandidate, except_bind_eq_ok, asMap_eq_ok, field_iff, C52_element_accepts, except_pure,
      Except.ok.injEq, IsCandidate, IsStruct, List.mem_cons, List.not_mem_nil, or_false, 
      forall_eq, IsElement]
    constructor
    · rintro ⟨fs, hd, d1, h1, x, h2, rfl⟩
      exact ⟨fs, hd, d1, h1, h2⟩
    · rintro ⟨fs, hd, d1, h1, h2⟩
      exact ⟨fs, hd, d1, h1, _, h2, rfl⟩
  · simp only [serializeDecryption, Option.bind_eq_bind, Option.bind_eq_some_iff, Option.pure_def, Option.some.injEq]
    rintro ⟨x, -, rfl⟩
    exact ⟨_, rfl, rfl⟩

/-! ## Proofs -/

/-- A proof of equality of logarithms is a map of `challenge` and `response`. -/
theorem C71_log_eq (hB : B.Lawful) (p : LogEqualityProof F) (d : Data) :
    (deserializeLogEq B fmt d = .ok p ↔ IsLogEq B fmt d p) ∧
    HasFields (serializeLogEq B fmt p) ["challenge", "response"] := by
  constructor
  · simp only [deserializeLogEq, except_bind_eq_ok, asMap_eq_ok, field_iff, C52_scalar_accepts hB, except_pure,
      Except.ok.injEq, IsLogEq, IsStruct, List.mem_cons, List.not_mem_nil, or_false, forall_eq_or_imp,
      forall_eq, IsScalar]
    constructor
    · rintro ⟨fs, hd, d1, h1, x, h2, d2, h3, y, h4, rfl⟩
      exact ⟨fs, hd, ⟨d1, h1, h2⟩, d2, h3, h4⟩
    · rintro ⟨fs, hd, ⟨d1, h1, h2⟩, d2, h3, h4⟩
      exact ⟨fs, hd, d1, h1, _, h2, d2, h3, _, h4, rfl⟩
  · exact ⟨_, rfl, rfl⟩

theorem scalar_iff (hB : B.Lawful) (d : Data) (s : F) : deserializeScalar B fmt d = .ok s ↔ IsScalar B fmt d s :=
  C52_scalar_accepts hB d s

/-- A proof of possession is a map of `challenge` and `responses`, at least one. -/
theorem C71_pop (hf : fmt.Lawful) (hB : B.Lawful) (p : ProofOfPossession F) (d : Data) :
    (deserializePop B fmt d = .ok p ↔ IsPop B fmt d p) ∧
    (serializePop B fmt p = some d → HasFields d ["challenge", "responses"]) := by
  constructor
  · simp only [deserializePop, except_bind_eq_ok, asMap_eq_ok, field_iff, scalar_iff hB, except_pure,
      vec_iff hf (scalar_iff hB),
      Except.ok.injEq, IsPop, IsStruct, List.mem_cons, List.not_mem_nil, or_false, forall_eq_or_imp, forall_eq]
    constructor
    · rintro ⟨fs, hd, d1, h1, x, h2, d2, h3, y, h4, rfl⟩
      exact ⟨fs, hd, ⟨d1, h1, h2⟩, d2, h3, h4⟩
    · rintro ⟨fs, hd, ⟨d1, h1, h2⟩, d2, h3, h4⟩
      exact ⟨fs, hd, d1, h1, _, h2, d2, h3, _, h4, rfl⟩
  · simp only [serializePop, Option.bind_eq_bind, Option.bind_eq_some_iff, Option.pure_def, Option.some.injEq]
    rintro ⟨x, -, rfl⟩
    exact ⟨_, rfl, rfl⟩

/-- A proof of equivalence is a map of the challenge and three responses. -/
theorem C71_commitment_eq (hB : B.Lawful) (p : CommitmentEquivalenceProof F) (d : Data) :
    (deserializeCommitmentEq B fmt d = .ok p ↔ IsCommitmentEq B fmt d p) ∧
    HasFields (serializeCommitmentEq B fmt p)
      ["challenge", "randomness_response", "value_response", "commitment_response"] := by
  constructor
  · simp only [deserializeCommitmentEq, except_bind_eq_ok, asMap_eq_ok, field_iff, scalar_iff hB, except_pure,
      Except.ok.injEq, IsCommitmentEq, IsStruct, List.mem_cons, List.not_mem_nil, or_false, forall_eq_or_imp,
      forall_eq]
    constructor
    · rintro ⟨fs, hd, d1, h1, x, h2, d2, h3, y, h4, d3, h5, z, h6, d4, h7, w, h8, rfl⟩
      exact ⟨fs, hd, ⟨d1, h1, h2⟩, ⟨d2, h3, h4⟩, ⟨d3, h5, h6⟩, d4, h7, h8⟩
    · rintro ⟨fs, hd, ⟨d1, h1, h2⟩, ⟨d2, h3, h4⟩, ⟨d3, h5, h6⟩, d4, h7, h8⟩
      exact ⟨fs, hd, d1, h1, _, h2, d2, h3, _, h4, d3, h5, _, h6, d4, h7, _, h8, rfl⟩
  · exact ⟨_, rfl, rfl⟩

/-- A sum-of-squares proof is a map of `challenge`, `ciphertext_responses` (at least two) and `sum_response`. -/
theorem C71_sum_of_squares (hf : fmt.Lawful) (hB : B.Lawful) (p : SumOfSquaresProof F) (d : Data) :
    (deserializeSumOfSquares B fmt d = .ok p ↔ IsSumOfSquares B fmt d p) ∧
    (serializeSumOfSquares B fmt p = some d → HasFields d ["challenge", "ciphertext_responses", "sum_response"]) := by
  constructor
  · simp only [deserializeSumOfSquares, except_bind_eq_ok, asMap_eq_ok, field_iff, scalar_iff hB, except_pure,
      vec_iff hf (scalar_iff hB),
      Except.ok.injEq, IsSumOfSquares, IsStruct, List.mem_cons, List.not_mem_nil, or_false, forall_eq_or_imp,
      forall_eq]
    constructor
    · rintro ⟨fs, hd, d1, h1, x, h2, d2, h3, y, h4, d3, h5, z, h6, rfl⟩
      exact ⟨fs, hd, ⟨d1, h1, h2⟩, ⟨d2, h3, h4⟩, d3, h5, h6⟩
    · rintro ⟨fs, hd, ⟨d1, h1, h2⟩, ⟨d2, h3, h4⟩, d3, h5, h6⟩
      exact ⟨fs, hd, d1, h1, _, h2, d2, h3, _, h4, d3, h5, _, h6, rfl⟩
  · simp only [serializeSumOfSquares, Option.bind_eq_bind, Option.bind_eq_some_iff, Option.pure_def,
      Option.some.injEq]
    rintro ⟨x, -, rfl⟩
    exact ⟨_, rfl, rfl⟩

theorem ringOfFields_iff (hf : fmt.Lawful) (hB : B.Lawful) {fields : List (String × Data)} {p : RingProof F} :
    ringOfFields B fmt fields = .ok p ↔
      (∃ d, OneField fields "common_challenge" d ∧ IsScalar B fmt d p.commonChallenge) ∧
      ∃ d, OneField fields "ring_responses" d ∧ IsSeq 2 (IsScalar B fmt) d p.ringResponses := by
  simp only [ringOfFields, except_bind_eq_ok, field_iff, scalar_iff hB, except_pure, vec_iff hf (scalar_iff hB),
    Except.ok.injEq]
  constructor
  · rintro ⟨d1, h1, x, h2, d2, h3, y, h4, rfl⟩
    exact ⟨⟨d1, h1, h2⟩, d2, h3, h4⟩
  · rintro ⟨⟨d1, h1, h2⟩, d2, h3, h4⟩
    exact ⟨d1, h1, _, h2, d2, h3, _, h4, rfl⟩

/-- A ring proof is a map of `common_challenge` and `ring_responses`, at least two. -/
theorem C71_ring (hf : fmt.Lawful) (hB : B.Lawful) (p : RingProof F) (d : Data) :
    (deserializeRing B fmt d = .ok p ↔ IsRing B fmt d p) ∧
    (serializeRing B fmt p = some d → HasFields d ["common_challenge", "ring_responses"]) := by
  constructor
  · simp only [deserializeRing, except_bind_eq_ok, asMap_eq_ok, ringOfFields_iff hf hB, IsRing, IsStruct,
      List.mem_cons, List.not_mem_nil, or_false, forall_eq_or_imp, forall_eq]
  · simp only [serializeRing, ringFields, Option.bind_eq_bind, Option.bind_eq_some_iff, Option.pure_def,
      Option.some.injEq]
    rintro ⟨_, ⟨x, -, rfl⟩, rfl⟩
    exact ⟨_, rfl, rfl⟩

/-- A range proof is a map of `partial_ciphertexts` and the fields of the ring proof. -/
theorem C71_range (hf : fmt.Lawful) (hB : B.Lawful) (p : RangeProof F E) (d : Data) :
    (deserializeRange B fmt d = .ok p ↔ IsRange B fmt d p) ∧
    (serializeRange B fmt p = some d →
      HasFields d ["partial_ciphertexts", "common_challenge", "ring_responses"]) := by
  have hf' : fmt.flattened.Lawful := ⟨fun h => h, hf.decode_encode, hf.sizeHint_eq⟩
  constructor
  · simp only [deserializeRange, except_bind_eq_ok, asMap_eq_ok, field_iff, ringOfFields_iff hf' hB,
      ciphertexts_list, list_iff fun d x => (C71_ciphertext (B := B) (fmt := fmt) x d).1, except_pure,
      Except.ok.injEq, IsRange, IsStruct, List.mem_cons, List.not_mem_nil, or_false, forall_eq_or_imp,
      forall_eq]
    constructor
    · rintro ⟨fs, hd, d1, h1, x, h2, y, ⟨h3, h4⟩, rfl⟩
      exact ⟨fs, hd, ⟨d1, h1, h2⟩, h3, h4⟩
    · rintro ⟨fs, hd, ⟨d1, h1, h2⟩, h3, h4⟩
      exact ⟨fs, hd, d1, h1, _, h2, _, ⟨h3, h4⟩, rfl⟩
  · simp only [serializeRange, ringFields, Option.bind_eq_bind, Option.bind_eq_some_iff, Option.pure_def,
      Option.some.injEq]
    rintro ⟨x, -, _, ⟨y, -, rfl⟩, rfl⟩
    exact ⟨_, rfl, rfl⟩

/-! ## Ballots -/

/-- A ballot with choices is a map of `choices`, `range_proof` and `sum_proof`; the latter is null if several
options may be chosen. -/
theorem C71_choice (hf : fmt.Lawful) (hB : B.Lawful) {kind : ChoiceKind} (c : EncryptedChoice F E kind) (d : Data) :
    (deserializeChoice B fmt kind d = .ok c ↔ IsChoice B fmt kind d c) ∧
    (serializeChoice B fmt c = some d → HasFields d ["choices", "range_proof", "sum_proof"]) := by
  constructor
  · cases kind with
    | single =>
      have hs (d : Data) (x : SumProof F .single) : deserializeSumProof B fmt .single d = .ok x ↔ IsLogEq B fmt d x :=
        (C71_log_eq (fmt := fmt) hB x d).1
      simp only [deserializeChoice, hs, except_bind_eq_ok, asMap_eq_ok, field_iff,
        ciphertexts_list, list_iff fun d x => (C71_ciphertext (B := B) (fmt := fmt) x d).1,
        fun d p => (C71_ring hf hB p d).1, except_pure,
        Except.ok.injEq, IsChoice, IsStruct, List.mem_cons, List.not_mem_nil, or_false, forall_eq_or_imp,
        forall_eq]
      constructor
      · rintro ⟨fs, hd, d1, h1, x, h2, d2, h3, y, h4, d3, h5, z, h6, rfl⟩
        exact ⟨fs, hd, ⟨d1, h1, h2⟩, ⟨d2, h3, h4⟩, d3, h5, h6⟩
      · rintro ⟨fs, hd, ⟨d1, h1, h2⟩, ⟨d2, h3, h4⟩, d3, h5, h6⟩
        exact ⟨fs, hd, d1, h1, _, h2, d2, h3, _, h4, d3, h5, _, h6, rfl⟩
    | multi =>
      have hs (d : Data) (x : SumProof F .multi) : deserializeSumProof B fmt .multi d = .ok x ↔ d = .null := by
        cases d <;> simp only [deserializeSumProof, reduceCtorEq]
        exact iff_of_true (congrArg _ (Subsingleton.elim (α := Unit) _ _)) trivial
      simp only [deserializeChoice, except_bind_eq_ok, asMap_eq_ok, field_iff, hs,
        ciphertexts_list, list_iff fun d x => (C71_ciphertext (B := B) (fmt := fmt) x d).1,
        fun d p => (C71_ring hf hB p d).1, except_pure,
        Except.ok.injEq, IsChoice, IsStruct, List.mem_cons, List.not_mem_nil, or_false, forall_eq_or_imp,
        forall_eq]
      constructor
      · rintro ⟨fs, hd, d1, h1, x, h2, d2, h3, y, h4, d3, h5, z, h6, rfl⟩
        exact ⟨fs, hd, ⟨d1, h1, h2⟩, ⟨d2, h3, h4⟩, d3, h5, h6⟩
      · rintro ⟨fs, hd, ⟨d1, h1, h2⟩, ⟨d2, h3, h4⟩, d3, h5, h6⟩
        exact ⟨fs, hd, d1, h1, _, h2, d2, h3, _, h4, d3, h5, c.sumProof, h6, rfl⟩
  · simp only [serializeChoice, Option.bind_eq_bind, Option.bind_eq_some_iff, Option.pure_def, Option.some.injEq]
    rintro ⟨x, -, y, -, rfl⟩
    exact ⟨_, rfl, rfl⟩

/-- A ciphertext with a range proof is a map of `ciphertext` and `range_proof`. -/
theorem C71_with_range (hf : fmt.Lawful) (hB : B.Lawful) (c : CiphertextWithRangeProof F E) (d : Data) :
    (deserializeWithRange B fmt d = .ok c ↔ IsWithRange B fmt d c) ∧
    (serializeWithRange B fmt c = some d → HasFields d ["ciphertext", "range_proof"]) := by
  constructor
  · simp only [deserializeWithRange, except_bind_eq_ok, asMap_eq_ok, field_iff,
      fun d c => (C71_ciphertext (B := B) (fmt := fmt) c d).1, fun d p => (C71_range hf hB p d).1, except_pure,
      Except.ok.injEq, IsWithRange, IsStruct, List.mem_cons, List.not_mem_nil, or_false, forall_eq_or_imp, forall_eq]
    constructor
    · rintro ⟨fs, hd, d1, h1, x, h2, d2, h3, y, h4, rfl⟩
      exact ⟨fs, hd, ⟨d1, h1, h2⟩, d2, h3, h4⟩
    · rintro ⟨fs, hd, ⟨d1, h1, h2⟩, d2, h3, h4⟩
      exact ⟨fs, hd, d1, h1, _, h2, d2, h3, _, h4, rfl⟩
  · simp only [serializeWithRange, Option.bind_eq_bind, Option.bind_eq_some_iff, Option.pure_def, Option.some.injEq]
    rintro ⟨x, -, y, -, rfl⟩
    exact ⟨_, rfl, rfl⟩

/-- A quadratic voting ballot is a map of `votes`, `credit` and `credit_equivalence_proof`. -/
theorem C71_ballot (hf : fmt.Lawful) (hB : B.Lawful) (b : QuadraticVotingBallot F E) (d : Data) :
    (deserializeBallot B fmt d = .ok b ↔ IsBallot B fmt d b) ∧
    (serializeBallot B fmt b = some d → HasFields d ["votes", "credit", "credit_equivalence_proof"]) := by
  constructor
  · simp only [deserializeBallot, except_bind_eq_ok, asMap_eq_ok, field_iff,
      list_iff fun d c => (C71_with_range hf hB c d).1, fun d c => (C71_with_range hf hB c d).1,
      fun d p => (C71_sum_of_squares hf hB p d).1, except_pure,
      Except.ok.injEq, IsBallot, IsStruct, List.mem_cons, List.not_mem_nil, or_false, forall_eq_or_imp, forall_eq]
    constructor
    · rintro ⟨fs, hd, d1, h1, x, h2, d2, h3, y, h4, d3, h5, z, h6, rfl⟩
      exact ⟨fs, hd, ⟨d1, h1, h2⟩, ⟨d2, h3, h4⟩, d3, h5, h6⟩
    · rintro ⟨fs, hd, ⟨d1, h1, h2⟩, ⟨d2, h3, h4⟩, d3, h5, h6⟩
      exact ⟨fs, hd, d1, h1, _, h2, d2, h3, _, h4, d3, h5, _, h6, rfl⟩
  · simp only [serializeBallot, Option.bind_eq_bind, Option.bind_eq_some_iff, Option.pure_def, Option.some.injEq]
    rintro ⟨x, -, y, -, z, -, rfl⟩
    exact ⟨_, rfl, rfl⟩

/-! ## Key sharing -/

/-- Parameters are a map of `shares` and `threshold`. -/
theorem C71_params (p : Params) (d : Data) :
    (deserializeParams d = .ok p ↔ IsParams d p) ∧ HasFields (serializeParams p) ["shares", "threshold"] := by
  constructor
  · simp only [deserializeParams, except_bind_eq_ok, asMap_eq_ok, field_iff, usize_iff, except_pure,
      Except.ok.injEq, IsParams, IsStruct, List.mem_cons, List.not_mem_nil, or_false, forall_eq_or_imp, forall_eq]
    constructor
    · rintro ⟨fs, hd, d1, h1, x, h2, d2, h3, y, h4, rfl⟩
      exact ⟨fs, hd, ⟨d1, h1, h2⟩, d2, h3, h4⟩
    · rintro ⟨fs, hd, ⟨d1, h1, h2⟩, d2, h3, h4⟩
      exact ⟨fs, hd, d1, h1, _, h2, d2, h3, _, h4, rfl⟩
  · exact ⟨_, rfl, rfl⟩

theorem public_key_iff (d : Data) (key : PublicKey E) :
    deserializePublicKey B fmt d = .ok key ↔ IsPublicKey B fmt d key := C52_public_key_accepts d key

/-- A key set is a map of `params`, `shared_key` and `participant_keys`. -/
theorem C71_key_set (ks : PublicKeySet E) (d : Data) :
    (deserializeKeySet B fmt d = .ok ks ↔ IsKeySet B fmt d ks) ∧
    HasFields (serializeKeySet fmt ks) ["params", "shared_key", "participant_keys"] := by
  constructor
  · simp only [deserializeKeySet, except_bind_eq_ok, asMap_eq_ok, field_iff, public_key_iff,
      list_iff (public_key_iff (B := B) (fmt := fmt)), fun d p => (C71_params p d).1, except_pure,
      Except.ok.injEq, IsKeySet, IsStruct, List.mem_cons, List.not_mem_nil, or_false, forall_eq_or_imp, forall_eq]
    constructor
    · rintro ⟨fs, hd, d1, h1, x, h2, d2, h3, y, h4, d3, h5, z, h6, rfl⟩
      exact ⟨fs, hd, ⟨d1, h1, h2⟩, ⟨d2, h3, h4⟩, d3, h5, h6⟩
    · rintro ⟨fs, hd, ⟨d1, h1, h2⟩, ⟨d2, h3, h4⟩, d3, h5, h6⟩
      exact ⟨fs, hd, d1, h1, _, h2, d2, h3, _, h4, d3, h5, _, h6, rfl⟩
  · exact ⟨_, rfl, rfl⟩

/-- A participant is a map of `key_set`, `index` and `secret_share`. -/
theorem C71_participant (hB : B.Lawful) (p : ActiveParticipant F E) (d : Data) :
    (deserializeParticipant B fmt d = .ok p ↔ IsParticipant B fmt d p) ∧
    HasFields (serializeParticipant B fmt p) ["key_set", "index", "secret_share"] := by
  constructor
  · simp only [deserializeParticipant, except_bind_eq_ok, asMap_eq_ok, field_iff, usize_iff,
      fun d ks => (C71_key_set (B := B) (fmt := fmt) ks d).1, C52_secret_key_accepts hB, except_pure,
      Except.ok.injEq, IsParticipant, IsStruct, List.mem_cons, List.not_mem_nil, or_false, forall_eq_or_imp,
      forall_eq, IsScalar]
    constructor
    · rintro ⟨fs, hd, d1, h1, x, h2, d2, h3, y, h4, d3, h5, z, h6, rfl⟩
      exact ⟨fs, hd, ⟨d1, h1, h2⟩, ⟨d2, h3, h4⟩, d3, h5, h6⟩
    · rintro ⟨fs, hd, ⟨d1, h1, h2⟩, ⟨d2, h3, h4⟩, d3, h5, h6⟩
      exact ⟨fs, hd, d1, h1, _, h2, d2, h3, _, h4, d3, h5, _, h6, rfl⟩
  · exact ⟨_, rfl, rfl⟩

theorem polynomial_iff (hf : fmt.Lawful) (d : Data) (p : List E) :
    deserializePolynomial B fmt d = .ok p ↔ IsSeq 1 (IsElement B fmt) d p :=
  vec_iff hf fun d e => C52_element_accepts d e

/-- Public data of a participant of key generation are a map of `polynomial`, `proof_of_possession` and
`opening`. -/
theorem C71_public_info (hf : fmt.Lawful) (hB : B.Lawful) (i : PublicInfo F E) (d : Data) :
    (deserializePublicInfo B fmt d = .ok i ↔ IsPublicInfo B fmt d i) ∧
    (serializePublicInfo B fmt i = some d → HasFields d ["polynomial", "proof_of_possession", "opening"]) := by
  constructor
  · simp only [deserializePublicInfo, except_bind_eq_ok, asMap_eq_ok, field_iff,
      vec_iff hf fun d e => C52_element_accepts (B := B) (fmt := fmt) d e, fun d p => (C71_pop hf hB p d).1,
      C52_opening_accepts, except_pure,
      Except.ok.injEq, IsPublicInfo, IsStruct, List.mem_cons, List.not_mem_nil, or_false, forall_eq_or_imp,
      forall_eq, IsOpening]
    constructor
    · rintro ⟨fs, hd, d1, h1, x, h2, d2, h3, y, h4, d3, h5, z, h6, rfl⟩
      exact ⟨fs, hd, ⟨d1, h1, h2⟩, ⟨d2, h3, h4⟩, d3, h5, h6⟩
    · rintro ⟨fs, hd, ⟨d1, h1, h2⟩, ⟨d2, h3, h4⟩, d3, h5, h6⟩
      exact ⟨fs, hd, d1, h1, _, h2, d2, h3, _, h4, d3, h5, _, h6, rfl⟩
  · simp only [serializePublicInfo, Option.bind_eq_bind, Option.bind_eq_some_iff, Option.pure_def, Option.some.injEq]
    rintro ⟨x, -, y, -, rfl⟩
    exact ⟨_, rfl, rfl⟩

/-- A dealer is a map of `params`, `polynomial` and `proof_of_possession`. -/
theorem C71_dealer (hf : fmt.Lawful) (hB : B.Lawful) (x : Dealer F E) (d : Data) :
    (deserializeDealer B fmt d = some (.ok x) ↔ IsDealer B fmt d x) ∧
    (serializeDealer B fmt x = some d → HasFields d ["params", "polynomial", "proof_of_possession"]) := by
  constructor
  · have key : deserializeDealer B fmt d = some (.ok x) ↔
        ∃ fields params items, (asMap d = .ok fields ∧ (∃ d1, field fields "params" = .ok d1 ∧
          deserializeParams d1 = .ok params) ∧ ∃ d2, field fields "polynomial" = .ok d2 ∧ asSeq d2 = .ok items) ∧
        ∃ l, mapItems (deserializeKeypair B fmt) items = some (.ok l) ∧
        ∃ d3, field fields "proof_of_possession" = .ok d3 ∧ ∃ p, deserializePop B fmt d3 = .ok p ∧
          x = ⟨params, l, p⟩ := by
      unfold deserializeDealer
      split
      · rename_i e he
        simp only [Option.some.injEq, reduceCtorEq, false_iff]
        rintro ⟨fields, params, items, ⟨h1, ⟨d1, h2, h3⟩, d2, h4, h5⟩, -⟩
        simp [h1, h2, h3, h4, h5] at he
      · rename_i fields params items he
        simp only [except_bind_eq_ok, except_pure, Except.ok.injEq, Prod.mk.injEq] at he
        obtain ⟨fs, h1, d1, h2, pr, h3, d2, h4, its, h5, rfl, rfl, rfl⟩ := he
        constructor
        · simp only [Option.bind_eq_bind, Option.bind_eq_some_iff]
          rintro ⟨r, h6, h7⟩
          cases r with
          | error e => simp at h7
          | ok l =>
            simp only [Option.pure_def, Option.some.injEq, except_bind_eq_ok, except_pure, Except.ok.injEq] at h7
            obtain ⟨d3, h7, p, h8, rfl⟩ := h7
            exact ⟨fs, pr, its, ⟨h1, ⟨d1, h2, h3⟩, d2, h4, h5⟩, l, h6, d3, h7, p, h8, rfl⟩
        · rintro ⟨fs', pr', its', ⟨h1', ⟨d1', h2', h3'⟩, d2', h4', h5'⟩, l, h6, d3, h7, p, h8, rfl⟩
          cases h1.symm.trans h1'
          cases h2.symm.trans h2'
          cases h3.symm.trans h3'
          cases h4.symm.trans h4'
          cases h5.symm.trans h5'
          simp [h6, h7, h8]
    rw [key]
    simp only [asMap_eq_ok, asSeq_eq_ok, field_iff, fun d p => (C71_params p d).1, fun d p => (C71_pop hf hB p d).1,
      mapItems_iff (fun d kp => C52_keypair_accepts (fmt := fmt) hB d kp),
      IsDealer, IsStruct, List.mem_cons, List.not_mem_nil, or_false, forall_eq_or_imp, forall_eq]
    constructor
    · rintro ⟨fs, params, items, ⟨hd, hp, d2, h4, rfl⟩, l, h6, d3, h7, p, h8, rfl⟩
      exact ⟨fs, hd, hp, ⟨_, h4, Nat.zero_le _, items, rfl, h6⟩, d3, h7, h8⟩
    · rintro ⟨fs, hd, hp, ⟨_, h4, -, items, rfl, h6⟩, d3, h7, h8⟩
      exact ⟨fs, _, items, ⟨hd, hp, _, h4, rfl⟩, _, h6, d3, h7, _, h8, rfl⟩
  · simp only [serializeDealer, Option.bind_eq_bind, Option.bind_eq_some_iff, Option.pure_def, Option.some.injEq]
    rintro ⟨x, -, rfl⟩
    exact ⟨_, rfl, rfl⟩

/-! ## Participants of distributed key generation -/

theorem withDealer_iff (hf : fmt.Lawful) (hB : B.Lawful) {α : Type} {d : Data} {x : α}
    {rest : List (String × Data) → Params → ℕ → Dealer F E → Except DeError α} :
    withDealer B fmt d rest = some (.ok x) ↔
      ∃ fields, d = .map fields ∧ ∃ params index dealer,
        (∃ d1, OneField fields "params" d1 ∧ IsParams d1 params) ∧
        (∃ d2, OneField fields "index" d2 ∧ IsUsize d2 index) ∧
        (∃ d3, OneField fields "dealer" d3 ∧ IsDealer B fmt d3 dealer) ∧
        rest fields params index dealer = .ok x := by
  simp only [← field_iff, ← usize_iff, ← fun d p => (C71_params p d).1, ← fun d p => (C71_dealer hf hB p d).1,
    ← asMap_eq_ok]
  unfold withDealer
  split
  · rename_i e he
    simp only [Option.some.injEq, reduceCtorEq, false_iff]
    rintro ⟨fields, h1, params, index, dealer, ⟨d1, h2, h3⟩, ⟨d2, h4, h5⟩, ⟨d3, h6, h7⟩, -⟩
    simp [h1, h2, h3, h4, h5, h6] at he
  · rename_i fields params index dd he
    simp only [except_bind_eq_ok, except_pure, Except.ok.injEq, Prod.mk.injEq] at he
    obtain ⟨fs, h1, d1, h2, pr, h3, d2, h4, ix, h5, dd', h6, rfl, rfl, rfl, rfl⟩ := he
    constructor
    · simp only [Option.bind_eq_bind, Option.bind_eq_some_iff]
      rintro ⟨r, h7, h8⟩
      cases r with
      | error e => simp at h8
      | ok dealer =>
        simp only [Option.pure_def, Option.some.injEq] at h8
        exact ⟨fs, h1, pr, ix, dealer, ⟨d1, h2, h3⟩, ⟨d2, h4, h5⟩, ⟨dd', h6, h7⟩, h8⟩
    · rintro ⟨fs', h1', pr', ix', dealer, ⟨d1', h2', h3'⟩, ⟨d2', h4', h5'⟩, ⟨d3', h6', h7⟩, h8⟩
      cases h1.symm.trans h1'
      cases h2.symm.trans h2'
      cases h3.symm.trans h3'
      cases h4.symm.trans h4'
      cases h5.symm.trans h5'
      cases h6.symm.trans h6'
      simp [h7, h8]

/-- A participant collecting commitments. -/
theorem C71_collecting_commitments (hf : fmt.Lawful) (hB : B.Lawful) (p : CollectingCommitments F E) (d : Data) :
    (deserializeCollectingCommitments B fmt d = some (.ok p) ↔ IsCollectingCommitments B fmt d p) ∧
    (serializeCollectingCommitments B fmt p = some d →
      HasFields d ["params", "index", "dealer", "commitments", "opening"]) := by
  constructor
  · simp only [deserializeCollectingCommitments, withDealer_iff hf hB, except_bind_eq_ok, field_iff,
      list_iff fun d x => option_iff (fun d b => C52_hash_accepts d b) (d := d) (x := x), C52_opening_accepts,
      except_pure, Except.ok.injEq, IsCollectingCommitments, IsStruct, List.mem_cons, List.not_mem_nil, or_false,
      forall_eq_or_imp, forall_eq, IsOpening]
    constructor
    · rintro ⟨fs, hd, params, index, dealer, h1, h2, h3, d4, h4, cs, h5, d5, h6, o, h7, rfl⟩
      exact ⟨fs, hd, h1, h2, h3, ⟨d4, h4, h5⟩, d5, h6, h7⟩
    · rintro ⟨fs, hd, h1, h2, h3, ⟨d4, h4, h5⟩, d5, h6, h7⟩
      exact ⟨fs, hd, _, _, _, h1, h2, h3, d4, h4, _, h5, d5, h6, _, h7, rfl⟩
  · simp only [serializeCollectingCommitments, Option.bind_eq_bind, Option.bind_eq_some_iff, Option.pure_def,
      Option.some.injEq]
    rintro ⟨x, -, y, -, rfl⟩
    exact ⟨_, rfl, rfl⟩

/-- A participant collecting polynomials. -/
theorem C71_collecting_polynomials (hf : fmt.Lawful) (hB : B.Lawful) (p : CollectingPolynomials F E) (d : Data) :
    (deserializeCollectingPolynomials B fmt d = some (.ok p) ↔ IsCollectingPolynomials B fmt d p) ∧
    (serializeCollectingPolynomials B fmt p = some d →
      HasFields d ["params", "index", "dealer", "opening", "commitments", "public_polynomials"]) := by
  constructor
  · simp only [deserializeCollectingPolynomials, withDealer_iff hf hB, except_bind_eq_ok, field_iff,
      list_iff fun d b => C52_hash_accepts d b,
      list_iff fun d x => option_iff (polynomial_iff (B := B) hf) (d := d) (x := x), C52_opening_accepts,
      except_pure, Except.ok.injEq, IsCollectingPolynomials, IsStruct, List.mem_cons, List.not_mem_nil, or_false,
      forall_eq_or_imp, forall_eq, IsOpening]
    constructor
    · rintro ⟨fs, hd, params, index, dealer, h1, h2, h3, d4, h4, cs, h5, d5, h6, o, h7, d6, h8, q, h9, rfl⟩
      exact ⟨fs, hd, h1, h2, h3, ⟨d4, h4, h5⟩, ⟨d5, h6, h7⟩, d6, h8, h9⟩
    · rintro ⟨fs, hd, h1, h2, h3, ⟨d4, h4, h5⟩, ⟨d5, h6, h7⟩, d6, h8, h9⟩
      exact ⟨fs, hd, _, _, _, h1, h2, h3, d4, h4, _, h5, d5, h6, _, h7, d6, h8, _, h9, rfl⟩
  · simp only [serializeCollectingPolynomials, Option.bind_eq_bind, Option.bind_eq_some_iff, Option.pure_def,
      Option.some.injEq]
    rintro ⟨x, -, y, -, rfl⟩
    exact ⟨_, rfl, rfl⟩

/-- A participant exchanging secret shares. -/
theorem C71_exchanging_secrets (hf : fmt.Lawful) (hB : B.Lawful) (p : ExchangingSecrets F E) (d : Data) :
    (deserializeExchangingSecrets B fmt d = some (.ok p) ↔ IsExchangingSecrets B fmt d p) ∧
    (serializeExchangingSecrets B fmt p = some d →
      HasFields d ["params", "index", "dealer", "public_polynomials", "accumulated_share", "shares_received"]) := by
  constructor
  · simp only [deserializeExchangingSecrets, withDealer_iff hf hB, except_bind_eq_ok, field_iff,
      list_iff (polynomial_iff (B := B) hf), C52_secret_key_accepts hB, list_iff fun d b => bool_iff (d := d) (b := b),
      except_pure, Except.ok.injEq, IsExchangingSecrets, IsStruct, List.mem_cons, List.not_mem_nil, or_false,
      forall_eq_or_imp, forall_eq, IsScalar]
    constructor
    · rintro ⟨fs, hd, params, index, dealer, h1, h2, h3, d4, h4, cs, h5, d5, h6, o, h7, d6, h8, q, h9, rfl⟩
      exact ⟨fs, hd, h1, h2, h3, ⟨d4, h4, h5⟩, ⟨d5, h6, h7⟩, d6, h8, h9⟩
    · rintro ⟨fs, hd, h1, h2, h3, ⟨d4, h4, h5⟩, ⟨d5, h6, h7⟩, d6, h8, h9⟩
      exact ⟨fs, hd, _, _, _, h1, h2, h3, d4, h4, _, h5, d5, h6, _, h7, d6, h8, _, h9, rfl⟩
  · simp only [serializeExchangingSecrets, Option.bind_eq_bind, Option.bind_eq_some_iff, Option.pure_def,
      Option.some.injEq]
    rintro ⟨x, -, y, -, rfl⟩
    exact ⟨_, rfl, rfl⟩

end

/-! ## Examples -/

section Examples

/-- One field among others. -/
theorem Toy.oneField (pre post : List (String × Data)) (name : String) (d : Data)
    (h : ∀ f ∈ pre ++ post, f.1 ≠ name) : OneField (pre ++ (name, d) :: post) name d := ⟨pre, post, rfl, h⟩

/-- Reordered fields and an unknown one. -/
example : deserializeCiphertext B101 binaryFormat
    (.map [("blinded_element", .bytes [7]), ("comment", .null), ("random_element", .bytes [5])]) = .ok ⟨5, 7⟩ :=
  (C71_ciphertext ⟨5, 7⟩ _).1.mpr ⟨_, rfl, by
    simp only [List.mem_cons, List.not_mem_nil, or_false, forall_eq_or_imp, forall_eq]
    exact ⟨⟨.bytes [5], oneField [_, _] [] _ _ (by decide +kernel), [5], .inl rfl, rfl, by decide⟩,
      .bytes [7], oneField [] [_, _] _ _ (by decide +kernel), [7], .inl rfl, rfl, by decide⟩⟩

/-- Other names are not recognized. -/
example : deserializeCiphertext B101 binaryFormat
    (.map [("random", .bytes [5]), ("blinded", .bytes [7])]) ≠ .ok ⟨5, 7⟩ := fun h => by
  obtain ⟨fs, hd, h⟩ := (C71_ciphertext ⟨5, 7⟩ _).1.mp h
  injection hd with hd
  obtain ⟨x, ⟨pre, post, h, -⟩, -⟩ := h _ (.head _)
  have : ("random_element", x) ∈ fs := by rw [h]; simp
  rw [← hd] at this
  simp at this

example := (C71_ciphertext (B := B101) (fmt := textFormat) ⟨5, 7⟩ _).2 rfl
example := (C71_decryption (B := B101) (fmt := textFormat) ⟨⟨5⟩⟩ _).2 rfl
example : HasFields (.map [("challenge", .bytes [5]), ("response", .bytes [7])]) ["challenge", "response"] :=
  (C71_log_eq (fmt := binaryFormat) B101_lawful ⟨5, 7⟩ .null).2
example : IsPop B101 binaryFormat (.map [("challenge", .bytes [5]), ("responses", .seq [.bytes [7]])]) ⟨5, [7]⟩ :=
  (C71_pop binaryFormat_lawful B101_lawful _ _).1.mp rfl
example := (C71_pop (fmt := textFormat) textFormat_lawful B101_lawful ⟨5, [7]⟩ _).2 rfl
example : IsCommitmentEq B101 binaryFormat (.map [("challenge", .bytes [5]), ("randomness_response", .bytes [6]),
    ("value_response", .bytes [7]), ("commitment_response", .bytes [8])]) ⟨5, 6, 7, 8⟩ :=
  (C71_commitment_eq B101_lawful _ _).1.mp rfl
example : IsSumOfSquares B101 binaryFormat (.map [("challenge", .bytes [5]),
    ("ciphertext_responses", .seq [.bytes [6], .bytes [7]]), ("sum_response", .bytes [8])]) ⟨5, [6, 7], 8⟩ :=
  (C71_sum_of_squares binaryFormat_lawful B101_lawful _ _).1.mp rfl
example : IsRing B101 binaryFormat (.map [("ring_responses", .seq [.bytes [6], .bytes [7]]),
    ("common_challenge", .bytes [5])]) ⟨5, [6, 7]⟩ :=
  (C71_ring binaryFormat_lawful B101_lawful _ _).1.mp rfl

/-- The fields of the ring proof are not nested. -/
example : IsRange B101 binaryFormat (.map [("partial_ciphertexts", .seq []), ("common_challenge", .bytes [5]),
    ("ring_responses", .seq [.bytes [6], .bytes [7]])]) ⟨[], 5, [6, 7]⟩ :=
  (C71_range binaryFormat_lawful B101_lawful _ _).1.mp rfl

example : IsChoice B101 binaryFormat .multi (.map [("choices", .seq []), ("range_proof",
    .map [("common_challenge", .bytes [5]), ("ring_responses", .seq [.bytes [6], .bytes [7]])]),
    ("sum_proof", .null)]) ⟨[], ⟨5, [6, 7]⟩, ()⟩ :=
  (C71_choice (kind := .multi) binaryFormat_lawful B101_lawful _ _).1.mp rfl
example := (C71_with_range (fmt := textFormat) textFormat_lawful B101_lawful Toy.ballot.credit _).2 rfl
example := (C71_ballot (fmt := textFormat) textFormat_lawful B101_lawful Toy.ballot _).2 rfl
example : IsParams (.map [("threshold", .uint 2), ("shares", .uint 3)]) ⟨3, 2⟩ := (C71_params _ _).1.mp rfl
example : IsKeySet B101 binaryFormat (.map [("params", serializeParams ⟨1, 1⟩), ("shared_key", .bytes [42]),
    ("participant_keys", .seq [.bytes [42]])]) ⟨⟨1, 1⟩, ⟨[42], 42⟩, [⟨[42], 42⟩]⟩ := (C71_key_set _ _).1.mp rfl
example : IsParticipant B101 binaryFormat (.map [("key_set", serializeKeySet binaryFormat
    ⟨⟨1, 1⟩, ⟨[42], 42⟩, [⟨[42], 42⟩]⟩), ("index", .uint 0), ("secret_share", .bytes [42])])
    ⟨⟨⟨1, 1⟩, ⟨[42], 42⟩, [⟨[42], 42⟩]⟩, 0, 42⟩ := (C71_participant B101_lawful _ _).1.mp rfl
example := (C71_public_info (fmt := textFormat) textFormat_lawful B101_lawful
  ⟨[4, 0], ⟨5, [3, 1]⟩, List.replicate 32 3⟩ _).2 rfl
example : IsDealer B101 binaryFormat (.map [("params", serializeParams ⟨3, 2⟩),
    ("polynomial", .seq [.bytes [42], .bytes [7]]), ("proof_of_possession",
      .map [("challenge", .bytes [5]), ("responses", .seq [.bytes [6], .bytes [7]])])]) Toy.smallDealer :=
  (C71_dealer binaryFormat_lawful B101_lawful _ _).1.mp rfl
example := (C71_collecting_commitments (fmt := textFormat) textFormat_lawful B101_lawful
  ⟨⟨3, 2⟩, 1, Toy.smallDealer, [none, some (List.replicate 32 9), none], List.replicate 32 3⟩ _).2 rfl
example := (C71_collecting_polynomials (fmt := textFormat) textFormat_lawful B101_lawful
  ⟨⟨2, 2⟩, 1, Toy.smallDealer, List.replicate 32 3, [List.replicate 32 9, List.replicate 32 8],
    [none, some [42, 7]]⟩ _).2 rfl
example := (C71_exchanging_secrets (fmt := binaryFormat) binaryFormat_lawful B101_lawful
  ⟨⟨2, 2⟩, 1, Toy.smallDealer, [[42, 7], [3, 4]], 5, [true, false]⟩ _).2 rfl

end Examples

end ElasticElgamal
