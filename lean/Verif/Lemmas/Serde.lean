import Verif.Spec.Serde
import Verif.Lemmas.Basic

/-!
# Lemmas on serialization
-/

set_option autoImplicit false
set_option linter.unusedSectionVars false

namespace ElasticElgamal

open Spec

variable {F E : Type} [Field F] [AddCommGroup E] [Module F E] [DecidableEq F] [DecidableEq E]

namespace Serde

@[simp] theorem except_bind_ok {α β : Type} (x : α) (f : α → Except DeError β) :
    ((Except.ok x : Except DeError α) >>= f) = f x := rfl

@[simp] theorem except_bind_error {α β : Type} (e : DeError) (f : α → Except DeError β) :
    ((Except.error e : Except DeError α) >>= f) = .error e := rfl

@[simp] theorem except_pure {α : Type} (x : α) : (pure x : Except DeError α) = .ok x := rfl

@[simp] theorem except_throw {α : Type} (e : DeError) : (throw e : Except DeError α) = .error e := rfl

@[simp] theorem except_map_ok {α β : Type} (x : α) (f : α → β) :
    (Except.ok x : Except DeError α).map f = .ok (f x) := rfl

theorem except_bind_eq_ok {α β : Type} {x : Except DeError α} {f : α → Except DeError β} {b : β} :
    (x >>= f) = .ok b ↔ ∃ a, x = .ok a ∧ f a = .ok b := by
  cases x <;> simp

/-- Whatever is written in `fmt` can be read in `fmt'`. -/
structure Reads (fmt fmt' : Format) : Prop where
  readable : fmt.humanReadable = true → fmt'.humanReadable = true
  decode_encode : ∀ b, fmt'.decode (fmt.encode b) = some b
  sizeHint_eq : ∀ n k, fmt'.sizeHint n = some k → k = n

theorem Reads.rfl' {fmt : Format} (h : fmt.Lawful) : Reads fmt fmt := ⟨id, h.decode_encode, h.sizeHint_eq⟩

theorem Reads.flattened {fmt : Format} (h : fmt.Lawful) : Reads fmt fmt.flattened :=
  ⟨h.flatten, h.decode_encode, h.sizeHint_eq⟩

section
variable {fmt fmt' : Format} (hf : Reads fmt fmt')
include hf

theorem bytes_reads (b : Bytes) : deserializeBytes fmt' (serializeBytes fmt b) = .ok b := by
  unfold serializeBytes deserializeBytes
  by_cases h : fmt.humanReadable = true
  · simp [h, hf.readable h, hf.decode_encode]
  · simp [h]

theorem scalar_reads {B : Backend F E} (hB : B.Lawful) (s : F) :
    deserializeScalar B fmt' (serializeScalar B fmt s) = .ok s := by
  simp [deserializeScalar, serializeScalar, bytes_reads hf, hB.serScalar_length, hB.deScalar_serScalar]

theorem secretKey_reads {B : Backend F E} (hB : B.Lawful) (s : SecretKey F) :
    deserializeSecretKey B fmt' (serializeSecretKey B fmt s) = .ok s := by
  simp [deserializeSecretKey, serializeSecretKey, bytes_reads hf, SecretKey.fromBytes, hB.serScalar_length,
    hB.deScalar_serScalar]

theorem element_reads {B : Backend F E} (hB : B.Lawful) {e : E} {d : Data}
    (h : serializeElement B fmt e = some d) : deserializeElement B fmt' d = .ok e := by
  simp only [serializeElement, Option.bind_eq_bind, Option.bind_eq_some_iff, Option.pure_def,
    Option.some.injEq] at h
  obtain ⟨b, hb, rfl⟩ := h
  simp [deserializeElement, bytes_reads hf, hB.serElem_length e b hb, hB.deElem_serElem e b hb]

theorem opening_reads {b : Bytes} (hb : b.length = 32) :
    deserializeOpening fmt' (serializeOpening fmt b) = .ok b := by
  simp [deserializeOpening, serializeOpening, bytes_reads hf, hb]

theorem publicKey_reads {B : Backend F E} (hB : B.Lawful) {key : PublicKey E} (hk : KeyOk B key) :
    deserializePublicKey B fmt' (serializePublicKey fmt key) = .ok key := by
  simp [deserializePublicKey, serializePublicKey, bytes_reads hf, PublicKey.fromBytes,
    hB.serElem_length _ _ hk.2, hB.deElem_serElem _ _ hk.2, hk.1, Except.mapError]

theorem keypair_reads {B : Backend F E} (hB : B.Lawful) {kp : Keypair F E}
    (hk : KeyOf B kp.publicKey kp.secret) :
    deserializeKeypair B fmt' (serializeKeypair B fmt kp) = some (.ok kp) := by
  have h : Keypair.ofSecret B kp.secret = some kp := by
    obtain ⟨s, ⟨b, e⟩⟩ := kp
    obtain ⟨h1, h2⟩ := hk
    simp only at h1 h2
    simp [Keypair.ofSecret, PublicKey.ofSecret, PublicKey.fromElement, Backend.mulGen, h2, h1]
  simp only [deserializeKeypair, serializeKeypair, secretKey_reads hf hB, h]
  rfl

theorem except_mapM_reads {α : Type} {ser : α → Option Data} {de : Data → Except DeError α} {l : List α}
    {ds : List Data} (hl : ∀ x ∈ l, ∀ d, ser x = some d → de d = .ok x) (h : l.mapM ser = some ds) :
    ds.mapM de = .ok l := by
  induction l generalizing ds with
  | nil => cases h; rfl
  | cons x l ih =>
    simp only [List.mapM_cons, Option.bind_eq_bind, Option.bind_eq_some_iff, Option.pure_def,
      Option.some.injEq] at h
    obtain ⟨d, hd, ds', hds, rfl⟩ := h
    simp [List.mapM_cons, hl x (by simp) d hd, ih (fun y hy => hl y (by simp [hy])) hds]

theorem vec_reads {α : Type} {B : Backend F E} {min : ℕ} {ser : α → Option Data}
    {de : Data → Except DeError α} {l : List α} {d : Data} (hmin : min ≤ l.length)
    (hl : ∀ x ∈ l, ∀ d, ser x = some d → de d = .ok x) (h : serializeVec B min ser l = some d) :
    deserializeVec fmt' min de d = .ok l := by
  simp only [serializeVec, Option.bind_eq_bind, Option.bind_eq_some_iff, Option.pure_def,
    Option.some.injEq] at h
  obtain ⟨-, -, ds, hds, rfl⟩ := h
  have hlen : ds.length = l.length := (mapM_option_eq_some.mp hds).length_eq.symm
  have hm := except_mapM_reads hf hl hds
  unfold deserializeVec
  cases hs : fmt'.sizeHint ds.length with
  | none => simp [hs, hm, hmin]
  | some k =>
    have := hf.sizeHint_eq _ _ hs
    have hk : ¬ k < min := by omega
    simp [hs, hm, hmin, hk]

end

/-- Serialization of a vector does not panic. -/
theorem serializeVec_some {α : Type} {B : Backend F E} {min : ℕ} {ser : α → Option Data} {l : List α}
    (hmin : min ≤ l.length) (hl : ∀ x ∈ l, ∃ d, ser x = some d) : ∃ d, serializeVec B min ser l = some d := by
  obtain ⟨ds, hds⟩ := mapM_option_exists hl
  exact ⟨.seq ds, by simp [serializeVec, Backend.debugAssert, hmin, hds]⟩

theorem roundTrips_all {α : Type} {ser : α → Option Data} {de : Data → Except DeError α} {x : α}
    (h : RoundTrips ser de x) : ∀ d, ser x = some d → de d = .ok x := by
  obtain ⟨d, h1, h2⟩ := h
  intro d' h'
  rw [h1, Option.some.injEq] at h'
  rw [← h', h2]

theorem list_rt {α : Type} {ser : α → Option Data} {de : Data → Except DeError α} {l : List α}
    (h : ∀ x ∈ l, RoundTrips ser de x) : RoundTrips (serializeList ser) (deserializeList de) l := by
  obtain ⟨ds, hds⟩ := mapM_option_exists (f := ser) (l := l) fun x hx => (h x hx).imp fun _ => And.left
  have hf : Reads ⟨true, true, id, some, some⟩ ⟨true, true, id, some, some⟩ :=
    ⟨id, fun _ => rfl, by rintro _ _ ⟨⟩; rfl⟩
  refine ⟨.seq ds, by simp [serializeList, hds], ?_⟩
  simp [deserializeList, asSeq, except_mapM_reads hf (fun x hx => roundTrips_all (h x hx)) hds]

theorem list_map_rt {α : Type} {ser : α → Data} {de : Data → Except DeError α} {l : List α}
    (h : ∀ x ∈ l, de (ser x) = .ok x) : deserializeList de (.seq (l.map ser)) = .ok l := by
  have := list_rt (ser := fun x => some (ser x)) (de := de) (l := l) fun x hx => ⟨_, rfl, h x hx⟩
  obtain ⟨d, h1, h2⟩ := this
  rw [serializeList, mapM_option_pure (g := ser) fun _ _ => rfl] at h1
  simp only [Option.pure_def, Option.bind_eq_bind, Option.bind_some, Option.some.injEq] at h1
  rw [h1, h2]

theorem option_rt {α : Type} {ser : α → Option Data} {de : Data → Except DeError α} {x : Option α}
    (hn : ∀ y, ser y ≠ some .null) (h : ∀ y ∈ x, RoundTrips ser de y) :
    RoundTrips (serializeOption ser) (deserializeOption de) x := by
  cases x with
  | none => exact ⟨.null, rfl, rfl⟩
  | some y =>
    obtain ⟨d, h1, h2⟩ := h y rfl
    refine ⟨d, h1, ?_⟩
    unfold deserializeOption
    split
    · exact absurd h1 (hn y)
    · rw [h2]; rfl

theorem hash_rt {b : Bytes} (h : b.length = 32) : deserializeHash (serializeHash b) = .ok b := by
  have : (b.map fun x => Data.uint x.toNat).mapM deserializeByte = .ok b := by
    clear h
    induction b with
    | nil => rfl
    | cons x b ih =>
      have hx := x.toNat_lt
      simp only [Nat.reducePow] at hx
      simp [List.mapM_cons, deserializeByte, ih, hx]
  simp [deserializeHash, serializeHash, asSeq, this, h]

theorem deserializeByte_eq_ok {d : Data} {x : UInt8} : deserializeByte d = .ok x ↔ d = .uint x.toNat := by
  have hx := x.toNat_lt
  simp only [Nat.reducePow] at hx
  constructor
  · intro h
    unfold deserializeByte at h
    split at h
    · split at h
      · rename_i n hn
        cases h
        simp [Nat.mod_eq_of_lt hn]
      · cases h
    · cases h
  · rintro rfl
    simp [deserializeByte, hx]

theorem mapM_deserializeByte {ds : List Data} {b : Bytes} :
    ds.mapM deserializeByte = .ok b ↔ ds = b.map fun x => Data.uint x.toNat := by
  induction ds generalizing b with
  | nil => cases b <;> simp
  | cons d ds ih =>
    simp only [List.mapM_cons, except_bind_eq_ok, deserializeByte_eq_ok, ih, except_pure, Except.ok.injEq]
    constructor
    · rintro ⟨x, rfl, l, rfl, rfl⟩
      rfl
    · intro h
      cases b with
      | nil => cases h
      | cons x b => exact ⟨x, (List.cons.inj h).1, b, (List.cons.inj h).2, rfl⟩

theorem mapItems_map {α : Type} {ser : α → Data} {de : Data → Option (Except DeError α)} {l : List α}
    (h : ∀ x ∈ l, de (ser x) = some (.ok x)) : mapItems de (l.map ser) = some (.ok l) := by
  induction l with
  | nil => rfl
  | cons x l ih =>
    simp [mapItems, h x (by simp), ih fun y hy => h y (by simp [hy])]

theorem params_rt {p : Params} (h : ParamsFit p) : deserializeParams (serializeParams p) = .ok p := by
  obtain ⟨h1, h2⟩ := h
  have u1 : deserializeUsize (serializeUsize p.shares) = .ok p.shares := if_pos h1
  have u2 : deserializeUsize (serializeUsize p.threshold) = .ok p.threshold := if_pos h2
  simp [deserializeParams, serializeParams, asMap, field, u1, u2]

section
variable {fmt fmt' : Format} (hf : Reads fmt fmt') {B : Backend F E} (hB : B.Lawful)
include hf hB

theorem element_rt {e : E} (h : Encodable B e) :
    RoundTrips (serializeElement B fmt) (deserializeElement B fmt') e := by
  obtain ⟨b, hb⟩ := h
  have : serializeElement B fmt e = some (serializeBytes fmt b) := by simp [serializeElement, hb]
  exact ⟨_, this, element_reads hf hB this⟩

theorem scalars_rt {min : ℕ} {l : List F} (h : min ≤ l.length) :
    RoundTrips (serializeVec B min fun s => some (serializeScalar B fmt s))
      (deserializeVec fmt' min (deserializeScalar B fmt')) l := by
  obtain ⟨d, hd⟩ := serializeVec_some (B := B) (ser := fun s => some (serializeScalar B fmt s)) h
    fun x _ => ⟨_, rfl⟩
  refine ⟨d, hd, vec_reads hf h (fun x _ d hd => ?_) hd⟩
  cases hd
  exact scalar_reads hf hB x

theorem polynomial_rt {l : List E} (h : PolynomialOk B l) :
    RoundTrips (serializeVec B 1 (serializeElement B fmt))
      (deserializeVec fmt' 1 (deserializeElement B fmt')) l := by
  obtain ⟨d, hd⟩ := serializeVec_some (B := B) h.1 fun x hx =>
    (element_rt hf hB (h.2 x hx)).imp fun _ => And.left
  exact ⟨d, hd, vec_reads hf h.1 (fun x hx => roundTrips_all (element_rt hf hB (h.2 x hx))) hd⟩

theorem ciphertext_rt {c : Ciphertext E} (h : EncodableCt B c) :
    RoundTrips (serializeCiphertext B fmt) (deserializeCiphertext B fmt') c := by
  obtain ⟨d1, h1, h1'⟩ := element_rt hf hB h.1
  obtain ⟨d2, h2, h2'⟩ := element_rt hf hB h.2
  refine ⟨_, by simp only [serializeCiphertext, h1, h2]; rfl, ?_⟩
  simp [deserializeCiphertext, asMap, field, h1', h2']

theorem ciphertexts_rt {l : List (Ciphertext E)} (h : ∀ c ∈ l, EncodableCt B c) :
    RoundTrips (serializeCiphertexts B fmt) (deserializeCiphertexts B fmt') l := by
  obtain ⟨d, h1, h2⟩ := list_rt fun c hc => ciphertext_rt hf hB (h c hc)
  refine ⟨d, h1, ?_⟩
  rw [← h2]
  cases d <;> simp [deserializeCiphertexts, deserializeList, asSeq]

theorem logEq_rt (p : LogEqualityProof F) :
    deserializeLogEq B fmt' (serializeLogEq B fmt p) = .ok p := by
  simp [deserializeLogEq, serializeLogEq, asMap, field, scalar_reads hf hB]

theorem pop_rt {p : ProofOfPossession F} (h : 1 ≤ p.responses.length) :
    RoundTrips (serializePop B fmt) (deserializePop B fmt') p := by
  obtain ⟨d, h1, h2⟩ := scalars_rt hf hB h
  refine ⟨_, by simp only [serializePop, h1]; rfl, ?_⟩
  simp [deserializePop, asMap, field, scalar_reads hf hB, h2]

theorem sumOfSquares_rt {p : SumOfSquaresProof F} (h : 2 ≤ p.ciphertextResponses.length) :
    RoundTrips (serializeSumOfSquares B fmt) (deserializeSumOfSquares B fmt') p := by
  obtain ⟨d, h1, h2⟩ := scalars_rt hf hB h
  refine ⟨_, by simp only [serializeSumOfSquares, h1]; rfl, ?_⟩
  simp [deserializeSumOfSquares, asMap, field, scalar_reads hf hB, h2]

theorem ringFields_rt {p : RingProof F} (h : 2 ≤ p.ringResponses.length) :
    ∃ d1 d2, ringFields B fmt p = some [("common_challenge", d1), ("ring_responses", d2)] ∧
      ∀ pre : List (String × Data), (∀ f ∈ pre, f.1 ≠ "common_challenge" ∧ f.1 ≠ "ring_responses") →
        ringOfFields B fmt' (pre ++ [("common_challenge", d1), ("ring_responses", d2)]) = .ok p := by
  obtain ⟨d, h1, h2⟩ := scalars_rt hf hB h
  refine ⟨_, _, by simp only [ringFields, h1]; rfl, fun pre hpre => ?_⟩
  have e1 : pre.filter (fun f => f.1 = "common_challenge") = [] := by
    simpa [List.filter_eq_nil_iff] using fun a b hf => (hpre (a, b) hf).1
  have e2 : pre.filter (fun f => f.1 = "ring_responses") = [] := by
    simpa [List.filter_eq_nil_iff] using fun a b hf => (hpre (a, b) hf).2
  simp [ringOfFields, field, e1, e2, scalar_reads hf hB, h2]

theorem ring_rt {p : RingProof F} (h : 2 ≤ p.ringResponses.length) :
    RoundTrips (serializeRing B fmt) (deserializeRing B fmt') p := by
  obtain ⟨d1, d2, h1, h2⟩ := ringFields_rt hf hB h
  refine ⟨_, by simp only [serializeRing, h1]; rfl, ?_⟩
  simpa [deserializeRing, asMap] using h2 [] (by simp)

end

section
variable {fmt : Format} (hf : fmt.Lawful) {B : Backend F E} (hB : B.Lawful)
include hf hB

theorem range_rt {p : RangeProof F E} (h : RangeOk B p) :
    RoundTrips (serializeRange B fmt) (deserializeRange B fmt) p := by
  obtain ⟨d1, d2, h1, h2⟩ := ringFields_rt (Reads.flattened hf) hB h.2
  obtain ⟨d3, h3, h3'⟩ := ciphertexts_rt (Reads.rfl' hf) hB h.1
  refine ⟨_, by simp only [serializeRange, h1, h3]; rfl, ?_⟩
  have := h2 [("partial_ciphertexts", d3)] (by simp)
  simp only [List.cons_append, List.nil_append] at this
  simp [deserializeRange, asMap, field, h3', this]

theorem withRange_rt {c : CiphertextWithRangeProof F E} (h1 : EncodableCt B c.ciphertext)
    (h2 : RangeOk B c.rangeProof) : RoundTrips (serializeWithRange B fmt) (deserializeWithRange B fmt) c := by
  obtain ⟨d1, h1, h1'⟩ := ciphertext_rt (Reads.rfl' hf) hB h1
  obtain ⟨d2, h2, h2'⟩ := range_rt hf hB h2
  refine ⟨_, by simp only [serializeWithRange, h1, h2]; rfl, ?_⟩
  simp [deserializeWithRange, asMap, field, h1', h2']

theorem dealer_rt {d : Dealer F E} (h : DealerOk B d) :
    RoundTripsP (serializeDealer B fmt) (deserializeDealer B fmt) d := by
  obtain ⟨h1, h2, h3⟩ := h
  obtain ⟨d1, h3, h3'⟩ := pop_rt (Reads.rfl' hf) hB h3
  refine ⟨_, by simp only [serializeDealer, h3]; rfl, ?_⟩
  have := mapItems_map (ser := serializeKeypair B fmt) (de := deserializeKeypair B fmt) fun kp hkp =>
    keypair_reads (Reads.rfl' hf) hB (h2 kp hkp)
  simp [deserializeDealer, asMap, field, asSeq, params_rt h1, this, h3']

end

theorem deserializeBytes_eq_ok {fmt : Format} {d : Data} {b : Bytes} :
    deserializeBytes fmt d = .ok b ↔ Carries fmt d b := by
  unfold deserializeBytes Carries
  by_cases h : fmt.humanReadable = true
  · cases d <;> simp [h]
    split <;> simp_all
  · cases d <;> simp [h]

theorem except_mapM_eq_ok {α β : Type} {f : α → Except DeError β} {l : List α} {l' : List β} :
    l.mapM f = .ok l' ↔ List.Forall₂ (fun a b => f a = .ok b) l l' := by
  induction l generalizing l' with
  | nil => simp [eq_comm]
  | cons x xs ih =>
    simp only [List.mapM_cons, except_bind_eq_ok, except_pure, Except.ok.injEq]
    constructor
    · rintro ⟨y, hy, ys, hys, rfl⟩
      exact .cons hy (ih.mp hys)
    · intro h
      cases h with
      | cons hy hys => exact ⟨_, hy, _, ih.mpr hys, rfl⟩

theorem field_eq_ok {fields : List (String × Data)} {name : String} {d : Data} :
    field fields name = .ok d ↔ fields.filter (fun f => f.1 = name) = [(name, d)] := by
  unfold field
  split
  · rename_i h; simp [h]
  · rename_i f h
    have : f ∈ fields.filter (fun f => f.1 = name) := by simp [h]
    have hn : f.1 = name := by simpa using (List.mem_filter.mp this).2
    rw [h]
    obtain ⟨a, b⟩ := f
    simp at hn
    simp [hn]
  · rename_i h1 h2
    simp only [reduceCtorEq, false_iff]
    exact fun h => h2 _ h

theorem deserializeVec_eq_ok {α : Type} {fmt : Format} (hf : ∀ n k, fmt.sizeHint n = some k → k = n) {min : ℕ}
    {item : Data → Except DeError α} {d : Data} {l : List α} :
    deserializeVec fmt min item d = .ok l ↔
      ∃ items, d = .seq items ∧ min ≤ l.length ∧ List.Forall₂ (fun a b => item a = .ok b) items l := by
  cases d with
  | seq items =>
    have key : deserializeVec fmt min item (.seq items) = .ok l ↔
        ∃ v, items.mapM item = .ok v ∧ min ≤ v.length ∧ v = l := by
      simp only [deserializeVec]
      cases hs : fmt.sizeHint items.length with
      | none =>
        simp only [except_bind_eq_ok]
        constructor
        · rintro ⟨v, h1, h2⟩
          refine ⟨v, h1, ?_⟩
          split at h2 <;> simp_all
        · rintro ⟨v, h1, h2, h3⟩
          exact ⟨v, h1, by subst h3; simp [h2]⟩
      | some k =>
        have hk := hf _ _ hs
        by_cases hlt : k < min
        · simp only [hlt, if_true, except_throw, except_bind_error, reduceCtorEq, false_iff, not_exists, not_and]
          intro v hv hv2
          have := (except_mapM_eq_ok.mp hv).length_eq
          omega
        · simp only [hlt, if_false, except_pure, except_bind_eq_ok]
          constructor
          · rintro ⟨v, h1, h2⟩
            refine ⟨v, h1, ?_⟩
            split at h2 <;> simp_all
          · rintro ⟨v, h1, h2, h3⟩
            exact ⟨v, h1, by subst h3; simp [h2]⟩
    rw [key]
    constructor
    · rintro ⟨v, h1, h2, rfl⟩
      exact ⟨items, rfl, h2, except_mapM_eq_ok.mp h1⟩
    · rintro ⟨items', h, h2, h3⟩
      cases h
      exact ⟨l, except_mapM_eq_ok.mpr h3, h2, rfl⟩
  | _ => simp [deserializeVec]

end Serde

end ElasticElgamal
