import Verif.Lemmas.TallyPrivacy
import Verif.Lemmas.HashOnce
import Verif.Spec.Threshold
import Verif.Props.KeySet

/-!
# Lemmas: simulation of dealers and decryption shares
-/

set_option autoImplicit false
set_option linter.unusedSectionVars false

namespace ElasticElgamal

open Spec

variable {F E : Type} [Field F] [AddCommGroup E] [Module F E] [DecidableEq F] [DecidableEq E]

/-! ## Polynomials -/

section
variable {V : Type} [AddCommGroup V] [Module F V] {c : ℕ} {bad : Fin c → ℕ}

/-- Nodes for the secret and the shares of the participants `bad`. -/
def badNodes (F : Type) [Field F] {c : ℕ} (bad : Fin c → ℕ) : Fin (c + 1) → F :=
  Fin.cons (0 : F) fun a => (bad a : F) + 1

theorem badNodes_injective (p : ℕ) [CharP F p] {n : ℕ} (hn : n < p) (hb : ∀ a, bad a < n)
    (hi : Function.Injective bad) : Function.Injective (badNodes F bad) := by
  have h0 : ∀ a, (bad a : F) + 1 ≠ 0 := fun a => point_ne_zero p hn (hb a)
  intro i j h
  induction i using Fin.cases with
  | zero =>
    induction j using Fin.cases with
    | zero => rfl
    | succ j => exact absurd h.symm (h0 j)
  | succ i =>
    induction j using Fin.cases with
    | zero => exact absurd h (h0 i)
    | succ j =>
      have h1 : (bad i : F) = bad j := add_right_cancel (show (bad i : F) + 1 = (bad j : F) + 1 from h)
      rw [hi (CharP.natCast_injOn_Iio F p (Set.mem_Iio.mpr ((hb i).trans hn)) (Set.mem_Iio.mpr ((hb j).trans hn)) h1)]

theorem sharePolynomial_length (x : V) (shares : Fin c → V) :
    (sharePolynomial (F := F) bad x shares).length = c + 1 := by
  rw [sharePolynomial, interpolating_length, Finset.card_univ, Fintype.card_fin]

theorem sharePolynomial_zero (hi : Function.Injective (badNodes F bad)) (x : V) (shares : Fin c → V) :
    polyAt (0 : F) (sharePolynomial (F := F) bad x shares) = x :=
  interpolating_node (ι := Fin (c + 1)) (v := badNodes F bad) hi.injOn _ (Finset.mem_univ 0)

theorem sharePolynomial_bad (hi : Function.Injective (badNodes F bad)) (x : V) (shares : Fin c → V) (a : Fin c) :
    polyAt ((bad a : F) + 1) (sharePolynomial (F := F) bad x shares) = shares a :=
  interpolating_node (ι := Fin (c + 1)) (v := badNodes F bad) hi.injOn _ (Finset.mem_univ a.succ)

theorem sharePolynomial_smul (x : F) (shares : Fin c → F) (R : V) :
    (sharePolynomial (F := F) bad x shares).map (· • R) =
      sharePolynomial (F := F) bad (x • R) fun a => shares a • R := by
  simp only [sharePolynomial, interpolating, List.map_map, Function.comp_def]
  refine List.map_congr_left fun k _ => ?_
  rw [Finset.sum_smul]
  refine Finset.sum_congr rfl fun i _ => ?_
  rw [smul_eq_mul, mul_smul]
  congr 1
  induction i using Fin.cases with
  | zero => rfl
  | succ i => rfl

theorem polyAt_ofFn_smul (x : F) {m : ℕ} (cs : Fin m → F) (R : V) :
    polyAt x (List.ofFn fun i => cs i • R) = polyAt x (List.ofFn cs) • R := by
  rw [← polyAt_smul, List.map_ofFn]
  rfl

end

/-- A random polynomial is given by the secret and random shares of `c` participants. -/
theorem mean_sharePolynomial [Fintype F] {c : ℕ} {bad : Fin c → ℕ} (hi : Function.Injective (badNodes F bad))
    (f : List F → ℚ) : (mean fun cs : Fin (c + 1) → F => f (List.ofFn cs)) =
      mean fun k : F => mean fun shares : Fin c → F => f (sharePolynomial (F := F) bad k shares) := by
  let e : (Fin (c + 1) → F) → Fin (c + 1) → F := fun y i =>
    (interpolating Finset.univ (badNodes F bad) y)[i.1]'(by
      rw [interpolating_length, Finset.card_univ, Fintype.card_fin]; exact i.2)
  have he : ∀ y, List.ofFn (e y) = interpolating Finset.univ (badNodes F bad) y := fun y =>
    List.ext_getElem (by simp [interpolating_length]) fun i h1 h2 => by simp only [List.getElem_ofFn, e]
  have hinj : Function.Injective e := by
    intro y y' h
    funext i
    rw [← interpolating_node (v := badNodes F bad) hi.injOn y (Finset.mem_univ i), ← he, h, he,
      interpolating_node hi.injOn y' (Finset.mem_univ i)]
  rw [← mean_equiv (Equiv.ofBijective e (Finite.injective_iff_bijective.mp hinj)),
    ← mean_equiv (Fin.consEquiv fun _ : Fin (c + 1) => F), mean_prod]
  congr 1
  funext k
  congr 1
  funext shares
  exact congrArg f (he _)

/-! ## Keys -/

theorem keyOf_isKey {B : Backend F E} (hT : B.TotalSer) (e : E) : IsKey B (keyOf B e) e := by
  obtain ⟨b, hb⟩ := hT e
  have : PublicKey.fromElement B e = some ⟨b, e⟩ := fromElement_isKey.mpr ⟨rfl, hb⟩
  rw [keyOf, this]
  exact ⟨rfl, hb⟩

theorem fromElement_keyOf {B : Backend F E} (hT : B.TotalSer) (e : E) : PublicKey.fromElement B e = some (keyOf B e) :=
  fromElement_isKey.mpr (keyOf_isKey hT e)

theorem keyOf_element {B : Backend F E} (hT : B.TotalSer) (e : E) : (keyOf B e).element = e := (keyOf_isKey hT e).1

theorem isKey_eq {B : Backend F E} {pk pk' : PublicKey E} {e : E} (h : IsKey B pk e) (h' : IsKey B pk' e) : pk = pk' :=
  Option.some.inj ((fromElement_isKey.mpr h).symm.trans (fromElement_isKey.mpr h'))

theorem keySetOf_for {B : Backend F E} (hT : B.TotalSer) {params : Params} {poly : List E}
    (hl : poly.length = params.threshold) : KeySetFor B (keySetOf B params poly) poly where
  degree := hl
  shared := keyOf_isKey hT _
  count := by simp [keySetOf]
  keys i pk h := by
    simp only [keySetOf, List.getElem?_ofFn] at h
    split at h
    · cases h
      exact keyOf_isKey hT _
    · simp at h

theorem keySetFor_eq {B : Backend F E} (hT : B.TotalSer) {ks : PublicKeySet E} {poly : List E}
    (h : KeySetFor B ks poly) : ks = keySetOf B ks.params poly := by
  have h' := keySetOf_for hT h.degree
  obtain ⟨params, shared, keys⟩ := ks
  have e1 : shared = keyOf B (polyAt (0 : F) poly) := isKey_eq h.shared h'.shared
  have e2 : keys = List.ofFn fun i : Fin params.shares => keyOf B (polyAt ((i : F) + 1) poly) := by
    have hc : keys.length = params.shares := h.count
    refine List.ext_getElem (by simpa using hc) fun i h1 h2 => ?_
    simp only [List.getElem_ofFn]
    exact isKey_eq (h.keys i _ (List.getElem?_eq_getElem h1)) (keyOf_isKey hT _)
  rw [keySetOf, ← e1, ← e2]

/-- Key sets of public polynomials with accepted proofs. -/
theorem keySet_new_eq {B : Backend F E} (hT : B.TotalSer) {params : Params} (hv : ValidParams params) {poly : List E}
    {proof : ProofOfPossession F} (hl : poly.length = params.threshold) {t' : Transcript}
    (h : proof.verify B (poly.map (keyOf B)) (sharePolyTranscript params) = some (.ok (), t')) :
    PublicKeySet.new B params poly proof = some (.ok (keySetOf B params poly)) := by
  have hval : PublicKeySet.validate B params poly proof = some (.ok ()) :=
    validate_eq (r := .ok ()) (keys := poly.map (keyOf B)) hl (by
      rw [List.forall₂_map_right_iff, List.forall₂_same]
      exact fun e _ => keyOf_isKey hT e) h
  obtain ⟨r, hr⟩ := C50_key_set_new_total B hT params hv poly proof
  cases r with
  | error e => simp [PublicKeySet.new, hval, Option.bind_eq_some_iff] at hr
  | ok ks =>
    obtain ⟨e1, e2, -⟩ := C42_key_set_new B params _ _ ks hr
    rw [hr, keySetFor_eq hT e2, e1]

/-! ## Dealers and participants with given tapes -/

theorem keypair_generate_tape {B : Backend F E} (hT : B.TotalSer) (x : F) (rest : List F) :
    Keypair.generate B.withTape (x :: rest) = some (⟨x, keyOf B (x • B.gen)⟩, rest) := by
  have : PublicKey.fromElement B.withTape (x • B.gen) = some (keyOf B (x • B.gen)) := fromElement_keyOf hT _
  simp only [Keypair.generate, SecretKey.generate, PublicKey.ofSecret, Backend.mulGen]
  change (do
    let pk ← PublicKey.fromElement B.withTape (x • B.gen)
    return ((⟨x, pk⟩ : Keypair F E), rest)) = _
  rw [this]
  rfl

theorem generateKeypairs_tape {B : Backend F E} (hT : B.TotalSer) (ns : List F) : ∀ cs : List F,
    Dealer.generateKeypairs B.withTape cs.length (cs ++ ns) =
      some (cs.map fun x => ⟨x, keyOf B (x • B.gen)⟩, ns)
  | [] => rfl
  | x :: cs => by
    rw [List.length_cons, Dealer.generateKeypairs, List.cons_append, keypair_generate_tape hT]
    simp only [Option.bind_eq_bind, Option.bind_some, generateKeypairs_tape hT ns cs]
    rfl

theorem dealer_tape (B : Backend F E) (hT : B.TotalSer) (H : List Entry → F) (params : Params)
    (cs ns : List F) (hl : cs.length = params.threshold) :
    Dealer.new (B.withHash H).withTape params (cs ++ ns) =
      (ProofOfPossession.fromKeys (B.withHash H).withTape cs (cs.map fun x => keyOf B (x • B.gen))
        (sharePolyTranscript params) ns).map fun r =>
        (⟨params, cs.map fun x => ⟨x, keyOf B (x • B.gen)⟩, r.1⟩, r.2.2) := by
  have h1 := generateKeypairs_tape (B := B.withHash H) hT ns cs
  rw [hl] at h1
  simp only [Dealer.new, h1, Option.bind_eq_bind, Option.bind_some, ProofOfPossession.new, List.map_map]
  rw [show cs.map (Keypair.secret ∘ fun x => (⟨x, keyOf (B.withHash H) (x • (B.withHash H).gen)⟩ :
    Keypair F E)) = cs from List.map_id' cs]
  change (ProofOfPossession.fromKeys (B.withHash H).withTape cs (cs.map fun x => keyOf B (x • B.gen))
    (sharePolyTranscript params) ns).bind _ = _
  cases ProofOfPossession.fromKeys (B.withHash H).withTape cs (cs.map fun x => keyOf B (x • B.gen))
    (sharePolyTranscript params) ns <;> rfl

section
variable (B : Backend F E) (hB : B.Lawful) (hT : B.TotalSer) (H : List Entry → F) (params : Params) (cs : List F)
  (hl : cs.length = params.threshold)

include hB hT hl in
theorem dealt_participant (pop : ProofOfPossession F) (i : Fin params.shares) :
    dealtParticipant (B.withHash H) ⟨params, cs.map fun x => ⟨x, keyOf B (x • B.gen)⟩, pop⟩
      (keySetOf B params (cs.map (· • B.gen))) i =
      some ⟨keySetOf B params (cs.map (· • B.gen)), i, polyAt ((i : F) + 1) cs⟩ := by
  have h1 := C42_participant (B.withHash H) (hB.withHash H) (keySetOf B params (cs.map (· • B.gen))) cs
    (keySetOf_for (B := B.withHash H) hT (by simpa using hl)) i (polyAt ((i : F) + 1) cs)
  rw [if_pos (show i.1 < (keySetOf B params (cs.map (· • B.gen))).params.shares from i.2), if_pos rfl] at h1
  rw [dealtParticipant, Dealer.share_eq]
  simp only [List.map_map]
  rw [if_pos i.2, show cs.map (Keypair.secret ∘ fun x => (⟨x, keyOf B (x • B.gen)⟩ : Keypair F E)) = cs from
    List.map_id' cs, Option.bind_some]
  rw [show point F i.1 = (i : F) + 1 from rfl, h1]

include hT hl in
theorem dealt_key (i : Fin params.shares) : (keySetOf B params (cs.map (· • B.gen))).participantKeys[i.1]? =
    some (keyOf B (polyAt ((i : F) + 1) cs • B.gen)) := by
  rw [← polyAt_smul]
  simp [keySetOf]

include hT hl in
theorem dealt_possession (i : Fin params.shares) (y : F) :
    (ActiveParticipant.proofOfPossession (B.withHash H).withTape
      ⟨keySetOf B params (cs.map (· • B.gen)), i, polyAt ((i : F) + 1) cs⟩ [y]).bind (fun r => some r.1) =
    (ProofOfPossession.fromKeys (B.withHash H).withTape [polyAt ((i : F) + 1) cs]
      [keyOf B (polyAt ((i : F) + 1) cs • B.gen)] ((keySetOf B params (cs.map (· • B.gen))).popTranscript i) [y]).map
      Prod.fst := by
  simp only [ActiveParticipant.proofOfPossession, ActiveParticipant.publicKeyShare, dealt_key B hT params cs hl i,
    Option.bind_eq_bind, Option.bind_some]
  cases ProofOfPossession.fromKeys (B.withHash H).withTape [polyAt ((i : F) + 1) cs]
      [keyOf B (polyAt ((i : F) + 1) cs • B.gen)] ((keySetOf B params (cs.map (· • B.gen))).popTranscript i) [y] <;> rfl

include hT hl in
theorem dealt_share (i : Fin params.shares) (ct : Ciphertext E) (x : F) :
    (ActiveParticipant.decryptShare (B.withHash H).withTape
      ⟨keySetOf B params (cs.map (· • B.gen)), i, polyAt ((i : F) + 1) cs⟩ ct [x]).bind (fun r => some r.1) =
    ((LogEqualityProof.new (B.withHash H).withTape (keyOf B ct.random) (polyAt ((i : F) + 1) cs)
      (polyAt ((i : F) + 1) cs • B.gen, polyAt ((i : F) + 1) cs • (keyOf B ct.random).element)
      ((keySetOf B params (cs.map (· • B.gen))).shareTranscript i) [x]).map Prod.fst).map
      fun p => (⟨polyAt ((i : F) + 1) cs • ct.random⟩, p) := by
  have h1 : PublicKey.fromElement (B.withHash H).withTape ct.random = some (keyOf B ct.random) :=
    fromElement_keyOf (B := B) hT _
  simp only [ActiveParticipant.decryptShare, ActiveParticipant.publicKeyShare, dealt_key B hT params cs hl i,
    Option.bind_eq_bind, Option.bind_some, h1, keyOf_element hT]
  cases LogEqualityProof.new (B.withHash H).withTape (keyOf B ct.random) (polyAt ((i : F) + 1) cs)
      (polyAt ((i : F) + 1) cs • B.gen, polyAt ((i : F) + 1) cs • ct.random)
      ((keySetOf B params (cs.map (· • B.gen))).shareTranscript i) [x] <;> rfl

end

/-! ## The proofs of dealers and participants as provers that hash once -/

section
variable [Fintype F] (B : Backend F E) (hB : B.Lawful) (hT : B.TotalSer)

/-- Indexes of all proofs. -/
abbrev ProofIndex (shares o : ℕ) : Type := Unit ⊕ Fin shares ⊕ Fin shares × Fin o

/-- Scalars in proofs. -/
def ProofScalars (F : Type) (threshold : ℕ) {shares o : ℕ} : ProofIndex shares o → Type
  | .inl _ => F × (Fin threshold → F)
  | .inr (.inl _) => F × F
  | .inr (.inr _) => LogEqualityProof F

/-- Tapes. -/
def ProofTape (F : Type) (threshold : ℕ) {shares o : ℕ} : ProofIndex shares o → Type
  | .inl _ => Fin threshold → F
  | .inr (.inl _) => F
  | .inr (.inr _) => F

/-- Outputs. -/
def ProofOutput (F E : Type) {shares o : ℕ} : ProofIndex shares o → Type
  | .inl _ => Option (ProofOfPossession F)
  | .inr (.inl _) => Option (ProofOfPossession F)
  | .inr (.inr _) => Option (VerifiableDecryption E × LogEqualityProof F)

instance {threshold shares o : ℕ} : (i : ProofIndex shares o) → Fintype (ProofScalars F threshold i)
  | .inl _ => inferInstanceAs (Fintype (F × (Fin threshold → F)))
  | .inr (.inl _) => inferInstanceAs (Fintype (F × F))
  | .inr (.inr _) => inferInstanceAs (Fintype (LogEqualityProof F))

instance {threshold shares o : ℕ} : (i : ProofIndex shares o) → Fintype (ProofTape F threshold i)
  | .inl _ => inferInstanceAs (Fintype (Fin threshold → F))
  | .inr (.inl _) => inferInstanceAs (Fintype F)
  | .inr (.inr _) => inferInstanceAs (Fintype F)

instance {threshold shares o : ℕ} : (i : ProofIndex shares o) → Nonempty (ProofTape F threshold i)
  | .inl _ => inferInstanceAs (Nonempty (Fin threshold → F))
  | .inr (.inl _) => inferInstanceAs (Nonempty F)
  | .inr (.inr _) => inferInstanceAs (Nonempty F)

/-- A family given by its parts. -/
def proofFamily {shares o : ℕ} {S : ProofIndex shares o → Type} (x : S (.inl ())) (y : ∀ i, S (.inr (.inl i)))
    (z : ∀ i j, S (.inr (.inr (i, j)))) : ∀ i, S i
  | .inl () => x
  | .inr (.inl i) => y i
  | .inr (.inr (i, j)) => z i j

/-- Families and their parts. -/
def proofFamilyEquiv {shares o : ℕ} (S : ProofIndex shares o → Type) :
    S (.inl ()) × (∀ i, S (.inr (.inl i))) × (∀ i j, S (.inr (.inr (i, j)))) ≃ ∀ i, S i where
  toFun p := proofFamily p.1 p.2.1 p.2.2
  invFun g := (g (.inl ()), fun i => g (.inr (.inl i)), fun i j => g (.inr (.inr (i, j))))
  left_inv _ := rfl
  right_inv g := by
    funext i
    rcases i with _ | i | ⟨i, j⟩ <;> rfl

/-- All indexes. -/
def proofIndexes (shares o : ℕ) : List (ProofIndex shares o) :=
  [.inl ()] ++ (List.ofFn fun i : Fin shares => [.inr (.inl i)]).flatten ++
    (List.ofFn fun i : Fin shares => (List.ofFn fun j : Fin o => [.inr (.inr (i, j))]).flatten).flatten

theorem mem_proofIndexes {shares o : ℕ} (i : ProofIndex shares o) : i ∈ proofIndexes shares o := by
  simp only [proofIndexes, List.mem_append, List.mem_flatten, List.mem_ofFn', Set.mem_range]
  rcases i with _ | i | ⟨i, j⟩
  · exact .inl (.inl (by simp))
  · exact .inl (.inr ⟨_, ⟨i, rfl⟩, by simp⟩)
  · refine .inr ⟨_, ⟨i, rfl⟩, ?_⟩
    rw [List.mem_flatten]
    exact ⟨_, (List.mem_ofFn' _ _).mpr ⟨j, rfl⟩, by simp⟩

theorem length_flatten_ofFn {α : Type} : ∀ {m k : ℕ} (f : Fin m → List α), (∀ i, (f i).length = k) →
    (List.ofFn f).flatten.length = m * k
  | 0, _, _, _ => by simp
  | m + 1, k, f, h => by
    rw [List.ofFn_succ, List.flatten_cons, List.length_append, h 0, length_flatten_ofFn _ fun i => h i.succ]
    ring

theorem length_proofIndexes (shares o : ℕ) : (proofIndexes shares o).length = 1 + shares + shares * o := by
  rw [proofIndexes, List.length_append, List.length_append, length_flatten_ofFn (k := 1) _ fun _ => rfl,
    length_flatten_ofFn (k := o) _ fun _ => by rw [length_flatten_ofFn (k := 1) _ fun _ => rfl, mul_one]]
  simp

theorem nodup_proofIndexes (shares o : ℕ) : (proofIndexes shares o).Nodup := by
  have h : (proofIndexes shares o).toFinset = Finset.univ := by
    ext i
    simp [mem_proofIndexes]
  have h1 := congrArg Finset.card h
  rw [Finset.card_univ, Fintype.card_sum, Fintype.card_sum, Fintype.card_prod, Fintype.card_fin, Fintype.card_fin,
    Fintype.card_unit] at h1
  have h2 : ((proofIndexes shares o : Multiset (ProofIndex shares o)).toFinset).card =
      Multiset.card (proofIndexes shares o : Multiset (ProofIndex shares o)) := by
    rw [Multiset.coe_card, length_proofIndexes]
    exact h1.trans (by ring)
  exact Multiset.coe_nodup.mp (Multiset.toFinset_card_eq_card_iff_nodup.mp h2)


variable (params : Params) {o : ℕ} (cs : Fin params.threshold → F) (cts : Fin o → Ciphertext E)

/-- The public polynomial. -/
def dealtPoly : List E := (List.ofFn cs).map (· • B.gen)

/-- Secret shares. -/
def dealtSecret (i : Fin params.shares) : F := polyAt ((i : F) + 1) (List.ofFn cs)

/-- Proofs made by the dealer and the participants. -/
def proofOut (i : ProofIndex params.shares o) (H : List Entry → F) (tape : ProofTape F params.threshold i) :
    ProofOutput F E i :=
  match i, tape with
  | .inl _, ns => (ProofOfPossession.fromKeys (B.withHash H).withTape (List.ofFn cs)
      (List.ofFn fun a => keyOf B (cs a • B.gen)) (sharePolyTranscript params)
      (List.ofFn (show Fin params.threshold → F from ns))).map Prod.fst
  | .inr (.inl i), y => (ProofOfPossession.fromKeys (B.withHash H).withTape [dealtSecret params cs i]
      [keyOf B (dealtSecret params cs i • B.gen)] ((keySetOf B params (dealtPoly B params cs)).popTranscript i) [y]).map
      Prod.fst
  | .inr (.inr (i, j)), x => ((LogEqualityProof.new (B.withHash H).withTape (keyOf B (cts j).random)
      (dealtSecret params cs i) (dealtSecret params cs i • B.gen, dealtSecret params cs i • (keyOf B (cts j).random).element)
      ((keySetOf B params (dealtPoly B params cs)).shareTranscript i) [x]).map Prod.fst).map
      fun p => (⟨dealtSecret params cs i • (cts j).random⟩, p)

/-- Proofs with given scalars. -/
def proofDec (i : ProofIndex params.shares o) (s : ProofScalars F params.threshold i) : ProofOutput F E i :=
  match i, s with
  | .inl _, (s : F × (Fin params.threshold → F)) => some (⟨s.1, List.ofFn s.2⟩ : ProofOfPossession F)
  | .inr (.inl _), (s : F × F) => some (⟨s.1, [s.2]⟩ : ProofOfPossession F)
  | .inr (.inr (i, j)), (p : LogEqualityProof F) => some (⟨dealtSecret params cs i • (cts j).random⟩, p)

/-- Data hashed last. -/
def proofQuery (i : ProofIndex params.shares o) (s : ProofScalars F params.threshold i) : List Entry :=
  match i, s with
  | .inl _, (s : F × (Fin params.threshold → F)) =>
    popInput B (fun a => keyOf B (cs a • B.gen)) (sharePolyTranscript params) s
  | .inr (.inl i), (s : F × F) => popInput B (fun _ : Fin 1 => keyOf B (dealtSecret params cs i • B.gen))
    ((keySetOf B params (dealtPoly B params cs)).popTranscript i) (s.1, fun _ => s.2)
  | .inr (.inr (i, j)), (p : LogEqualityProof F) => logEqInput B (keyOf B (cts j).random)
    (dealtSecret params cs i • B.gen, dealtSecret params cs i • (keyOf B (cts j).random).element)
    ((keySetOf B params (dealtPoly B params cs)).shareTranscript i) p

/-- The hash values. -/
def proofAnswer {threshold shares o : ℕ} (i : ProofIndex shares o) (s : ProofScalars F threshold i) : F :=
  match i, s with
  | .inl _, (s : F × (Fin threshold → F)) => s.1
  | .inr (.inl _), (s : F × F) => s.1
  | .inr (.inr _), (p : LogEqualityProof F) => p.challenge

include hB hT in
theorem proof_hashOnce (hm : 0 < params.threshold) (i : ProofIndex params.shares o) :
    HashOnce (proofOut B params cs cts i) (proofDec params cs cts i) (proofQuery B params cs cts i) (proofAnswer i) := by
  rcases i with _ | i | ⟨i, j⟩
  · exact pop_hashOnce B hB hT hm cs (fun a => keyOf B (cs a • B.gen)) (fun a => keyOf_element hT _)
      (sharePolyTranscript params)
  · exact (pop_hashOnce B hB hT Nat.one_pos (fun _ : Fin 1 => dealtSecret params cs i)
      (fun _ => keyOf B (dealtSecret params cs i • B.gen)) (fun a => keyOf_element hT _)
      ((keySetOf B params (dealtPoly B params cs)).popTranscript i)).equiv
      (Equiv.prodCongr (Equiv.refl F) (Equiv.funUnique (Fin 1) F).symm) (Equiv.funUnique (Fin 1) F).symm
  · exact (logEq_hashOnce B hB hT (keyOf B (cts j).random) (dealtSecret params cs i)
      ((keySetOf B params (dealtPoly B params cs)).shareTranscript i)).comp
      (g := Option.map fun p => ((⟨dealtSecret params cs i • (cts j).random⟩ : VerifiableDecryption E), p))
      (Option.map_injective fun p p' h => (Prod.mk.inj h).2)

/-! ## Points -/

include hT in
theorem popPoint_eq (H : List Entry → F) {m : ℕ} (keys : Fin m → PublicKey E) (t : Transcript) (s : F × (Fin m → F)) :
    popPoint (B.withHash H) (List.ofFn keys) t ⟨s.1, List.ofFn s.2⟩ = [(popInput B keys t s, s.1)] := by
  rw [popPoint, pop_verify_eq (B.withHash H) hT keys t s]
  rfl

include hT in
theorem logEqPoint_eq (H : List Entry → F) (K : PublicKey E) (powers : E × E) (t : Transcript) (p : LogEqualityProof F) :
    logEqPoint (B.withHash H) K powers t p = [(logEqInput B K powers t p, p.challenge)] := by
  rw [logEqPoint, logEq_verify_eq B hT H]

theorem dealtPoly_map : (dealtPoly B params cs).map (keyOf B) = List.ofFn fun a => keyOf B (cs a • B.gen) := by
  simp only [dealtPoly, List.map_ofFn]
  rfl

theorem dealtPoly_at (i : Fin params.shares) : polyAt ((i : F) + 1) (dealtPoly B params cs) =
    dealtSecret params cs i • B.gen := by
  rw [dealtPoly, polyAt_smul, dealtSecret]

include hT in
/-- The values programmed by the simulation. -/
theorem familyPoints_eq (H : List Entry → F) (proofs : ThresholdProofs F o params.threshold params.shares)
    (dhs : Fin params.shares → Fin o → E) (hd : ∀ i j, dhs i j = dealtSecret params cs i • (cts j).random) :
    popPoint (B.withHash H) ((dealtPoly B params cs).map (keyOf B)) (sharePolyTranscript params)
        ⟨proofs.1.1, List.ofFn proofs.1.2⟩ ++
      (List.ofFn fun i : Fin params.shares => popPoint (B.withHash H)
        [keyOf B (polyAt ((i : F) + 1) (dealtPoly B params cs))] ((keySetOf B params (dealtPoly B params cs)).popTranscript i)
        ⟨(proofs.2.1 i).1, [(proofs.2.1 i).2]⟩).flatten ++
      (List.ofFn fun i : Fin params.shares => (List.ofFn fun j : Fin o => sharePoint (B.withHash H)
        (keySetOf B params (dealtPoly B params cs)) i (polyAt ((i : F) + 1) (dealtPoly B params cs)) (cts j)
        (⟨dhs i j⟩, proofs.2.2 i j)).flatten).flatten =
    familyPoints (proofQuery B params cs cts) proofAnswer (proofIndexes params.shares o)
      (proofFamilyEquiv (ProofScalars F params.threshold) proofs) := by
  simp only [familyPoints, proofIndexes, List.map_append, List.map_flatten, List.map_ofFn, Function.comp_def,
    List.map_cons, List.map_nil]
  congr 1
  · congr 1
    · rw [dealtPoly_map]
      exact popPoint_eq B hT H _ _ _
    · congr 2
      funext i
      rw [dealtPoly_at]
      exact popPoint_eq B hT H (fun _ : Fin 1 => keyOf B (dealtSecret params cs i • B.gen)) _
        ((proofs.2.1 i).1, fun _ => (proofs.2.1 i).2)
  · congr 2
    funext i
    congr 2
    funext j
    rw [dealtPoly_at, sharePoint]
    simp only [hd]
    refine (logEqPoint_eq B hT H _ _ _ _).trans ?_
    change [(logEqInput B (keyOf B (cts j).random) (dealtSecret params cs i • B.gen,
        dealtSecret params cs i • (cts j).random) _ _, _)] =
      [(logEqInput B (keyOf B (cts j).random) (dealtSecret params cs i • B.gen,
        dealtSecret params cs i • (keyOf B (cts j).random).element) _ _, _)]
    rw [keyOf_element hT]
    rfl

/-- Data that are not hashed in ballots. -/
def NotInBallots (q : List Entry) : Prop :=
  (∃ l x, q = l ++ [.msg "R" x, .chal "c"]) ∨
    ∃ ctx k e, q = logEqData B ctx k e ∧ ctx ≠ (Transcript.new "choice_encryption_sum").log

theorem popInput_end {m : ℕ} (hm : 0 < m) (keys : Fin m → PublicKey E) (t : Transcript) (s : F × (Fin m → F)) :
    NotInBallots B (popInput B keys t s) := by
  refine .inl ?_
  obtain ⟨m, rfl⟩ := Nat.exists_eq_succ_of_ne_zero hm.ne'
  rw [popInput, popQuery]
  rw [List.ofFn_succ' fun i => encOf B (s.2 i • B.gen - s.1 • (keys i).element), List.concat_eq_append, List.map_append,
    ← List.append_assoc, List.append_assoc _ (List.map _ [_])]
  exact ⟨_, _, rfl⟩

theorem proofQuery_notInBallots (hm : 0 < params.threshold) (i : ProofIndex params.shares o)
    (s : ProofScalars F params.threshold i) : NotInBallots B (proofQuery B params cs cts i s) := by
  rcases i with _ | i | ⟨i, j⟩
  · exact popInput_end B hm _ _ _
  · exact popInput_end B Nat.one_pos _ _ _
  · refine .inr ⟨_, _, _, rfl, ?_⟩
    intro h
    have : (shareLog params (keySetOf B params (dealtPoly B params cs)).sharedKey.bytes i).length = 1 :=
      congrArg List.length h
    simp [shareLog] at this

include hT in
theorem notInBallots_congr {kind : ChoiceKind} (ho : o ≠ 0) (K : PublicKey E)
    (cts : Fin o → Ciphertext E) (proofs : ChoiceProofs F o kind) (H H' : List Entry → F)
    (h : ∀ q, ¬ NotInBallots B q → H' q = H q) :
    Has H' (choicePoints (B.withHash H') K (makeChoice cts proofs)) ↔
      Has H (choicePoints (B.withHash H) K (makeChoice cts proofs)) := by
  refine choice_valid_congr B hT ho K cts proofs H H' (NotInBallots B) h ?_ ?_ ?_
  · rintro base j x y (⟨l, z, h⟩ | ⟨ctx, k, e, h, -⟩)
    · rw [show ringQuery base j x y = (base ++ [.msg "j" (leBytes 8 j), .msg "R_G" x]) ++ [.msg "R_K" y, .chal "c"] by
        simp [ringQuery]] at h
      have := (List.append_inj' h (by simp)).2
      simp at this
    · exact dec_ne_ring h
  · rintro ctx k terms hne (⟨l, z, h⟩ | ⟨ctx', k', e, h, -⟩)
    · obtain ⟨ts, t, rfl⟩ := List.eq_nil_or_concat terms |>.resolve_left hne
      rw [List.concat_eq_append, show commonPoint B ctx k (ts ++ [t]) = (ctx ++ [.msg "dom-sep" (asciiBytes "multi_ring_enc"),
          .msg "K" k] ++ (ts.map fun e => (encOf B e.1, encOf B e.2)).flatMap (fun p => [.msg "R_G" p.1, .msg "R_K" p.2]) ++
          [.msg "R_G" (encOf B t.1)]) ++ [.msg "R_K" (encOf B t.2), .chal "c"] by
        simp [commonPoint, commonQuery]] at h
      have := (List.append_inj' h (by simp)).2
      simp at this
    · exact dec_ne_common hne h
  · rintro k e (⟨l, z, h⟩ | ⟨ctx', k', e', h, hc⟩)
    · obtain ⟨l', x, hl⟩ := logEqData_end B (Transcript.new "choice_encryption_sum").log k e
      rw [hl] at h
      have := (List.append_inj' h (by simp)).2
      simp at this
    · exact hc (List.append_inj' h (by simp)).1.symm

/-! ## Games -/

/-- What the attacker sees, for given proofs. -/
def dealtGuess {β : Type} {n c : ℕ} (bad : Fin c → ℕ)
    (guess : (List Entry → F) → ThresholdView F E β n o c params.shares → ℚ) (H : List Entry → F)
    (ballots : Fin n → Option β) (outs : ∀ i : ProofIndex params.shares o, ProofOutput F E i) : ℚ :=
  match (show Option (ProofOfPossession F) from outs (.inl ())) with
  | none => 0
  | some pop => guess H
    { publicInfo := (dealtPoly B params cs, pop)
      keySet := keySetOf B params (dealtPoly B params cs)
      corrupted := fun a => polyAt ((bad a : F) + 1) (List.ofFn cs)
      ballots
      possession := fun i => outs (.inr (.inl i))
      decryptions := fun i j => outs (.inr (.inr (i, j))) }

theorem dealtGuess_some {β : Type} {n c : ℕ} (bad : Fin c → ℕ)
    (guess : (List Entry → F) → ThresholdView F E β n o c params.shares → ℚ) (H : List Entry → F)
    (ballots : Fin n → Option β) (outs : ∀ i : ProofIndex params.shares o, ProofOutput F E i)
    (pop : ProofOfPossession F) (h : outs (.inl ()) = some pop) :
    dealtGuess B params cs bad guess H ballots outs = guess H
      { publicInfo := (dealtPoly B params cs, pop)
        keySet := keySetOf B params (dealtPoly B params cs)
        corrupted := fun a => polyAt ((bad a : F) + 1) (List.ofFn cs)
        ballots
        possession := fun i => outs (.inr (.inl i))
        decryptions := fun i j => outs (.inr (.inr (i, j))) } := by
  unfold dealtGuess
  rw [h]

include hB hT in
/-- Runs of elections. -/
theorem thresholdRun_mean (hv : ValidParams params) {β : Type} {n c d : ℕ} (bad : Fin c → ℕ)
    (hbad : ∀ a, bad a < params.shares) (poll : Poll F E β n o d)
    (guess : (List Entry → F) → ThresholdView F E β n o c params.shares → ℚ) (H : List Entry → F) :
    (mean fun nonces : Fin params.threshold → F =>
      thresholdRun B params bad poll guess H (List.ofFn cs ++ List.ofFn nonces)) =
    mean fun tapes : Fin n → Fin d → F => mean fun ts : ∀ i, ProofTape F params.threshold i =>
      let K := keyOf B (polyAt (0 : F) (dealtPoly B params cs))
      let ballots := poll.ballots (B.withHash H) K tapes
      dealtGuess B params cs bad guess H ballots fun i => proofOut B params cs (poll.totals ballots) i H (ts i) := by
  have h1 : ∀ f : (∀ i : ProofIndex params.shares o, ProofTape F params.threshold i) → ℚ, mean f =
      mean fun ns : Fin params.threshold → F => mean fun ys : Fin params.shares → F =>
        mean fun xs : Fin params.shares → Fin o → F =>
        f (proofFamily (S := ProofTape F params.threshold) ns ys xs) := by
    intro f
    rw [← mean_equiv (proofFamilyEquiv (ProofTape F params.threshold)), mean_prod]
    congr 1
    funext ns
    rw [mean_prod]
    rfl
  simp only [h1]
  rw [mean_comm]
  congr 1
  funext ns
  have hl : (List.ofFn cs).length = params.threshold := List.length_ofFn
  obtain ⟨s, hs, ho⟩ := (proof_hashOnce (o := o) B hB hT params cs (fun _ => ⟨0, 0⟩) hv.1 (.inl ())).cover H ns
  have ho : (ProofOfPossession.fromKeys (B.withHash H).withTape (List.ofFn cs)
      (List.ofFn fun a => keyOf B (cs a • B.gen)) (sharePolyTranscript params)
      (List.ofFn (show Fin params.threshold → F from ns))).map Prod.fst = some ⟨s.1, List.ofFn s.2⟩ := ho
  have hd := dealer_tape B hT H params (List.ofFn cs) (List.ofFn ns) hl
  rw [show (List.ofFn cs).map (fun x => keyOf B (x • B.gen)) = List.ofFn fun a => keyOf B (cs a • B.gen) by
    rw [List.map_ofFn]; rfl] at hd
  have hn : PublicKeySet.new (B.withHash H) params (dealtPoly B params cs) ⟨s.1, List.ofFn s.2⟩ =
      some (.ok (keySetOf B params (dealtPoly B params cs))) := by
    have h2 := pop_verify_eq (B.withHash H) hT (fun a => keyOf B (cs a • B.gen)) (sharePolyTranscript params) s
    rw [show checkChallenge ((B.withHash H).challenge (popInput (B.withHash H) (fun a => keyOf B (cs a • B.gen))
        (sharePolyTranscript params) s)) s.1 = .ok () from checkChallenge_ok.mpr hs, ← dealtPoly_map] at h2
    exact keySet_new_eq (B := B.withHash H) hT hv (by simp [dealtPoly]) h2
  obtain ⟨⟨pop, t', rest⟩, hp, hpop⟩ := Option.map_eq_some_iff.mp ho
  have hp : ProofOfPossession.fromKeys (B.withHash H).withTape (List.ofFn cs)
      (List.ofFn fun a => keyOf B (cs a • B.gen)) (sharePolyTranscript params) (List.ofFn ns) = some (pop, t', rest) := hp
  rw [hp, Option.map_some] at hd
  simp only at hpop
  rw [← hpop] at hn
  have hinfo : (⟨params, (List.ofFn cs).map fun x => ⟨x, keyOf B (x • B.gen)⟩, pop⟩ : Dealer F E).publicInfo =
      (dealtPoly B params cs, pop) := by
    simp only [Dealer.publicInfo, List.map_map, dealtPoly]
    congr 1
    refine List.map_congr_left fun x _ => ?_
    exact keyOf_element hT _
  simp only [thresholdRun, hd, hinfo, hn]
  have hpart := fun i => dealt_participant B hB hT H params (List.ofFn cs) hl pop i
  simp only [show keySetOf B params ((List.ofFn cs).map (· • B.gen)) = keySetOf B params (dealtPoly B params cs) from rfl]
    at hpart
  congr 1
  funext tapes
  congr 1
  funext ys
  congr 1
  funext xs
  rw [dealtGuess_some B params cs bad guess H _ _ pop (by
    change (ProofOfPossession.fromKeys (B.withHash H).withTape (List.ofFn cs)
      (List.ofFn fun a => keyOf B (cs a • B.gen)) (sharePolyTranscript params) (List.ofFn ns)).map Prod.fst = some pop
    rw [hp]
    rfl)]
  congr 2
  · funext a
    rw [Dealer.share_eq]
    simp only [List.map_map]
    rw [if_pos (hbad a), show (List.ofFn cs).map (Keypair.secret ∘ fun x => (⟨x, keyOf B (x • B.gen)⟩ : Keypair F E)) =
      List.ofFn cs from List.map_id' _]
    rfl
  · funext i
    rw [hpart i]
    exact dealt_possession B hT H params (List.ofFn cs) hl i (ys i)
  · funext i j
    rw [hpart i]
    exact dealt_share B hT H params (List.ofFn cs) hl i _ (xs i j)

/-- Simulated proofs. -/
def simulatedProofs {β : Type} {n c : ℕ} (bad : Fin c → ℕ) (totals : (Fin n → Option β) → Fin o → Ciphertext E)
    (guess : (List Entry → F) → ThresholdView F E β n o c params.shares → ℚ) (H : List Entry → F)
    (ballots : Fin n → Option β) : ℚ :=
  mean fun ss : ∀ i : ProofIndex params.shares o, ProofScalars F params.threshold i =>
    dealtGuess B params cs bad guess
      (program H (familyPoints (proofQuery B params cs (totals ballots)) proofAnswer (proofIndexes params.shares o) ss))
      ballots fun i => proofDec params cs (totals ballots) i (ss i)

/-- All data hashed last for proofs of dealers and participants. -/
theorem proofData_finite [Finite E] (o : ℕ) : Set.Finite (Set.range fun p : ((Fin params.threshold → F) × (Fin o → E × E)) ×
    (Σ i : ProofIndex params.shares o, ProofScalars F params.threshold i) =>
      proofQuery B params p.1.1 (fun j => ⟨(p.1.2 j).1, (p.1.2 j).2⟩) p.2.1 p.2.2) :=
  Set.finite_range _

theorem proofQuery_mem [Finite E] (i : ProofIndex params.shares o) (s : ProofScalars F params.threshold i) :
    proofQuery B params cs cts i s ∈ (proofData_finite B params o).toFinset := by
  rw [Set.Finite.mem_toFinset]
  exact ⟨((cs, fun j => ((cts j).random, (cts j).blinded)), ⟨i, s⟩), rfl⟩

open Classical in
include hB hT in
/-- Proofs of dealers and participants can be simulated up to collisions. -/
theorem proofs_simulation [Finite E] (hm : 0 < params.threshold) {n c : ℕ} {kind : ChoiceKind} (ho : o ≠ 0)
    (bad : Fin c → ℕ) (K : PublicKey E) (k : F) (hk : K.element = k • B.gen)
    (D : Finset (List Entry)) (hD : (proofData_finite B params o).toFinset ⊆ D) (H₀ : List Entry → F)
    (votes : Fin n → Fin o → Bool) (hone : ∀ v, kind = .single → (List.ofFn (votes v)).count true = 1)
    (guess : (List Entry → F) → ThresholdView F E (EncryptedChoice F E kind) n o c params.shares → ℚ)
    (hg : ∀ H view, 0 ≤ guess H view ∧ guess H view ≤ 1) :
    |(meanHash D H₀ fun H => mean fun tapes : Fin n → Fin (choiceDraws o kind) → F =>
        mean fun ts : ∀ i, ProofTape F params.threshold i =>
        dealtGuess B params cs bad guess H (honestBallots B H kind K votes tapes) fun i =>
          proofOut B params cs (optionTotal (honestBallots B H kind K votes tapes)) i H (ts i)) -
      meanHash D H₀ fun H => mean fun tapes : Fin n → Fin (choiceDraws o kind) → F =>
        simulatedProofs B params cs bad optionTotal guess H (honestBallots B H kind K votes tapes)| ≤
    ((1 + params.shares + params.shares * o).choose 2 : ℚ) / Fintype.card F := by
  have hone1 := mean_honestBallots B hB hT ho K k hk D H₀ votes hone fun _ _ => 1
  simp only [mean_const, meanHash_const] at hone1
  rw [mean_honestBallots B hB hT ho K k hk D H₀ votes hone fun H b => mean fun ts : ∀ i, ProofTape F params.threshold i =>
      dealtGuess B params cs bad guess H b fun i => proofOut B params cs (optionTotal b) i H (ts i),
    mean_honestBallots B hB hT ho K k hk D H₀ votes hone fun H b => simulatedProofs B params cs bad optionTotal guess H b,
    ← sub_div, ← Finset.sum_sub_distrib, abs_div, Nat.abs_cast]
  refine (div_le_div_of_nonneg_right (Finset.abs_sum_le_sum_abs _ _) (Nat.cast_nonneg _)).trans ?_
  have key : ∀ ss : Fin n → (Fin o → F) × ChoiceProofs F o kind,
      |(meanHash D H₀ fun H => if ValidBallots B K votes H ss then mean fun ts : ∀ i, ProofTape F params.threshold i =>
          dealtGuess B params cs bad guess H (madeBallots B K votes ss) fun i =>
            proofOut B params cs (optionTotal (madeBallots B K votes ss)) i H (ts i) else 0) -
        meanHash D H₀ fun H => if ValidBallots B K votes H ss then
          simulatedProofs B params cs bad optionTotal guess H (madeBallots B K votes ss) else 0| ≤
      ((1 + params.shares + params.shares * o).choose 2 : ℚ) / Fintype.card F *
        meanHash D H₀ fun H => if ValidBallots B K votes H ss then 1 else 0 := by
    intro ss
    have hvalid : ∀ H scalars, ValidBallots B K votes (program H (familyPoints (proofQuery B params cs
        (optionTotal (madeBallots B K votes ss))) proofAnswer (proofIndexes params.shares o) scalars)) ss ↔
        ValidBallots B K votes H ss := by
      intro H scalars
      refine forall_congr' fun v => notInBallots_congr B hT ho K _ _ _ _ fun q hq => program_of_notMem fun hq' => hq ?_
      simp only [familyPoints, List.map_map, List.mem_map, Function.comp_apply] at hq'
      obtain ⟨i, -, rfl⟩ := hq'
      exact proofQuery_notInBallots B params cs _ hm i _
    have := family_simulation (nodup_proofIndexes params.shares o) mem_proofIndexes
      (proof_hashOnce B hB hT params cs (optionTotal (madeBallots B K votes ss)) hm) D
      (fun i s => hD (proofQuery_mem B params cs _ i s)) H₀
      (fun H outs => if ValidBallots B K votes H ss then dealtGuess B params cs bad guess H (madeBallots B K votes ss) outs
        else 0) (fun H => if ValidBallots B K votes H ss then 1 else 0) ?_ ?_
    · rw [length_proofIndexes] at this
      convert this using 3
      · congr 1
        funext H
        split
        · rfl
        · rw [mean_const]
      · rw [← meanHash_mean]
        congr 1
        funext H
        simp only [hvalid]
        split
        · rfl
        · simp [mean]
    · intro H outs
      split
      · unfold dealtGuess
        split
        · simp
        · exact hg _ _
      · simp
    · intro H scalars
      simp only [hvalid]
  refine (div_le_div_of_nonneg_right (Finset.sum_le_sum fun ss _ => key ss) (Nat.cast_nonneg _)).trans ?_
  rw [← Finset.mul_sum, mul_div_assoc, ← hone1, mul_one]

include hT in
/-- The reduction simulates proofs. -/
theorem withShares_eq {β : Type} {n c : ℕ} (bad : Fin c → ℕ) (hi : Function.Injective (badNodes F bad))
    (K : PublicKey E) (k : F) (hk : K.element = k • B.gen)
    (totals : (Fin n → Option β) → Fin o → Ciphertext E) (counts : PublicKey E → Fin o → ℕ)
    (guess : (List Entry → F) → ThresholdView F E β n o c params.shares → ℚ) (H : List Entry → F)
    (ballots : Fin n → Option β) (hd : ∀ j, k • (totals ballots j).random =
      (totals ballots j).blinded - (counts K j : F) • B.gen)
    (cs : (Fin c → F) → Fin params.threshold → F)
    (hcs : ∀ shares, List.ofFn (cs shares) = sharePolynomial (F := F) bad k shares) :
    withShares B params bad totals counts guess H K ballots =
      mean fun shares : Fin c → F => simulatedProofs B params (cs shares) bad totals guess H ballots := by
  rw [withShares]
  congr 1
  funext shares
  have hpoly : (sharePolynomial (F := F) bad K.element fun a => shares a • B.gen) = dealtPoly B params (cs shares) := by
    rw [dealtPoly, hcs, sharePolynomial_smul, hk]
  have hdh : ∀ (i : Fin params.shares) (j : Fin o), polyAt ((i : F) + 1) (sharePolynomial (F := F) bad
      ((totals ballots j).blinded - (counts K j : F) • B.gen) fun a => shares a • (totals ballots j).random) =
      dealtSecret params (cs shares) i • (totals ballots j).random := by
    intro i j
    rw [← hd, ← sharePolynomial_smul, polyAt_smul, dealtSecret, hcs]
  rw [simulatedProofs, ← mean_equiv (proofFamilyEquiv (ProofScalars F params.threshold))]
  congr 1
  funext proofs
  rw [dealtGuess_some B params (cs shares) bad guess _ _ _ ⟨proofs.1.1, List.ofFn proofs.1.2⟩ rfl,
    ← familyPoints_eq B hT params (cs shares) (totals ballots) H proofs
      (fun i j => dealtSecret params (cs shares) i • (totals ballots j).random) fun _ _ => rfl]
  simp only [hpoly, hdh, hcs, sharePolynomial_bad hi]
  rfl

include hB hT in
theorem honest_eq_made {kind : ChoiceKind} {n : ℕ} (ho : o ≠ 0) (K : PublicKey E) (k : F) (hk : K.element = k • B.gen)
    (votes : Fin n → Fin o → Bool) (hone : ∀ v, kind = .single → (List.ofFn (votes v)).count true = 1)
    (H : List Entry → F) (tapes : Fin n → Fin (choiceDraws o kind) → F) :
    ∃ ss, honestBallots B H kind K votes tapes = madeBallots B K votes ss := by
  choose ss _ h using fun v => (choice_outputs B hB hT (kind := kind) ho K k hk (votes v) (hone v)).2.2 H (tapes v)
  exact ⟨ss, funext h⟩

include hB hT in
/-- Elections with a shared key compared with ballots and simulated proofs. -/
theorem shared_simulation (hv : ValidParams params) {c : ℕ} (hc : params.threshold = c + 1) {β : Type}
    {n d : ℕ} (bad : Fin c → ℕ) (hi : Function.Injective (badNodes F bad)) (hbad : ∀ a, bad a < params.shares)
    (D : Finset (List Entry)) (H₀ : List Entry → F) (poll : Poll F E β n o d) (counts : PublicKey E → Fin o → ℕ)
    (guess : (List Entry → F) → ThresholdView F E β n o c params.shares → ℚ)
    (hdh : ∀ (k : F) (H : List Entry → F) tapes j,
      k • (poll.totals (poll.ballots (B.withHash H) (keyOf B (k • B.gen)) tapes) j).random =
        (poll.totals (poll.ballots (B.withHash H) (keyOf B (k • B.gen)) tapes) j).blinded -
          (counts (keyOf B (k • B.gen)) j : F) • B.gen)
    (hsim : ∀ (k : F) (cs : Fin params.threshold → F),
      |(meanHash D H₀ fun H => mean fun tapes : Fin n → Fin d → F => mean fun ts : ∀ i, ProofTape F params.threshold i =>
        dealtGuess B params cs bad guess H (poll.ballots (B.withHash H) (keyOf B (k • B.gen)) tapes) fun i =>
          proofOut B params cs (poll.totals (poll.ballots (B.withHash H) (keyOf B (k • B.gen)) tapes)) i H (ts i)) -
      meanHash D H₀ fun H => mean fun tapes : Fin n → Fin d → F =>
        simulatedProofs B params cs bad poll.totals guess H (poll.ballots (B.withHash H) (keyOf B (k • B.gen)) tapes)| ≤
      ((1 + params.shares + params.shares * o).choose 2 : ℚ) / Fintype.card F) :
    |thresholdGame B D H₀ params bad poll guess -
      ballotsGame B D H₀ poll (withShares B params bad poll.totals counts guess)| ≤
    ((1 + params.shares + params.shares * o).choose 2 : ℚ) / Fintype.card F := by
  have hex : ∀ (k : F) (shares : Fin c → F), ∃ cs : Fin params.threshold → F,
      List.ofFn cs = sharePolynomial (F := F) bad k shares := by
    intro k shares
    have hl := sharePolynomial_length (F := F) (bad := bad) k shares
    refine ⟨fun i => (sharePolynomial (F := F) bad k shares)[i.1]'(by rw [hl, ← hc]; exact i.2), ?_⟩
    exact List.ext_getElem (by simp [hl, hc]) fun i h1 h2 => by simp only [List.getElem_ofFn]
  choose cs hcs using hex
  have h0 : ∀ k shares, polyAt (0 : F) (dealtPoly B params (cs k shares)) = k • B.gen := by
    intro k shares
    rw [dealtPoly, hcs, polyAt_smul, sharePolynomial_zero hi]
  -- the game as a mean over keys and shares
  have h1 : thresholdGame B D H₀ params bad poll guess = mean fun k : F => mean fun shares : Fin c → F =>
      meanHash D H₀ fun H => mean fun tapes : Fin n → Fin d → F =>
        mean fun ts : ∀ i, ProofTape F params.threshold i =>
        dealtGuess B params (cs k shares) bad guess H (poll.ballots (B.withHash H) (keyOf B (k • B.gen)) tapes) fun i =>
          proofOut B params (cs k shares) (poll.totals (poll.ballots (B.withHash H) (keyOf B (k • B.gen)) tapes)) i H
            (ts i) := by
    have h2 : ∀ H, (mean fun coefficients : Fin params.threshold → F => mean fun nonces : Fin params.threshold → F =>
        thresholdRun B params bad poll guess H (List.ofFn coefficients ++ List.ofFn nonces)) =
        mean fun k : F => mean fun shares : Fin c → F => mean fun nonces : Fin params.threshold → F =>
          thresholdRun B params bad poll guess H (List.ofFn (cs k shares) ++ List.ofFn nonces) := by
      intro H
      have h3 := mean_sharePolynomial hi fun l => mean fun nonces : Fin params.threshold → F =>
        thresholdRun B params bad poll guess H (l ++ List.ofFn nonces)
      simp only [← hcs] at h3
      rw [← h3, ← mean_equiv (Equiv.arrowCongr (finCongr hc) (Equiv.refl F))]
      congr 1
      funext coefficients
      congr 1
      funext nonces
      congr 2
      refine List.ext_getElem (by simp [hc]) fun i h1 h2 => ?_
      simp only [List.getElem_ofFn]
      rfl
    rw [thresholdGame]
    simp only [h2]
    simp only [thresholdRun_mean B hB hT params _ hv bad hbad, h0]
    rw [meanHash_mean]
    congr 1
    funext k
    rw [meanHash_mean]
  have h2 : ballotsGame B D H₀ poll (withShares B params bad poll.totals counts guess) =
      mean fun k : F => mean fun shares : Fin c → F =>
      meanHash D H₀ fun H => mean fun tapes : Fin n → Fin d → F =>
        simulatedProofs B params (cs k shares) bad poll.totals guess H
          (poll.ballots (B.withHash H) (keyOf B (k • B.gen)) tapes) := by
    rw [ballotsGame]
    congr 1
    funext k
    simp only [keypair_generate_tape hT]
    rw [← meanHash_mean]
    congr 1
    funext H
    rw [mean_comm]
    congr 1
    funext tapes
    exact withShares_eq B hT params bad hi (keyOf B (k • B.gen)) k (keyOf_element hT _) poll.totals _ guess H _
      (hdh k H tapes) (cs k) (hcs k)
  rw [h1, h2, ← mean_sub]
  refine (abs_mean_le _).trans ?_
  rw [← mean_const (α := F) (((1 + params.shares + params.shares * o).choose 2 : ℚ) / Fintype.card F)]
  refine mean_le_mean fun k => ?_
  rw [← mean_sub]
  refine (abs_mean_le _).trans ?_
  rw [← mean_const (α := Fin c → F) (((1 + params.shares + params.shares * o).choose 2 : ℚ) / Fintype.card F)]
  exact mean_le_mean fun shares => hsim k (cs k shares)

include hB hT in
theorem threshold_simulation [Finite E] (hv : ValidParams params) {c : ℕ} (hc : params.threshold = c + 1)
    {n : ℕ} {kind : ChoiceKind} (ho : o ≠ 0) (bad : Fin c → ℕ) (hi : Function.Injective (badNodes F bad))
    (hbad : ∀ a, bad a < params.shares)
    (D : Finset (List Entry)) (hD : (proofData_finite B params o).toFinset ⊆ D) (H₀ : List Entry → F)
    (votes : PublicKey E → Fin n → Fin o → Bool)
    (hone : ∀ K v, kind = .single → (List.ofFn (votes K v)).count true = 1)
    (guess : (List Entry → F) → ThresholdView F E (EncryptedChoice F E kind) n o c params.shares → ℚ)
    (hg : ∀ H view, 0 ≤ guess H view ∧ guess H view ≤ 1) :
    |thresholdGame B D H₀ params bad (choicePoll kind votes) guess -
      choicesGame B D H₀ kind votes (withShares B params bad optionTotal (fun K => voteCounts (votes K)) guess)| ≤
    ((1 + params.shares + params.shares * o).choose 2 : ℚ) / Fintype.card F := by
  refine shared_simulation B hB hT params hv hc bad hi hbad D H₀ (choicePoll kind votes)
    (fun K => voteCounts (votes K)) guess ?_ ?_
  · intro k H tapes
    obtain ⟨ss, hss⟩ := honest_eq_made B hB hT ho (keyOf B (k • B.gen)) k (keyOf_element hT _)
      (votes (keyOf B (k • B.gen))) (hone _) H tapes
    have hss : (choicePoll kind votes).ballots (B.withHash H) (keyOf B (k • B.gen)) tapes =
      madeBallots B (keyOf B (k • B.gen)) (votes (keyOf B (k • B.gen))) ss := hss
    rw [hss]
    exact totals_dh B hB (keyOf B (k • B.gen)) k (keyOf_element hT _) (votes (keyOf B (k • B.gen))) ss
  · intro k cs
    exact proofs_simulation B hB hT params cs hv.1 ho bad (keyOf B (k • B.gen)) k (keyOf_element hT _) D hD H₀ _
      (hone _) guess hg

end

end ElasticElgamal
