import Verif.Lemmas.Sharing
import Verif.Lemmas.Possession
import Verif.Lemmas.LogEq
import Verif.Toy

/-!
# Lemmas on key sets
-/

set_option autoImplicit false
set_option linter.unusedSectionVars false

namespace ElasticElgamal

open Spec Polynomial

variable {F E : Type} [Field F] [AddCommGroup E] [Module F E] [DecidableEq F] [DecidableEq E]

theorem fromElement_isKey {B : Backend F E} {e : E} {pk : PublicKey E} :
    PublicKey.fromElement B e = some pk ↔ IsKey B pk e := by
  simp only [PublicKey.fromElement, Option.bind_eq_bind, Option.bind_eq_some_iff, Option.pure_def,
    Option.some.injEq, IsKey]
  constructor
  · rintro ⟨b, hb, rfl⟩
    exact ⟨rfl, hb⟩
  · rintro ⟨rfl, h⟩
    exact ⟨_, h, rfl⟩

theorem multiMul_powers (x : F) (cs : List E) (val : F) :
    Backend.multiMul (PublicPolynomial.powers x cs.length val) cs = val • polyAt x cs := by
  induction cs generalizing val with
  | nil => simp [polyAt, PublicPolynomial.powers]
  | cons c cs ih =>
    rw [List.length_cons, PublicPolynomial.powers, Backend.multiMul_cons, ih, polyAt]
    module

theorem valueAt_eq (x : F) (cs : List E) : PublicPolynomial.valueAt cs x = polyAt x cs := by
  rw [PublicPolynomial.valueAt, multiMul_powers, one_smul]

theorem valueAt_point (i : ℕ) (cs : List E) :
    PublicPolynomial.valueAt cs (((i + 1 : ℕ)) : F) = polyAt ((i : F) + 1) cs := by
  rw [valueAt_eq]; push_cast; rfl

/-- Keys computed for every participant. -/
theorem mapM_keys {B : Backend F E} {n : ℕ} {f : ℕ → E} {keys : List (PublicKey E)}
    (h : (List.range n).mapM (fun idx => PublicKey.fromElement B (f idx)) = some keys) :
    keys.length = n ∧ ∀ i pk, keys[i]? = some pk → IsKey B pk (f i) := by
  have h1 := mapM_option_eq_some.mp h
  have hl : keys.length = n := by simpa using h1.length_eq.symm
  refine ⟨hl, fun i pk hi => ?_⟩
  obtain ⟨hi', rfl⟩ := List.getElem?_eq_some_iff.mp hi
  have h2 := (List.forall₂_iff_get.mp h1).2 i (by simpa [hl] using hi') hi'
  simpa using fromElement_isKey.mp h2

/-! ## Restoring key sets -/

theorem range_toFinset (t : ℕ) : (List.range t).toFinset = Finset.range t := by ext; simp

/-- The coefficients of `from_participants` for the key of participant `x` are the values of the Lagrange
basis. -/
theorem key_coefficient (p : ℕ) [CharP F p] {t x i : ℕ} (hx : x < p) (htx : t ≤ x) (hi : i < t) :
    (if t % 2 = 0 then -((List.range t).map fun idx => ((x - idx : ℕ) : F)).prod
      else ((List.range t).map fun idx => ((x - idx : ℕ) : F)).prod) *
      ((lagrangeDenominator (F := F) (List.range t) i)⁻¹ * ((i + 1 : ℕ) : F) * ((x - i : ℕ) : F)⁻¹) =
    (Lagrange.basis (Finset.range t) (point F) i).eval (point F x) := by
  have hi' : i ∈ Finset.range t := Finset.mem_range.mpr hi
  have hsub : ∀ j, j < t → ((x - j : ℕ) : F) = point F x - point F j := by
    intro j hj
    rw [Nat.cast_sub (by omega)]; simp only [point]; ring
  have h0 : point F i ≠ 0 := point_ne_zero p hx (by omega)
  have hxi : point F x - point F i ≠ 0 := by
    rw [← hsub i hi, Ne, CharP.cast_eq_zero_iff F p]
    exact fun h => absurd (Nat.le_of_dvd (by omega) h) (by omega)
  have hP : ((List.range t).map fun idx => ((x - idx : ℕ) : F)).prod =
      (point F x - point F i) * ∏ j ∈ (Finset.range t).erase i, (point F x - point F j) := by
    rw [← List.prod_toFinset _ List.nodup_range, range_toFinset, ← Finset.mul_prod_erase _ _ hi', hsub i hi]
    congr 1
    exact Finset.prod_congr rfl fun j hj => hsub j (Finset.mem_range.mp (Finset.mem_of_mem_erase hj))
  have hD : lagrangeDenominator (F := F) (List.range t) i =
      point F i * ∏ j ∈ (Finset.range t).erase i, (point F j - point F i) := by
    rw [lagrangeDenominator_eq, ← List.prod_toFinset _ List.nodup_range, range_toFinset,
      ← Finset.mul_prod_erase _ (fun j => if j = i then _ else _) hi', if_pos rfl]
    congr 1
    exact Finset.prod_congr rfl fun j hj => if_neg (Finset.mem_erase.mp hj).1
  have hB : (Lagrange.basis (Finset.range t) (point F) i).eval (point F x) =
      (-1) ^ (t - 1) * ((∏ j ∈ (Finset.range t).erase i, (point F j - point F i))⁻¹ *
        ∏ j ∈ (Finset.range t).erase i, (point F x - point F j)) := by
    rw [Lagrange.basis, eval_prod, ← Finset.prod_inv_distrib, ← Finset.prod_mul_distrib]
    have hcard : ((Finset.range t).erase i).card = t - 1 := by
      rw [Finset.card_erase_of_mem hi', Finset.card_range]
    rw [← hcard, ← Finset.prod_const, ← Finset.prod_mul_distrib]
    refine Finset.prod_congr rfl fun j _ => ?_
    simp only [Lagrange.basisDivisor, eval_mul, eval_C, eval_sub, eval_X]
    rw [← neg_sub (point F j) (point F i), inv_neg]
    ring
  have hsign : ((-1 : F)) ^ (t - 1) = if t % 2 = 0 then -1 else 1 := by
    split
    · rename_i he
      exact Odd.neg_one_pow (Nat.odd_iff.mpr (by omega))
    · exact Even.neg_one_pow (Nat.even_iff.mpr (by omega))
  have hpi : ((i + 1 : ℕ) : F) = point F i := by simp [point]
  rw [hP, hD, hB, hsign, hsub i hi, hpi, mul_inv]
  generalize ∏ j ∈ (Finset.range t).erase i, (point F x - point F j) = A
  generalize (∏ j ∈ (Finset.range t).erase i, (point F j - point F i))⁻¹ = C
  split <;> field_simp

variable {B : Backend F E}

/-- Interpolation of the key of participant `x` from the first keys. -/
theorem checkKeys_spec (p : ℕ) [CharP F p] (params : Params) (hn : params.shares < p)
    (elems : List E) (hel : params.threshold ≤ elems.length) (inverses : List F)
    (hinv : inverses = (List.range' 1 params.shares).map fun i : ℕ => ((i : F))⁻¹)
    (keys : List (PublicKey E)) : ∀ (x : ℕ), params.threshold ≤ x → x + keys.length ≤ params.shares →
    ∃ r, PublicKeySet.checkKeys params
        ((List.range params.threshold).map fun i =>
          (lagrangeDenominator (F := F) (List.range params.threshold) i)⁻¹) inverses
        (elems.take params.threshold) x keys = some r ∧
      (r = .ok () ∨ r = .error .MalformedParticipantKeys) ∧
      (r = .ok () ↔ ∀ j key, keys[j]? = some key → key.element =
        ∑ i ∈ Finset.range params.threshold,
          (Lagrange.basis (Finset.range params.threshold) (point F) i).eval (point F (x + j)) • elems.getD i 0) := by
  induction keys with
  | nil => intro x _ _; exact ⟨.ok (), rfl, .inl rfl, by simp⟩
  | cons key keys ih =>
    intro x hx hlen
    rw [List.length_cons] at hlen
    have hden : (((List.range params.threshold).map fun i =>
          (lagrangeDenominator (F := F) (List.range params.threshold) i)⁻¹).zipIdx.mapM fun (d : F × ℕ) =>
        inverses[x - d.2 - 1]?.bind fun inverse => some (d.1 * ((d.2 + 1 : ℕ) : F) * inverse)) =
        some ((List.range params.threshold).map fun i =>
          (lagrangeDenominator (F := F) (List.range params.threshold) i)⁻¹ * ((i + 1 : ℕ) : F) *
            ((x - i : ℕ) : F)⁻¹) := by
      have hz : ((List.range params.threshold).map fun i =>
          (lagrangeDenominator (F := F) (List.range params.threshold) i)⁻¹).zipIdx =
          (List.range params.threshold).map fun i =>
            ((lagrangeDenominator (F := F) (List.range params.threshold) i)⁻¹, i) := by
        refine List.ext_getElem (by simp) fun k h1 h2 => by simp
      rw [hz, List.mapM_map]
      refine mapM_option_pure fun i hi => ?_
      have hi := List.mem_range.mp hi
      have : inverses[x - i - 1]? = some (((x - i : ℕ) : F)⁻¹) := by
        rw [hinv, List.getElem?_map, List.getElem?_range' (by omega)]
        simp only [Option.map_some, Option.some.injEq]
        congr 2
        omega
      simp [this]
    have hval : (if params.threshold % 2 = 0 then
          -((List.range params.threshold).map fun idx => ((x - idx : ℕ) : F)).prod
          else ((List.range params.threshold).map fun idx => ((x - idx : ℕ) : F)).prod) •
        Backend.multiMul ((List.range params.threshold).map fun i =>
          (lagrangeDenominator (F := F) (List.range params.threshold) i)⁻¹ * ((i + 1 : ℕ) : F) *
            ((x - i : ℕ) : F)⁻¹) (elems.take params.threshold) =
        ∑ i ∈ Finset.range params.threshold,
          (Lagrange.basis (Finset.range params.threshold) (point F) i).eval (point F x) • elems.getD i 0 := by
      have h1 : elems.take params.threshold = (List.range params.threshold).map fun i => elems.getD i 0 := by
        refine List.ext_getElem (by simpa using hel) fun k h1 h2 => ?_
        have : k < elems.length := by simp at h1; omega
        simp [this]
      rw [h1, multiMul_map, List.smul_sum, List.map_map, ← range_toFinset,
        List.sum_toFinset _ List.nodup_range, range_toFinset]
      congr 1
      refine List.map_congr_left fun i hi => ?_
      rw [Function.comp_apply, smul_smul, key_coefficient p (by omega) hx (List.mem_range.mp hi)]
    obtain ⟨r, hr, hr1, hr2⟩ := ih (x + 1) (by omega) (by omega)
    simp only [PublicKeySet.checkKeys, hden, foldl_mul_eq_prod, one_mul, hval, Option.bind_eq_bind,
      Option.bind_some, Option.pure_def]
    by_cases he : ∑ i ∈ Finset.range params.threshold,
        (Lagrange.basis (Finset.range params.threshold) (point F) i).eval (point F x) • elems.getD i 0 = key.element
    · rw [if_neg (not_not.mpr he)]
      refine ⟨r, hr, hr1, hr2.trans ⟨fun h j k hj => ?_, fun h j k hj => ?_⟩⟩
      · cases j with
        | zero => simp only [List.getElem?_cons_zero, Option.some.injEq] at hj; subst hj; exact he.symm
        | succ j =>
          rw [List.getElem?_cons_succ] at hj
          rw [h j k hj, show x + 1 + j = x + (j + 1) by omega]
      · rw [h (j + 1) k (by rwa [List.getElem?_cons_succ]), show x + 1 + j = x + (j + 1) by omega]
    · rw [if_pos he]
      refine ⟨_, rfl, .inr rfl, ⟨fun h => by simp at h, fun h => absurd (h 0 key rfl).symm he⟩⟩

/-- Everything `from_participants` computes. -/
theorem fromParticipants_spec (p : ℕ) [CharP F p] (params : Params) (hv : ValidParams params)
    (hn : params.shares < p) (keys : List (PublicKey E)) (hl : params.shares = keys.length) :
    ∃ r : Except SharingError Unit, (r = .ok () ∨ r = .error .MalformedParticipantKeys) ∧
      (r = .ok () ↔ OnPolynomial F params.threshold (keys.map (·.element))
        (interpolating (Finset.range params.threshold) (point F) fun i => (keys.map (·.element)).getD i 0)) ∧
      PublicKeySet.fromParticipants B params keys =
        (PublicKey.fromElement B (polyAt (0 : F) (interpolating (Finset.range params.threshold) (point F)
          fun i => (keys.map (·.element)).getD i 0))).map fun sharedKey =>
          r.map fun _ => { params, sharedKey, participantKeys := keys } := by
  obtain ⟨ht, htn⟩ := hv
  set elems := keys.map (·.element) with helems
  have hel : params.threshold ≤ elems.length := by simp [helems]; omega
  have hvj : Set.InjOn (point F) (Finset.range params.threshold : Set ℕ) :=
    point_injOn p hn fun i hi => by have := Finset.mem_range.mp hi; omega
  have hlt : ∀ i ∈ List.range params.threshold, i < params.shares := fun i hi => by
    have := List.mem_range.mp hi; omega
  have hinv : Backend.invertScalars ((List.range' 1 params.shares).map fun (i : ℕ) => (i : F)) =
      some ((List.range' 1 params.shares).map fun i : ℕ => ((i : F))⁻¹) := by
    rw [invertScalars_of_ne, List.map_map]
    · rfl
    · intro x hx
      obtain ⟨i, hi, rfl⟩ := List.mem_map.mp hx
      rw [List.mem_range'] at hi
      obtain ⟨k, hk, rfl⟩ := hi
      rw [Ne, CharP.cast_eq_zero_iff F p]
      exact fun h => absurd (Nat.le_of_dvd (by omega) h) (by omega)
  obtain ⟨r, hr, hr1, hr2⟩ := checkKeys_spec (F := F) p params hn elems hel _ rfl (keys.drop params.threshold)
    params.threshold le_rfl (by simp; omega)
  have htake : elems.take params.threshold = (List.range params.threshold).map fun i => elems.getD i 0 := by
    refine List.ext_getElem (by simpa using hel) fun k h1 h2 => ?_
    have : k < elems.length := by simp at h1; omega
    simp [this]
  have hshared : ((List.range params.threshold).map (point F)).prod • Backend.multiMul
      ((List.range params.threshold).map fun i =>
        (lagrangeDenominator (F := F) (List.range params.threshold) i)⁻¹) (elems.take params.threshold) =
      polyAt (0 : F) (interpolating (Finset.range params.threshold) (point F) fun i => elems.getD i 0) := by
    have h1 := recombine (F := F) p hn hlt List.nodup_range (interpolating (Finset.range params.threshold) (point F)
      fun i => elems.getD i 0) (by rw [interpolating_length]; simp)
    rw [← h1, htake]
    congr 2
    refine List.map_congr_left fun i hi => ?_
    rw [interpolating_node hvj _ (Finset.mem_range.mpr (List.mem_range.mp hi))]
  refine ⟨r, hr1, hr2.trans ?_, ?_⟩
  · constructor
    · intro h
      refine ⟨by rw [interpolating_length, Finset.card_range], fun i e hi => ?_⟩
      change e = polyAt (point F i) _
      by_cases hit : i < params.threshold
      · rw [interpolating_node hvj _ (Finset.mem_range.mpr hit), List.getD_eq_getElem?_getD, hi, Option.getD_some]
      · obtain ⟨key, hkey, rfl⟩ := by simpa only [helems, List.getElem?_map, Option.map_eq_some_iff] using hi
        rw [interpolating_at hvj, h (i - params.threshold) key (by rw [List.getElem?_drop]; rw [← hkey]; congr 1; omega)]
        rw [show params.threshold + (i - params.threshold) = i by omega]
    · rintro ⟨-, h⟩ j key hj
      rw [List.getElem?_drop] at hj
      have := h (params.threshold + j) key.element (by rw [helems, List.getElem?_map, hj]; rfl)
      rw [this, ← interpolating_at hvj]
      rfl
  · unfold PublicKeySet.fromParticipants
    rw [if_neg (not_not.mpr hl)]
    simp only [lagrangeCoefficients_eq p hn hlt, hinv, Option.bind_eq_bind, Option.bind_some, Option.pure_def]
    rw [← helems, hshared]
    cases PublicKey.fromElement B (polyAt (0 : F) _) with
    | none => rfl
    | some sk =>
      simp only [Option.bind_some, hr, Option.map_some]
      cases r <;> rfl

theorem generateKeypairs_spec {B : Backend F E} (n : ℕ) : ∀ {rng rng' : B.Rng} {kps : List (Keypair F E)},
    Dealer.generateKeypairs B n rng = some (kps, rng') →
    kps.length = n ∧ ∀ kp ∈ kps, IsKey B kp.publicKey (kp.secret • B.gen) := by
  induction n with
  | zero => intro rng rng' kps h; simp only [Dealer.generateKeypairs, Option.some.injEq, Prod.mk.injEq] at h; simp [← h.1]
  | succ n ih =>
    intro rng rng' kps h
    simp only [Dealer.generateKeypairs, Keypair.generate, PublicKey.ofSecret, Option.bind_eq_bind,
      Option.bind_eq_some_iff, Option.pure_def, Option.some.injEq, Prod.mk.injEq, Prod.exists] at h
    obtain ⟨kp, r1, ⟨pk, hpk, rfl, rfl⟩, rest, r2, hrest, rfl, rfl⟩ := h
    obtain ⟨h1, h2⟩ := ih hrest
    refine ⟨by simp [h1], fun kp hkp => ?_⟩
    rcases List.mem_cons.mp hkp with rfl | h
    · exact fromElement_isKey.mp hpk
    · exact h2 kp h

theorem generateKeypairs_total {B : Backend F E} (hT : B.TotalSer) (n : ℕ) : ∀ rng : B.Rng,
    ∃ out, Dealer.generateKeypairs B n rng = some out := by
  induction n with
  | zero => intro rng; exact ⟨_, rfl⟩
  | succ n ih =>
    intro rng
    obtain ⟨b, hb⟩ := hT ((B.genScalar rng).1 • B.gen)
    obtain ⟨⟨kps, rng'⟩, h⟩ := ih (B.genScalar rng).2
    refine ⟨(⟨(B.genScalar rng).1, ⟨b, (B.genScalar rng).1 • B.gen⟩⟩ :: kps, rng'), ?_⟩
    simp [Dealer.generateKeypairs, Keypair.generate, SecretKey.generate, PublicKey.ofSecret,
      PublicKey.fromElement, Backend.mulGen, hb, h]

/-- Everything checked by `validate`. -/
theorem validate_spec {B : Backend F E} {params : Params} {poly : List E} {proof : ProofOfPossession F}
    {r : Except SharingError Unit} (h : PublicKeySet.validate B params poly proof = some r) :
    (poly.length ≠ params.threshold ∧ r = .error .MalformedDealerPolynomial) ∨
    (poly.length = params.threshold ∧ ∃ (keys : List (PublicKey E)) (r' : Except VerificationError Unit)
      (t' : Transcript), List.Forall₂ (fun e pk => IsKey B pk e) poly keys ∧
        proof.verify B keys (sharePolyTranscript params) = some (r', t') ∧ r = r'.mapError .InvalidDealerProof) := by
  unfold PublicKeySet.validate at h
  split at h
  · rename_i hne
    exact .inl ⟨hne, (Option.some.inj h).symm⟩
  · rename_i heq
    simp only [Option.bind_eq_bind, Option.bind_eq_some_iff, Option.pure_def, Option.some.injEq,
      Prod.exists] at h
    obtain ⟨keys, hk, r', t', hv, rfl⟩ := h
    refine .inr ⟨not_not.mp heq, keys, r', t', ?_, hv, rfl⟩
    exact (mapM_option_eq_some.mp hk).imp fun _ _ h => fromElement_isKey.mp h

theorem validate_eq {B : Backend F E} {params : Params} {poly : List E} {proof : ProofOfPossession F}
    {keys : List (PublicKey E)} {r : Except VerificationError Unit} {t' : Transcript}
    (hl : poly.length = params.threshold) (hk : List.Forall₂ (fun e pk => IsKey B pk e) poly keys)
    (hv : proof.verify B keys (sharePolyTranscript params) = some (r, t')) :
    PublicKeySet.validate B params poly proof = some (r.mapError .InvalidDealerProof) := by
  have : poly.mapM (PublicKey.fromElement B) = some keys :=
    mapM_option_eq_some.mpr (hk.imp fun _ _ h => fromElement_isKey.mpr h)
  simp [PublicKeySet.validate, hl, this, hv]

theorem OnPolynomial.unique {p : ℕ} [CharP F p] {params : Params} (hv : ValidParams params)
    (hn : params.shares < p) {keys : List E} (hl : keys.length = params.shares) {cs : List E}
    (h : OnPolynomial F params.threshold keys cs) :
    cs = interpolating (Finset.range params.threshold) (point F) fun i => keys.getD i 0 := by
  obtain ⟨h1, h2⟩ := h
  have hvj : Set.InjOn (point F) (Finset.range params.threshold : Set ℕ) :=
    point_injOn p hn fun i hi => by have := Finset.mem_range.mp hi; have := hv.2; omega
  refine (eq_interpolating hvj cs (by rw [h1, Finset.card_range])).trans (interpolating_congr fun i hi => ?_)
  have hi' : i < keys.length := by have := Finset.mem_range.mp hi; have := hv.2; omega
  rw [List.getD_eq_getElem?_getD, List.getElem?_eq_getElem hi', Option.getD_some]
  exact (h2 i _ (List.getElem?_eq_getElem hi')).symm

/-- A participant whose secret matches the key set, as checked by `ActiveParticipant::new`. -/
theorem participant_key {B : Backend F E} {ks : PublicKeySet E} {i : ℕ} {s : F}
    {part : ActiveParticipant F E} (h : ActiveParticipant.new B ks i s = some (.ok part)) :
    part = ⟨ks, i, s⟩ ∧ ∃ pk, ks.participantKeys[i]? = some pk ∧ pk.element = s • B.gen := by
  simp only [ActiveParticipant.new, Option.bind_eq_bind, Option.bind_eq_some_iff] at h
  obtain ⟨pk, hpk, h⟩ := h
  split at h
  · rename_i he
    simp only [Option.pure_def, Option.some.injEq, Except.ok.injEq] at h
    exact ⟨h.symm, pk, hpk, he.symm⟩
  · simp at h

theorem leBytes_inj : ∀ (k a b : ℕ), a < 256 ^ k → b < 256 ^ k → leBytes k a = leBytes k b → a = b := by
  intro k a b ha hb h
  rw [← Toy.leValue_leBytes k a ha, h, Toy.leValue_leBytes k b hb]

theorem shareLog_eq (ks : PublicKeySet E) (i : ℕ) :
    (ks.shareTranscript i).log = shareLog ks.params ks.sharedKey.bytes i := rfl

theorem dealerLog_eq (params : Params) : sharePolyTranscript params = ⟨dealerLog params⟩ := rfl

theorem participantLog_eq (ks : PublicKeySet E) (i : ℕ) :
    (ks.popTranscript i).log = participantLog ks.params ks.sharedKey.bytes i := rfl

theorem u64_bytes_inj {a b : ℕ} (ha : a < 2 ^ 64) (hb : b < 2 ^ 64) (h : leBytes 8 a = leBytes 8 b) : a = b :=
  leBytes_inj 8 a b (by rw [show (256 : ℕ) ^ 8 = 2 ^ 64 by norm_num]; exact ha)
    (by rw [show (256 : ℕ) ^ 8 = 2 ^ 64 by norm_num]; exact hb) h

theorem shareLog_inj {params params' : Params} {K K' : Bytes} {i i' : ℕ} (hi : i < 2 ^ 64)
    (hi' : i' < 2 ^ 64) (hn : params.shares < 2 ^ 64) (hn' : params'.shares < 2 ^ 64)
    (ht : params.threshold < 2 ^ 64) (ht' : params'.threshold < 2 ^ 64)
    (h : shareLog params K i = shareLog params' K' i') : i = i' ∧ params = params' ∧ K = K' := by
  simp only [shareLog, List.cons.injEq, Entry.msg.injEq, true_and, and_true] at h
  obtain ⟨h1, h2, h3, h4⟩ := h
  refine ⟨u64_bytes_inj hi hi' h4, ?_, h3⟩
  cases params
  cases params'
  rw [Params.mk.injEq]
  exact ⟨u64_bytes_inj hn hn' h1, u64_bytes_inj ht ht' h2⟩

theorem participantLog_inj {params params' : Params} {K K' : Bytes} {i i' : ℕ} (hi : i < 2 ^ 64)
    (hi' : i' < 2 ^ 64) (hn : params.shares < 2 ^ 64) (hn' : params'.shares < 2 ^ 64)
    (ht : params.threshold < 2 ^ 64) (ht' : params'.threshold < 2 ^ 64)
    (h : participantLog params K i = participantLog params' K' i') : i = i' ∧ params = params' ∧ K = K' := by
  simp only [participantLog, List.cons.injEq, Entry.msg.injEq, true_and, and_true] at h
  obtain ⟨h1, h2, h3, h4⟩ := h
  refine ⟨u64_bytes_inj hi hi' h4, ?_, h3⟩
  cases params
  cases params'
  rw [Params.mk.injEq]
  exact ⟨u64_bytes_inj hn hn' h1, u64_bytes_inj ht ht' h2⟩

theorem verifyShare_ok {B : Backend F E} {ks : PublicKeySet E} {i : ℕ} {pk : PublicKey E}
    (hpk : ks.participantKeys[i]? = some pk) {cand : CandidateDecryption E} {ct : Ciphertext E}
    {proof : LogEqualityProof F} {d : VerifiableDecryption E}
    (h : ks.verifyShare B cand ct i proof = some (.ok d)) :
    ∃ base, PublicKey.fromElement B ct.random = some base ∧ ∃ t',
      proof.verify B base (pk.element, d.dhElement) (ks.shareTranscript i) = some (.ok (), t') ∧
      cand.inner = d := by
  simp only [PublicKeySet.verifyShare, hpk, Option.bind_eq_bind, Option.bind_some, Option.bind_eq_some_iff,
    Option.pure_def, Option.some.injEq, Prod.exists] at h
  obtain ⟨base, hbase, r, t', hv, hr⟩ := h
  cases r with
  | error e => simp [Except.map] at hr
  | ok u =>
    simp only [Except.map, Except.ok.injEq, VerifiableDecryption.fromElement] at hr
    subst hr
    exact ⟨base, hbase, t', hv, rfl⟩

theorem shareHashInput_of_verify {B : Backend F E} {ks : PublicKeySet E} {i : ℕ} {pk : PublicKey E}
    (hpk : ks.participantKeys[i]? = some pk) {base : PublicKey E} {ct : Ciphertext E}
    (hk : IsKey B base ct.random) {D : E} {proof : LogEqualityProof F} {t' : Transcript}
    {r : Except VerificationError Unit}
    (hv : proof.verify B base (pk.element, D) (ks.shareTranscript i) = some (r, t')) :
    ∃ q, ShareHashInput B ks i ct D proof q ∧ t'.log = q := by
  obtain ⟨a, d, x, y, ha, hd, hx, hy, rfl, -⟩ := LogEqualityProof.verify_eq_some.mp hv
  rw [hk.1] at hy
  exact ⟨_, ⟨pk, base.bytes, a, d, x, y, hpk, hk.2, ha, hd, hx, hy, rfl⟩, rfl⟩

end ElasticElgamal
