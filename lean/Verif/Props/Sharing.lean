import Verif.Lemmas.Sharing
import Verif.Toy

/-!
# Secret sharing: recombination and secrecy (C39, C40, C41)
-/

set_option autoImplicit false
set_option linter.unusedSectionVars false

namespace ElasticElgamal

open Spec Toy

variable {F E : Type} [Field F] [AddCommGroup E] [Module F E] [DecidableEq F]

/-! ## C39 -/

/-- C39: if the first `threshold` shares have distinct indexes and lie on a polynomial of degree less than
`threshold`, `combine_shares` returns its value at zero. The order of the shares and any further shares
do not matter. -/
theorem C39_combine (p : ℕ) [CharP F p] (params : Params) (hn : params.shares < p) (cs : List E)
    (hcs : cs.length ≤ params.threshold) (shares : List (ℕ × VerifiableDecryption E))
    (hlen : params.threshold ≤ shares.length)
    (hidx : ∀ s ∈ shares.take params.threshold, s.1 < params.shares)
    (hd : ((shares.take params.threshold).map Prod.fst).Nodup)
    (hs : ∀ s ∈ shares.take params.threshold, s.2.dhElement = polyAt ((s.1 : F) + 1) cs) :
    params.combineShares F shares = some (some ⟨polyAt (0 : F) cs⟩) := by
  have hl : (shares.take params.threshold).length = params.threshold := by simpa using hlen
  generalize ht : shares.take params.threshold = taken at *
  have h1 : ∀ i ∈ taken.map Prod.fst, i < params.shares := by
    intro i hi
    obtain ⟨s, hs', rfl⟩ := List.mem_map.mp hi
    exact hidx s hs'
  have h2 : taken.map (fun (s : ℕ × VerifiableDecryption E) => s.2.dhElement) =
      (taken.map Prod.fst).map fun i => polyAt (point F i) cs := by
    rw [List.map_map]
    exact List.map_congr_left hs
  have h3 : ((taken.map Prod.fst).all fun index => index < params.shares) = true := by
    rw [List.all_eq_true]
    exact fun i hi => decide_eq_true (h1 i hi)
  have h4 := recombine (F := F) p hn h1 hd cs (by rw [List.length_map]; omega)
  rw [← h2] at h4
  simp only [Params.combineShares, ht, List.length_map, hl, lt_irrefl, if_false, h3, guard, if_true,
    lagrangeCoefficients_eq p hn h1, Option.pure_def, Option.bind_eq_bind, Option.bind_some, h4,
    VerifiableDecryption.fromElement]

/-- C39: threshold decryption. `secrets` is the shared polynomial, the ciphertext encrypts `m` to its
constant term, and each used share is `[x_i]R` for the value `x_i` of the polynomial. -/
theorem C39_combine_decrypts (B : Backend F E) (p : ℕ) [CharP F p] (params : Params)
    (hn : params.shares < p) (secret : F) (rest : List F) (hcs : rest.length + 1 ≤ params.threshold)
    (ct : Ciphertext E) (m : E) (hct : Encrypts B secret ct m)
    (shares : List (ℕ × VerifiableDecryption E)) (hlen : params.threshold ≤ shares.length)
    (hidx : ∀ s ∈ shares.take params.threshold, s.1 < params.shares)
    (hd : ((shares.take params.threshold).map Prod.fst).Nodup)
    (hs : ∀ s ∈ shares.take params.threshold,
      s.2.dhElement = polyAt ((s.1 : F) + 1) (secret :: rest) • ct.random) :
    ∃ d, params.combineShares F shares = some (some d) ∧ d.decryptToElement ct = m := by
  refine ⟨_, C39_combine p params hn ((secret :: rest).map (· • ct.random)) (by simpa using hcs) shares hlen
    hidx hd fun s hs' => by rw [polyAt_smul]; exact hs s hs', ?_⟩
  obtain ⟨r, h1, h2⟩ := hct
  simp only [VerifiableDecryption.decryptToElement, polyAt_smul, polyAt, zero_smul, add_zero, h1, h2]
  module

/-- The sharing `7 + 5x` of the secret 7, and the ciphertext `(3, 30)` of 9. -/
example : ∃ d, (⟨3, 2⟩ : Params).combineShares (ZMod 101) [(2, ⟨(22 * 3 : ZMod 101)⟩), (0, ⟨12 * 3⟩)] = some (some d) ∧
    d.decryptToElement ⟨3, 30⟩ = 9 :=
  C39_combine_decrypts B101 101 ⟨3, 2⟩ (by decide) 7 [5] (by decide) ⟨3, 30⟩ 9 ⟨3, by decide, by decide⟩
    [(2, ⟨22 * 3⟩), (0, ⟨12 * 3⟩)] (by decide) (by decide) (by decide) (by decide)

/-- A 2-of-3 sharing of `7` (`7 + 5x`): shares of the third and first participant, then junk. -/
example : (⟨3, 2⟩ : Params).combineShares (ZMod 101) [(2, ⟨(22 : ZMod 101)⟩), (0, ⟨12⟩), (9, ⟨1⟩)] =
    some (some ⟨7⟩) := by
  refine C39_combine (F := ZMod 101) 101 ⟨3, 2⟩ (by norm_num) [(7 : ZMod 101), 5] (by simp) _ (by simp) ?_ (by decide) ?_
  · decide
  · decide

/-! ## C40 -/

/-- C40: `None` is returned exactly if there are too few shares. -/
theorem C40_insufficient (params : Params)
    (shares : List (ℕ × VerifiableDecryption E)) :
    params.combineShares F shares = some none ↔ shares.length < params.threshold := by
  have h1 : ((shares.take params.threshold).map fun (_, share) => share.dhElement).length < params.threshold ↔
      shares.length < params.threshold := by
    rw [List.length_map, List.length_take]; omega
  simp only [Params.combineShares]
  constructor
  · intro h
    by_contra hlt
    rw [if_neg (by rwa [h1])] at h
    simp [Option.bind_eq_some_iff] at h
  · intro h
    rw [if_pos (by rwa [h1])]

/-- C40: a panic happens exactly if there are enough shares and one of the first `threshold` of them has an
index out of bounds. In particular, zero is never inverted, even for repeated indexes. -/
theorem C40_panics (p : ℕ) [CharP F p] (params : Params) (hn : params.shares < p)
    (shares : List (ℕ × VerifiableDecryption E)) :
    params.combineShares F shares = none ↔
      params.threshold ≤ shares.length ∧ ∃ s ∈ shares.take params.threshold, params.shares ≤ s.1 := by
  have h1 : ((shares.take params.threshold).map fun (_, share) => share.dhElement).length < params.threshold ↔
      shares.length < params.threshold := by
    rw [List.length_map, List.length_take]; omega
  simp only [Params.combineShares]
  by_cases hlt : shares.length < params.threshold
  · rw [if_pos (by rwa [h1])]
    simp only [reduceCtorEq, false_iff, not_and]
    omega
  · rw [if_neg (by rwa [h1])]
    by_cases hall : ∀ i ∈ (shares.take params.threshold).map Prod.fst, i < params.shares
    · have h3 : (((shares.take params.threshold).map Prod.fst).all fun index => index < params.shares) =
          true := by
        rw [List.all_eq_true]
        exact fun i hi => decide_eq_true (hall i hi)
      simp only [h3, guard, if_true, lagrangeCoefficients_eq p hn hall, Option.pure_def, Option.bind_eq_bind,
        Option.bind_some, reduceCtorEq, false_iff, not_and, not_exists]
      intro _ s hs
      exact not_le.mpr (hall _ (List.mem_map_of_mem hs))
    · have h3 : ¬ (((shares.take params.threshold).map Prod.fst).all fun index => index < params.shares) =
          true := by
        rw [List.all_eq_true]
        exact fun h => hall fun i hi => of_decide_eq_true (h i hi)
      simp only [guard, if_neg h3, Option.bind_eq_bind]
      refine ⟨fun _ => ⟨by omega, ?_⟩, fun _ => rfl⟩
      push Not at hall
      obtain ⟨i, hi, hle⟩ := hall
      obtain ⟨s, hs, rfl⟩ := List.mem_map.mp hi
      exact ⟨s, hs, hle⟩

/-- C40, finding: shares past the first `threshold` are not looked at, so their indexes are not checked,
contrary to the documented panic condition. -/
theorem C40_ignores_rest (params : Params) (shares shares' : List (ℕ × VerifiableDecryption E))
    (hlen : shares.length = params.threshold) :
    params.combineShares F (shares ++ shares') = params.combineShares F shares := by
  simp only [Params.combineShares, ← hlen, List.take_left, List.take_length]

example : (⟨3, 2⟩ : Params).combineShares (ZMod 101) ([(2, ⟨(22 : ZMod 101)⟩), (0, ⟨12⟩)] ++ [(9, ⟨1⟩)]) =
    (⟨3, 2⟩ : Params).combineShares (ZMod 101) [(2, ⟨22⟩), (0, ⟨12⟩)] :=
  C40_ignores_rest ⟨3, 2⟩ [(2, ⟨22⟩), (0, ⟨12⟩)] [(9, ⟨1⟩)] rfl

/-- C40, finding: repeated indexes are accepted: `threshold` copies of one share `D` produce
`[threshold]D`. -/
theorem C40_duplicates (p : ℕ) [CharP F p] (params : Params) (hn : params.shares < p) (i : ℕ)
    (hi : i < params.shares) (D : E) :
    params.combineShares F (List.replicate params.threshold (i, ⟨D⟩)) =
      some (some ⟨(params.threshold : F) • D⟩) := by
  have h1 : ∀ j ∈ List.replicate params.threshold i, j < params.shares := by
    intro j hj; rw [List.eq_of_mem_replicate hj]; exact hi
  have h3 : ((List.replicate params.threshold i).all fun index => index < params.shares) = true := by
    rw [List.all_eq_true]
    exact fun i hi => decide_eq_true (h1 i hi)
  have h0 : point F i ≠ 0 := point_ne_zero p hn hi
  have hsum : ∀ (n : ℕ) (c : F), Backend.multiMul (List.replicate n c) (List.replicate n D) =
      ((n : F) * c) • D := by
    intro n c
    induction n with
    | zero => simp
    | succ n ih => rw [List.replicate_succ, List.replicate_succ, Backend.multiMul_cons, ih]; push_cast; module
  simp only [Params.combineShares, List.take_replicate, min_self, List.map_replicate, List.length_replicate,
    lt_irrefl, if_false, h3, guard, if_true, lagrangeCoefficients_eq p hn h1, Option.pure_def,
    Option.bind_eq_bind, Option.bind_some, VerifiableDecryption.fromElement, lagrangeDenominator_eq,
    List.prod_replicate, hsum, smul_smul]
  congr 4
  field_simp

/-- The secret of the sharing `7 + 5x` is not restored from two copies of its first share `12`. -/
example : (⟨3, 2⟩ : Params).combineShares (ZMod 101) [(0, ⟨(12 : ZMod 101)⟩), (0, ⟨12⟩)] =
    some (some ⟨24⟩) ∧ (24 : ZMod 101) ≠ 7 := by
  refine ⟨?_, by decide⟩
  have := C40_duplicates (F := ZMod 101) 101 ⟨3, 2⟩ (by norm_num) 0 (by norm_num) (12 : ZMod 101)
  exact this.trans (by decide)

example : (⟨3, 2⟩ : Params).combineShares (ZMod 101) [(2, ⟨(22 : ZMod 101)⟩), (3, ⟨12⟩)] = none ∧
    (⟨3, 2⟩ : Params).combineShares (ZMod 101) [(3, ⟨(22 : ZMod 101)⟩)] = some none := by
  refine ⟨(C40_panics 101 _ (by norm_num) _).mpr ⟨by simp, (3, ⟨12⟩), by simp, by norm_num⟩,
    (C40_insufficient _ _).mpr (by simp)⟩

/-- C40: `Params::new` panics exactly for parameters that are not valid. -/
theorem C40_params_new (shares threshold : ℕ) :
    (Params.new shares threshold = some ⟨shares, threshold⟩ ∧ ValidParams ⟨shares, threshold⟩) ∨
    (Params.new shares threshold = none ∧ ¬ ValidParams ⟨shares, threshold⟩) := by
  by_cases h : 0 < threshold ∧ threshold ≤ shares
  · left
    have : 0 < shares := by omega
    simp [Params.new, guard, ValidParams, h, this]
  · right
    refine ⟨?_, h⟩
    unfold Params.new
    by_cases h0 : 0 < shares
    · simp [guard, h]
    · simp [guard, h0]

example : Params.new 3 2 = some ⟨3, 2⟩ ∧ Params.new 2 3 = none :=
  ⟨((C40_params_new 3 2).resolve_right fun h => absurd h.1 (by decide)).1,
    ((C40_params_new 2 3).resolve_left fun h => absurd h.1 (by decide)).1⟩

/-! ## C41 -/

theorem consistent_iff {t : ℕ} (ht : 0 < t) {secret : F} {indexes : List ℕ} {share : ℕ → F} {cs : List F} :
    cs ∈ ConsistentSecrets t secret indexes share ↔ cs.length = t ∧ ∀ k ∈ nodes indexes,
      polyAt ((k : ℕ) : F) cs = if k = 0 then secret else share (k - 1) := by
  constructor
  · rintro ⟨h1, h2, h3⟩
    refine ⟨h1, fun k hk => ?_⟩
    rcases mem_nodes.mp hk with rfl | ⟨i, hi, rfl⟩
    · obtain ⟨c, cs', rfl⟩ := List.exists_cons_of_ne_nil (List.ne_nil_of_length_pos (h1 ▸ ht))
      simp only [List.head?_cons, Option.some.injEq] at h2
      simp [polyAt, h2]
    · simp [h3 i hi]
  · rintro ⟨h1, h2⟩
    refine ⟨h1, ?_, fun i hi => ?_⟩
    · obtain ⟨c, cs', rfl⟩ := List.exists_cons_of_ne_nil (List.ne_nil_of_length_pos (h1 ▸ ht))
      have := h2 0 (mem_nodes.mpr (.inl rfl))
      simpa [polyAt] using this
    · have := h2 (i + 1) (mem_nodes.mpr (.inr ⟨i, hi, rfl⟩))
      simpa using this

theorem polyAt_append_zero (x : F) (cs : List E) (n : ℕ) : polyAt x (cs ++ List.replicate n 0) = polyAt x cs := by
  induction cs with
  | nil => induction n with
    | zero => rfl
    | succ n ih => simp only [List.nil_append] at ih ⊢; simp [List.replicate_succ, polyAt, ih]
  | cons c cs ih => simp [polyAt, ih]

/-- C41: fewer than `t` shares are consistent with every secret. -/
theorem C41_any_secret (p : ℕ) [CharP F p] (params : Params) (hn : params.shares < p) (indexes : List ℕ)
    (hi : ∀ i ∈ indexes, i < params.shares) (hd : indexes.Nodup) (hlen : indexes.length < params.threshold)
    (secret : F) (share : ℕ → F) :
    (ConsistentSecrets params.threshold secret indexes share).Nonempty := by
  have hv := nodes_injOn (F := F) p hn hi
  have hl := nodes_card hd
  let y : ℕ → F := fun k => if k = 0 then secret else share (k - 1)
  refine ⟨interpolating (nodes indexes) (Nat.cast : ℕ → F) y ++
    List.replicate (params.threshold - (nodes indexes).card) 0, (consistent_iff (by omega)).mpr ⟨?_, ?_⟩⟩
  · rw [List.length_append, interpolating_length, List.length_replicate]; omega
  · intro k hk
    rw [polyAt_append_zero, interpolating_node hv y hk]

example : (ConsistentSecrets (F := ZMod 101) 3 77 [4, 1] (fun i => 10 * i + 1)).Nonempty :=
  C41_any_secret 101 ⟨5, 3⟩ (by decide) [4, 1] (by decide) (by decide) (by decide) 77 _

/-- C41: with `t - 1` shares there is exactly one polynomial for each secret. -/
theorem C41_unique (p : ℕ) [CharP F p] (params : Params) (hn : params.shares < p) (indexes : List ℕ)
    (hi : ∀ i ∈ indexes, i < params.shares) (hd : indexes.Nodup)
    (hlen : indexes.length + 1 = params.threshold) (secret : F) (share : ℕ → F) :
    ∃! cs, cs ∈ ConsistentSecrets params.threshold secret indexes share := by
  obtain ⟨cs, hcs⟩ := C41_any_secret p params hn indexes hi hd (by omega) secret share
  refine ⟨cs, hcs, fun cs' hcs' => ?_⟩
  have hv := nodes_injOn (F := F) p hn hi
  have hl := nodes_card hd
  obtain ⟨h1, h2⟩ := (consistent_iff (by omega)).mp hcs
  obtain ⟨h1', h2'⟩ := (consistent_iff (by omega)).mp hcs'
  rw [eq_interpolating hv cs (by omega), eq_interpolating hv cs' (by omega)]
  exact interpolating_congr fun k hk => by rw [h2 k hk, h2' k hk]

/-- C41, perfect secrecy: for any two secrets the numbers of polynomials consistent with fewer than `t`
shares are equal, so uniformly random polynomials give shares with a distribution independent of the
secret. -/
theorem C41_equally_likely (p : ℕ) [CharP F p] (params : Params) (hn : params.shares < p)
    (indexes : List ℕ) (hi : ∀ i ∈ indexes, i < params.shares) (hd : indexes.Nodup)
    (hlen : indexes.length < params.threshold) (secret secret' : F) (share share' : ℕ → F) :
    Nonempty (ConsistentSecrets params.threshold secret indexes share ≃
      ConsistentSecrets params.threshold secret' indexes share') := by
  obtain ⟨ds, hds⟩ := C41_any_secret p params hn indexes hi hd hlen (secret' - secret)
    fun i => share' i - share i
  have ht : 0 < params.threshold := by omega
  obtain ⟨hl, hval⟩ := (consistent_iff ht).mp hds
  have hneg : ∀ (x : F) (l : List F), polyAt x (l.map Neg.neg) = - polyAt x l := by
    intro x l
    induction l with
    | nil => simp [polyAt]
    | cons a l ih => simp only [List.map_cons, polyAt, ih, smul_eq_mul]; ring
  have canc : ∀ (a b : List F), a.length = b.length →
      List.zipWith (· + ·) (List.zipWith (· + ·) a b) (b.map Neg.neg) = a ∧
      List.zipWith (· + ·) (List.zipWith (· + ·) a (b.map Neg.neg)) b = a := by
    intro a
    induction a with
    | nil => intro b h; cases b <;> simp_all
    | cons x a ih =>
      intro b h
      cases b with
      | nil => simp at h
      | cons y b =>
        obtain ⟨h1, h2⟩ := ih b (by simpa using h)
        simp [h1, h2]
  refine ⟨⟨fun cs => ⟨List.zipWith (· + ·) cs.1 ds, ?_⟩,
    fun cs => ⟨List.zipWith (· + ·) cs.1 (ds.map Neg.neg), ?_⟩, fun cs => ?_, fun cs => ?_⟩⟩
  · obtain ⟨h1, h2⟩ := (consistent_iff ht).mp cs.2
    refine (consistent_iff ht).mpr ⟨by simp [h1, hl], fun k hk => ?_⟩
    rw [polyAt_zipWith_add _ _ _ (by omega), h2 k hk, hval k hk]
    split <;> ring
  · obtain ⟨h1, h2⟩ := (consistent_iff ht).mp cs.2
    refine (consistent_iff ht).mpr ⟨by simp [h1, hl], fun k hk => ?_⟩
    rw [polyAt_zipWith_add _ _ _ (by simp [h1, hl]), hneg, h2 k hk, hval k hk]
    split <;> ring
  · exact Subtype.ext (canc _ _ (by rw [((consistent_iff ht).mp cs.2).1, hl])).1
  · exact Subtype.ext (canc _ _ (by rw [((consistent_iff ht).mp cs.2).1, hl])).2

/-- C41 for the code: the shares handed out by any dealer with the given secrets are the values the
statements above are about. -/
theorem C41_dealer_shares (dealer : Dealer F E) (secret : F) (indexes : List ℕ) (share : ℕ → F)
    (hi : ∀ i ∈ indexes, i < dealer.params.shares)
    (hl : dealer.polynomial.length = dealer.params.threshold) :
    ((dealer.polynomial.map (·.secret)).head? = some secret ∧
      ∀ i ∈ indexes, dealer.secretShareForParticipant i = some (share i)) ↔
    dealer.polynomial.map (·.secret) ∈ ConsistentSecrets dealer.params.threshold secret indexes share := by
  constructor
  · rintro ⟨h1, h2⟩
    refine ⟨by simpa using hl, h1, fun i hi' => ?_⟩
    have := h2 i hi'
    rw [Dealer.share_eq, if_pos (hi i hi')] at this
    exact Option.some.inj this
  · rintro ⟨-, h1, h2⟩
    refine ⟨h1, fun i hi' => ?_⟩
    rw [Dealer.share_eq, if_pos (hi i hi'), ← h2 i hi']
    rfl

/-- A dealer with the polynomial `7 + 5x`, whose second share is 17. -/
example : [7, 5] ∈ ConsistentSecrets (F := ZMod 101) 2 7 [1] (fun _ => 17) :=
  (C41_dealer_shares (E := ZMod 101) ⟨⟨3, 2⟩, [⟨7, ⟨[7], 7⟩⟩, ⟨5, ⟨[5], 5⟩⟩], ⟨3, [1, 2]⟩⟩ 7 [1] (fun _ => 17)
    (by decide) rfl).mp (by decide)

/-- C41: the public polynomial gives a coalition of `t - 1` participants nothing beyond the shared public
key: it is a fixed function of that key and of their own shares. -/
theorem C41_simulate (B : Backend F E) (p : ℕ) [CharP F p] (params : Params) (hn : params.shares < p)
    (indexes : List ℕ) (hi : ∀ i ∈ indexes, i < params.shares) (hd : indexes.Nodup)
    (hlen : indexes.length + 1 = params.threshold) :
    ∃ sim : E → (ℕ → F) → List E, ∀ (dealer : Dealer F E) (share : ℕ → F) (key : E),
      dealer.params = params → dealer.polynomial.length = params.threshold →
      (∀ kp ∈ dealer.polynomial, kp.publicKey.element = kp.secret • B.gen) →
      (∀ i ∈ indexes, dealer.secretShareForParticipant i = some (share i)) →
      dealer.publicInfo.1.head? = some key →
      dealer.publicInfo.1 = sim key share := by
  refine ⟨fun key share => interpolating (nodes indexes) (Nat.cast : ℕ → F)
    fun k => if k = 0 then key else share (k - 1) • B.gen, ?_⟩
  intro dealer share key hp hl hk hs hkey
  have hv := nodes_injOn (F := F) p hn hi
  have hc := nodes_card hd
  have hpub : dealer.publicInfo.1 = (dealer.polynomial.map (·.secret)).map (· • B.gen) := by
    rw [List.map_map]
    exact List.map_congr_left hk
  have hlp : dealer.publicInfo.1.length = params.threshold := by simpa [Dealer.publicInfo] using hl
  refine (eq_interpolating hv dealer.publicInfo.1 (by omega)).trans (interpolating_congr fun k hk' => ?_)
  rcases mem_nodes.mp hk' with rfl | ⟨i, hi', rfl⟩
  · obtain ⟨c, cs, h⟩ := List.exists_cons_of_ne_nil (List.ne_nil_of_length_pos (by omega : 0 < dealer.publicInfo.1.length))
    rw [h, List.head?_cons, Option.some.injEq] at hkey
    simp [h, polyAt, hkey]
  · have := hs i hi'
    rw [Dealer.share_eq, if_pos (hp ▸ hi i hi')] at this
    rw [hpub, polyAt_smul, if_neg (Nat.succ_ne_zero i), Nat.add_sub_cancel, ← Option.some.inj this]
    simp [point]

/-- The public polynomial `[7]G, [5]G` is computed from the public key and the second share. -/
example : ∃ sim : ZMod 101 → (ℕ → ZMod 101) → List (ZMod 101), sim 7 (fun _ => 17) = [7, 5] := by
  obtain ⟨sim, h⟩ := C41_simulate B101 101 ⟨3, 2⟩ (by decide) [1] (by decide) (by decide) (by decide)
  exact ⟨sim, (h ⟨⟨3, 2⟩, [⟨7, ⟨[7], 7⟩⟩, ⟨5, ⟨[5], 5⟩⟩], ⟨3, [1, 2]⟩⟩ (fun _ => 17) 7 rfl rfl
    (by decide) (by decide) (by decide)).symm⟩

/-- A 3-of-5 dealer, two of whose shares are given. -/
example : ∃! cs, cs ∈ ConsistentSecrets (F := ZMod 101) 3 77 [4, 1] (fun i => 10 * i + 1) :=
  C41_unique 101 ⟨5, 3⟩ (by norm_num) [4, 1] (by decide) (by decide) rfl 77 _

example : Nonempty (ConsistentSecrets (F := ZMod 101) 3 77 [4] (fun i => 10 * i + 1) ≃
    ConsistentSecrets (F := ZMod 101) 3 5 [4] (fun i => 10 * i + 1)) :=
  C41_equally_likely 101 ⟨5, 3⟩ (by norm_num) [4] (by decide) (by decide) (by decide) 77 5 _ _

end ElasticElgamal
