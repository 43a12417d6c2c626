import Verif.Spec.Examples
import Verif.Props.Election
import Verif.Props.Range

/-!
# Lemmas about the example programs
-/

set_option autoImplicit false
set_option linter.unusedSectionVars false

namespace ElasticElgamal.Examples

open Spec

variable {F E : Type} [Field F] [AddCommGroup E] [Module F E] [DecidableEq F] [DecidableEq E]

/-! ## Talliers -/

/-- The talliers of a key set. -/
structure Talliers (B : Backend F E) (params : Params) (ks : PublicKeySet E) (talliers : List (ActiveParticipant F E)) :
    Prop where
  same : ks.params = params
  positive : 0 < params.threshold
  keys : ∃ cs : List E, KeySetFor B ks cs
  length : talliers.length = params.shares
  active : ∀ i tallier, talliers[i]? = some tallier → ∃ s : F, ActiveParticipant.new B ks i s = some (.ok tallier)

theorem initializeTalliers_spec {B : Backend F E} {args : Args} {rng rng' : B.Rng} {ks : PublicKeySet E}
    {talliers : List (ActiveParticipant F E)}
    (h : initializeTalliers B args rng = some ((ks, talliers), rng')) : Talliers B args.talliers ks talliers := by
  simp only [initializeTalliers, Option.bind_eq_bind, Option.bind_eq_some_iff, Prod.exists] at h
  obtain ⟨dealer, r1, hd, r, hr, h⟩ := h
  obtain ⟨ks', rfl, hp, hks⟩ := C42_dealer_accepted B _ _ _ _ hd _ hr
  simp only [Option.bind_eq_some_iff, Option.pure_def, Option.some.injEq, Prod.mk.injEq] at h
  obtain ⟨l, hl, ⟨rfl, rfl⟩, rfl⟩ := h
  rw [mapM_option_eq_some] at hl
  have hlen : l.length = args.talliers.shares := by simpa using hl.length_eq.symm
  refine ⟨hp, ?_, ⟨_, hks⟩, hlen, fun i tallier hi => ?_⟩
  · by_contra h0
    have hz : args.talliers.threshold = 0 := by omega
    have he : dealer.publicInfo.1 = [] := by
      have := (C42_dealer B _ _ _ _ hd).2.1
      rw [hz] at this
      simp [Dealer.publicInfo, List.length_eq_zero_iff.mp this]
    simp only [PublicKeySet.new, he, PublicPolynomial.valueAtZero, Option.bind_eq_bind, Option.bind_eq_some_iff] at hr
    obtain ⟨r', -, h⟩ := hr
    split at h
    · simp at h
    · simp at h
  · obtain ⟨hi', rfl⟩ := List.getElem?_eq_some_iff.mp hi
    have := List.Forall₂.get hl (i := i) (by simp; omega) hi'
    simp only [List.get_eq_getElem, List.getElem_range, Option.bind_eq_some_iff] at this
    obtain ⟨s, -, r, hr', h⟩ := this
    split at h
    · cases h
    · cases h
      exact ⟨s, hr'⟩

theorem initializeTalliers_total {B : Backend F E} (hB : B.Lawful) (hT : B.TotalSer) {args : Args}
    (hv : ValidParams args.talliers) (rng : B.Rng) : ∃ out, initializeTalliers B args rng = some out := by
  obtain ⟨⟨dealer, r1⟩, hd⟩ := C42_dealer_total B hT args.talliers rng
  obtain ⟨r, hr⟩ := C50_key_set_new_total B hT args.talliers hv dealer.publicInfo.1 dealer.publicInfo.2
  obtain ⟨ks, rfl, hp, hks⟩ := C42_dealer_accepted B _ _ _ _ hd _ hr
  obtain ⟨l, hl⟩ : ∃ l, (List.range args.talliers.shares).mapM (fun i => do
      match ← ActiveParticipant.new B ks i (← dealer.secretShareForParticipant i) with
      | .error _ => none
      | .ok tallier => some tallier) = some l := by
    refine mapM_option_exists fun i hi => ?_
    obtain ⟨s, h1, h2, -⟩ := C42_share_accepted B hB _ _ _ _ hd ks hr i (List.mem_range.mp hi)
    exact ⟨⟨ks, i, s⟩, by simp [h1, h2]⟩
  refine ⟨((ks, l), r1), ?_⟩
  simp only [initializeTalliers, hd, Option.bind_eq_bind, Option.bind_some, hr]
  exact congrArg (fun o => o.bind fun l => some ((ks, l), r1)) hl

/-! ## Tallying -/

theorem decryptionShares_indexes {B : Backend F E} {ks : PublicKeySet E} {talliers : List (ActiveParticipant F E)}
    {ct : Ciphertext E} (js : List ℕ) {rng rng' : B.Rng} {shares : List (ℕ × VerifiableDecryption E)}
    (h : decryptionShares B ks talliers ct js rng = some (shares, rng')) : shares.map Prod.fst = js := by
  induction js generalizing rng shares with
  | nil => simp only [decryptionShares, Option.some.injEq, Prod.mk.injEq] at h; rw [← h.1]; rfl
  | cons j js ih =>
    simp only [decryptionShares, Option.bind_eq_bind, Option.bind_eq_some_iff, Prod.exists] at h
    obtain ⟨tallier, -, share, proof, r1, -, bytes, -, cand, -, r, -, h⟩ := h
    split at h
    · cases h
    · simp only [Option.bind_eq_some_iff, Option.pure_def, Option.some.injEq, Prod.mk.injEq, Prod.exists] at h
      obtain ⟨rest, r2, hrest, rfl, rfl⟩ := h
      simp [ih hrest]

theorem decryptionShares_total {B : Backend F E} (hB : B.Lawful) (hT : B.TotalSer) {params : Params}
    {ks : PublicKeySet E} {talliers : List (ActiveParticipant F E)} (ht : Talliers B params ks talliers)
    (ct : Ciphertext E) (js : List ℕ) (hjs : ∀ j ∈ js, j < talliers.length) (rng : B.Rng) :
    ∃ shares rng', decryptionShares B ks talliers ct js rng = some (shares, rng') ∧
      ∀ c ∈ shares, ∃ s part proof r r', ActiveParticipant.new B ks c.1 s = some (.ok part) ∧
        part.decryptShare B ct r = some ((c.2, proof), r') := by
  induction js generalizing rng with
  | nil => exact ⟨[], rng, rfl, by simp⟩
  | cons j js ih =>
    have hj := hjs j (by simp)
    have hget := List.getElem?_eq_getElem hj
    obtain ⟨s, hs⟩ := ht.active j _ hget
    obtain ⟨⟨⟨share, proof⟩, r1⟩, hd⟩ := C44_share_total B hT ks j s _ hs ct rng
    obtain ⟨bytes, hb⟩ := hT share.dhElement
    have hver := (C44_share_complete B ks j s _ hs ct rng r1 share proof hd).2
    obtain ⟨rest, r2, hrest, hall⟩ := ih (fun j' hj' => hjs j' (by simp [hj'])) r1
    refine ⟨(j, share) :: rest, r2, ?_, ?_⟩
    · have hc : CandidateDecryption.fromBytes B bytes = some (.ofVerifiable share) := by
        simp [CandidateDecryption.fromBytes, hB.serElem_length _ _ hb, hB.deElem_serElem _ _ hb,
          CandidateDecryption.ofVerifiable]
      simp [decryptionShares, hget, hd, VerifiableDecryption.toBytes, hb, hc, hver, hrest]
    · intro c hc
      rcases List.mem_cons.mp hc with rfl | hc
      · exact ⟨s, _, proof, rng, r1, hs, hd⟩
      · exact hall c hc

theorem tallyLoop_total {B : Backend F E} {ext : RandExt B.Rng} (hB : B.Lawful) (hT : B.TotalSer)
    (hu : Backend.U64Inj F) (hR : LawfulRand ext) (p : ℕ) [CharP F p] {params : Params} (hv : ValidParams params)
    (hn : params.shares < p)
    {ks : PublicKeySet E} {talliers : List (ActiveParticipant F E)} (ht : Talliers B params ks talliers)
    (k : F) (hk : ks.sharedKey.element = k • B.gen) (N : ℕ) (hN : N < 2 ^ 64) (table : DiscreteLogTable)
    (htab : DiscreteLogTable.new B (List.range (N + 1)) = some table) (items : List (Ciphertext E × ℕ))
    (hi : ∀ x ∈ items, SecretKey.decryptToElement k x.1 = (x.2 : F) • B.gen ∧ x.2 ≤ N) (rng : B.Rng) :
    ∃ rng', tallyLoop B ext ks talliers table items rng = some (items.map Prod.snd, rng') := by
  induction items generalizing rng with
  | nil => exact ⟨rng, rfl⟩
  | cons x items ih =>
    obtain ⟨ct, expected⟩ := x
    obtain ⟨cs, hks⟩ := ht.keys
    have hx := hi (ct, expected) (by simp)
    obtain ⟨shares, r1, hs, hall⟩ := decryptionShares_total hB hT ht ct
      (ext.sample talliers.length ks.params.threshold rng).1 (hR.sample_lt _ _ _)
      (ext.sample talliers.length ks.params.threshold rng).2
    have hidx := decryptionShares_indexes _ hs
    have hlen : ks.params.threshold ≤ shares.length := by
      have := congrArg List.length hidx
      rw [List.length_map, hR.sample_length, ht.length, ht.same, Nat.min_eq_left hv.2] at this
      rw [this, ht.same]
    obtain ⟨d, hd1, hd2⟩ := decrypt_total B hB hu p ks cs hks (ht.same ▸ hv) (ht.same ▸ hn) k hk ct expected N
      hx.1 hN hx.2 table htab shares hall (by rw [hidx]; exact hR.sample_nodup _ _ _) hlen
    obtain ⟨r2, hrest⟩ := ih (fun y hy => hi y (by simp [hy])) r1
    exact ⟨r2, by simp [tallyLoop, hs, hd1, hd2, hrest, guard]⟩

theorem tallyLoop_spec {B : Backend F E} {ext : RandExt B.Rng} {ks : PublicKeySet E}
    {talliers : List (ActiveParticipant F E)} {table : DiscreteLogTable} (items : List (Ciphertext E × ℕ))
    {rng rng' : B.Rng} {out : List ℕ} (h : tallyLoop B ext ks talliers table items rng = some (out, rng')) :
    out = items.map Prod.snd := by
  induction items generalizing rng out with
  | nil => simp only [tallyLoop, Option.some.injEq, Prod.mk.injEq] at h; exact h.1.symm
  | cons x items ih =>
    obtain ⟨ct, expected⟩ := x
    simp only [tallyLoop, Option.bind_eq_bind, Option.bind_eq_some_iff, Prod.exists, guard_eq_some', Option.pure_def,
      Option.some.injEq, Prod.mk.injEq] at h
    obtain ⟨shares, r1, -, c, -, d, -, v, -, x, -, -, rfl, rest, r2, hrest, rfl, rfl⟩ := h
    rw [ih hrest]
    rfl

theorem tallyLoop_threshold {B : Backend F E} {ext : RandExt B.Rng} (hR : LawfulRand ext) {ks : PublicKeySet E}
    {talliers : List (ActiveParticipant F E)} {table : DiscreteLogTable} (items : List (Ciphertext E × ℕ))
    (hne : items ≠ []) {rng : B.Rng} {out : List ℕ × B.Rng}
    (h : tallyLoop B ext ks talliers table items rng = some out) : ks.params.threshold ≤ talliers.length := by
  obtain ⟨x, items, rfl⟩ := List.exists_cons_of_ne_nil hne
  obtain ⟨ct, expected⟩ := x
  simp only [tallyLoop, Option.bind_eq_bind, Option.bind_eq_some_iff, Prod.exists] at h
  obtain ⟨shares, r1, hs, c, hc, d, hd, -⟩ := h
  subst hd
  have hidx := congrArg List.length (decryptionShares_indexes _ hs)
  rw [List.length_map, hR.sample_length] at hidx
  by_contra hlt
  rw [Params.combineShares] at hc
  rw [if_pos (by simp only [List.length_map, List.length_take]; omega)] at hc
  cases hc

/-! ## Voters -/

/-- The ciphertexts decrypt to the numbers. -/
def Decrypts (B : Backend F E) (k : F) (cts : List (Ciphertext E)) (xs : List ℕ) : Prop :=
  List.Forall₂ (fun ct (x : ℕ) => SecretKey.decryptToElement k ct = (x : F) • B.gen) cts xs

theorem decrypts_zero (B : Backend F E) (k : F) (n : ℕ) :
    Decrypts B k (List.replicate n Ciphertext.zero) (List.replicate n 0) := by
  induction n with
  | zero => exact .nil
  | succ n ih =>
    rw [List.replicate_succ, List.replicate_succ]
    exact .cons (by simp [SecretKey.decryptToElement, Ciphertext.zero]) ih

theorem decrypts_add {B : Backend F E} {k : F} {totals votes : List (Ciphertext E)} {xs ys : List ℕ}
    (h : Decrypts B k totals xs) (h' : Decrypts B k votes ys) (hl : xs.length = ys.length) :
    Decrypts B k (addCiphertexts totals votes) (List.zipWith (· + ·) xs ys) := by
  induction h generalizing votes ys with
  | nil => cases h' <;> exact .nil
  | cons hx h ih =>
    cases h' with
    | nil => simp at hl
    | cons hy h' =>
      refine .cons ?_ (ih h' (by simpa using hl))
      simp only [SecretKey.decryptToElement, Ciphertext.add] at *
      push_cast
      rw [add_smul, ← hx, ← hy]
      module

/-- The numbers of occurrences. -/
def counts (n : ℕ) (choices : List ℕ) : List ℕ := (List.range n).map fun j => choices.count j

theorem zipWith_counts {n choice : ℕ} (choices : List ℕ) (expected : List ℕ) (hl : expected.length = n)
    (v : ℕ) (hv : expected[choice]? = some v) :
    List.zipWith (· + ·) (expected.set choice (v + 1)) (counts n choices) =
      List.zipWith (· + ·) expected (counts n (choice :: choices)) := by
  apply List.ext_getElem?
  intro j
  by_cases hj : j < n
  · rw [List.getElem?_zipWith, List.getElem?_zipWith, List.getElem?_set]
    simp only [counts, List.getElem?_map, List.getElem?_range hj, Option.map_some, List.count_cons]
    by_cases e : choice = j
    · subst e
      rw [if_pos rfl, if_pos (by omega), hv]
      simp only [beq_self_eq_true, if_true, Option.some.injEq]
      omega
    · rw [if_neg e, List.getElem?_eq_getElem (by omega)]
      simp [e]
  · rw [List.getElem?_eq_none (by simp [counts, hl]; omega), List.getElem?_eq_none (by simp [counts, hl]; omega)]

theorem zipWith_counts_nil {n : ℕ} {xs : List ℕ} (hl : xs.length = n) :
    List.zipWith (· + ·) xs (counts n []) = xs := by
  subst hl
  apply List.ext_getElem
  · simp [counts]
  · intro i h1 h2
    simp [counts]

theorem voteLoop_spec {B : Backend F E} {ext : RandExt B.Rng} (hR : LawfulRand ext)
    {params : ChoiceParams E .single} {k : F} (hK : params.receiver.element = k • B.gen) (n : ℕ)
    (hpar : params.optionsCount = n) (voters : ℕ) {expected expected' choices : List ℕ}
    {encrypted encrypted' : List (Ciphertext E)} {rng rng' : B.Rng} (hl : expected.length = n)
    (hb : ∀ x ∈ expected, x + voters < 2 ^ 64) (hd : Decrypts B k encrypted expected)
    (h : voteLoop B ext params n voters expected encrypted rng = some ((choices, expected', encrypted'), rng')) :
    choices.length = voters ∧ (∀ c ∈ choices, c < n) ∧
      expected' = List.zipWith (· + ·) expected (counts n choices) ∧ Decrypts B k encrypted' expected' := by
  induction voters generalizing expected encrypted rng choices with
  | zero =>
    simp only [voteLoop, Option.some.injEq, Prod.mk.injEq] at h
    obtain ⟨⟨rfl, rfl, rfl⟩, rfl⟩ := h
    refine ⟨rfl, by simp, ?_, hd⟩
    exact (zipWith_counts_nil hl).symm
  | succ voters ih =>
    simp only [voteLoop, RandExt.randomRange?, Option.bind_eq_bind, Option.bind_eq_some_iff, Prod.exists,
      guard_eq_some', Option.pure_def, Option.some.injEq] at h
    obtain ⟨choice, r1, ⟨-, hn, hch⟩, v, hv, v', hv', ballot, r2, hb', res, hver, h⟩ := h
    have hc : choice < n := by have := hR.range_lt n rng hn; rw [hch] at this; exact this
    obtain ⟨-, h1, h2, h3⟩ := C32_single_complete B params k hK choice _ _ ballot hb'
    rw [hver] at h1
    cases h1
    simp only [Option.bind_eq_some_iff, Option.some.injEq, Prod.mk.injEq, Prod.exists] at h
    obtain ⟨choices', e', c', r3, hrest, ⟨rfl, rfl, rfl⟩, rfl⟩ := h
    have hvb := hb v (List.mem_of_getElem? hv)
    rw [addU64_of_lt (by omega)] at hv'
    cases hv'
    have hset : expected.set choice (v + 1) =
        List.zipWith (· + ·) expected ((List.range n).map fun j => if j = choice then 1 else 0) := by
      have := zipWith_counts (n := n) (choice := choice) [] expected hl v hv
      have h0 : List.zipWith (· + ·) (expected.set choice (v + 1)) (counts n []) = expected.set choice (v + 1) :=
        zipWith_counts_nil (by simp [hl])
      rw [← h0, this]
      congr 1
      refine List.map_congr_left fun j _ => ?_
      rw [List.count_cons, List.count_nil, Nat.zero_add]
      by_cases e : choice = j <;> simp [e, eq_comm (a := j)]
    have hdec : Decrypts B k (addCiphertexts encrypted ballot.choices) (expected.set choice (v + 1)) := by
      rw [hset]
      refine decrypts_add hd ?_ (by simp [hl])
      rw [Decrypts, List.forall₂_iff_get]
      refine ⟨by simp [h2, hpar], fun j hj _ => ?_⟩
      have := h3 j _ (List.getElem?_eq_getElem hj)
      simp only [List.get_eq_getElem, List.getElem_map, List.getElem_range, this]
      split <;> simp
    obtain ⟨i1, i2, i3, i4⟩ := ih (expected := expected.set choice (v + 1)) (by simp [hl]) (by
      intro x hx
      rcases List.mem_or_eq_of_mem_set hx with hx | rfl
      · have := hb x hx; omega
      · omega) hdec hrest
    refine ⟨by simp [i1], ?_, ?_, i4⟩
    · intro c hc'
      rcases List.mem_cons.mp hc' with rfl | hc'
      · exact hc
      · exact i2 c hc'
    · rw [i3, zipWith_counts _ _ hl _ hv]

theorem voteLoop_total {B : Backend F E} {ext : RandExt B.Rng} (hB : B.Lawful) (hT : B.TotalSer) (hR : LawfulRand ext)
    {params : ChoiceParams E .single} (n : ℕ) (hn : 0 < n)
    (hpar : params.optionsCount = n) (voters : ℕ) {expected : List ℕ}
    {encrypted : List (Ciphertext E)} {rng : B.Rng} (hl : expected.length = n)
    (hb : ∀ x ∈ expected, x + voters < 2 ^ 64) :
    ∃ out, voteLoop B ext params n voters expected encrypted rng = some out := by
  obtain ⟨k, hK⟩ := hB.gen_spans params.receiver.element
  induction voters generalizing expected encrypted rng with
  | zero => exact ⟨_, rfl⟩
  | succ voters ih =>
    have hc := hR.range_lt n rng hn
    obtain ⟨⟨ballot, r2⟩, hbal⟩ := (C32_single_total B hT params (ext.randomRange n rng).1
      (ext.randomRange n rng).2).mpr (by rw [hpar]; exact hc)
    obtain ⟨-, h1, -, -⟩ := C32_single_complete B params k hK _ _ _ ballot hbal
    have hget := List.getElem?_eq_getElem (show (ext.randomRange n rng).1 < expected.length by omega)
    have hvb := hb _ (List.mem_of_getElem? hget)
    have hadd : addU64 B.debug (expected[(ext.randomRange n rng).1]'(by omega)) 1 =
      some (expected[(ext.randomRange n rng).1]'(by omega) + 1) := addU64_of_lt (by omega)
    obtain ⟨out, hout⟩ := ih (expected := expected.set (ext.randomRange n rng).1
      (expected[(ext.randomRange n rng).1]'(by omega) + 1))
      (encrypted := addCiphertexts encrypted ballot.choices) (rng := r2) (by simp [hl]) (by
      intro x hx
      rcases List.mem_or_eq_of_mem_set hx with hx | rfl
      · have := hb x hx; omega
      · omega)
    exact ⟨(((ext.randomRange n rng).1 :: out.1.1, out.1.2.1, out.1.2.2), out.2), by
      simp only [voteLoop, RandExt.randomRange?, guard, hn, if_true, Option.pure_def, Option.bind_eq_bind,
        Option.bind_some, hget, hadd, hbal, h1, hout]⟩

/-! ## Casting votes -/

theorem cost_set {votes : List ℕ} {i v : ℕ} (h : votes[i]? = some v) :
    cost (votes.set i (v + 1)) = cost votes + 2 * v + 1 := by
  induction votes generalizing i with
  | nil => simp at h
  | cons x votes ih =>
    cases i with
    | zero =>
      simp only [List.getElem?_cons_zero, Option.some.injEq] at h
      subst h
      simp only [cost, List.set_cons_zero, List.map_cons, List.sum_cons]
      ring
    | succ i =>
      have := ih (i := i) (by simpa using h)
      simp only [cost, List.set_cons_succ, List.map_cons, List.sum_cons] at *
      omega

theorem le_cost {votes : List ℕ} {v : ℕ} (h : v ∈ votes) : v * v ≤ cost votes :=
  List.single_le_sum (by simp) _ (List.mem_map_of_mem h)

theorem castLoop_total {R : Type} {ext : RandExt R} (hR : LawfulRand ext) (dbg : Bool) (creditAmount : ℕ)
    (hc : creditAmount ≤ 2 ^ 64 - 2 ^ 33) (fuel : ℕ) {votes : List ℕ} (hne : votes ≠ [])
    (hcost : cost votes ≤ creditAmount) (hf : creditAmount < cost votes + fuel) (rng : R) :
    ∃ votes' rng', castLoop dbg ext creditAmount fuel votes rng = some (votes', rng') ∧
      votes'.length = votes.length ∧ cost votes' ≤ creditAmount ∧
      ∀ fuel' ≥ fuel, castLoop dbg ext creditAmount fuel' votes rng = some (votes', rng') := by
  induction fuel generalizing votes rng with
  | zero => omega
  | succ fuel ih =>
    cases hm : (ext.randomBool rng).1 with
    | false =>
      have hex : ∀ f, castLoop dbg ext creditAmount (f + 1) votes rng = some (votes, (ext.randomBool rng).2) := by
        intro f; simp [castLoop, hm]
      exact ⟨votes, _, hex _, rfl, hcost, fun f hf => by
        obtain ⟨f, rfl⟩ : ∃ g, f = g + 1 := ⟨f - 1, by omega⟩
        exact hex f⟩
    | true =>
      obtain ⟨i, r1⟩ : ℕ × R := ext.chooseIndex votes.length (ext.randomBool rng).2
      set pick := ext.chooseIndex votes.length (ext.randomBool rng).2 with hpick
      have hi : pick.1 < votes.length := hR.choose_lt _ _ (List.length_pos_iff.mpr hne)
      have hget := List.getElem?_eq_getElem hi
      have hv2 := le_cost (List.mem_of_getElem? hget)
      set v := votes[pick.1] with hv
      have hv32 : v < 2 ^ 32 := by
        by_contra hge
        have := Nat.mul_le_mul (not_lt.mp hge) (not_lt.mp hge)
        omega
      have hset := cost_set hget
      have hlt : cost (votes.set pick.1 (v + 1)) < 2 ^ 64 := by omega
      have hadd : addU64 dbg v 1 = some (v + 1) := addU64_of_lt (by omega)
      have hstep : ∀ f, castLoop dbg ext creditAmount (f + 1) votes rng =
          if cost (votes.set pick.1 (v + 1)) > creditAmount then some (votes, pick.2)
          else castLoop dbg ext creditAmount f (votes.set pick.1 (v + 1)) pick.2 := by
        intro f
        simp only [castLoop, hm, if_true, guard, ne_eq, hne, not_false_eq_true, Option.pure_def, Option.bind_eq_bind,
          Option.bind_some, ← hpick, hget, hadd, QuadraticVotingBallot.creditOf_eq hlt]
      by_cases hgt : cost (votes.set pick.1 (v + 1)) > creditAmount
      · exact ⟨votes, pick.2, by rw [hstep, if_pos hgt], rfl, hcost, fun f hf => by
          obtain ⟨f, rfl⟩ : ∃ g, f = g + 1 := ⟨f - 1, by omega⟩
          rw [hstep, if_pos hgt]⟩
      · obtain ⟨votes', r', h1, h2, h3, h4⟩ := ih (votes := votes.set pick.1 (v + 1)) (by
          intro h0
          have := congrArg List.length h0
          simp only [List.length_set, List.length_nil] at this
          omega) (by omega) (by omega) pick.2
        refine ⟨votes', r', by rw [hstep, if_neg hgt, h1], by simpa using h2, h3, fun f hf => ?_⟩
        obtain ⟨f, rfl⟩ : ∃ g, f = g + 1 := ⟨f - 1, by omega⟩
        rw [hstep, if_neg hgt]
        exact h4 f (by omega)

theorem cost_zero (n : ℕ) : cost (List.replicate n 0) = 0 := by simp [cost]

theorem castVotes_total {R : Type} {ext : RandExt R} (hR : LawfulRand ext) (dbg : Bool) (n creditAmount : ℕ)
    (hn : 0 < n) (hc : creditAmount ≤ 2 ^ 64 - 2 ^ 33) (rng : R) :
    ∃ votes rng', castVotes dbg ext n creditAmount rng = some (votes, rng') ∧ votes.length = n ∧
      cost votes ≤ creditAmount := by
  obtain ⟨votes, r, h1, h2, h3, -⟩ := castLoop_total hR dbg creditAmount hc (creditAmount + 1)
    (votes := List.replicate n 0) (by
      intro h0
      have := congrArg List.length h0
      simp at this
      omega) (by rw [cost_zero]; omega) (by omega) rng
  exact ⟨votes, r, h1, by simpa using h2, h3⟩

theorem addTotals_eq {dbg : Bool} {xs ys : List ℕ} (hl : xs.length = ys.length)
    (h : ∀ x ∈ List.zipWith (· + ·) xs ys, x < 2 ^ 64) : addTotals dbg xs ys = some (List.zipWith (· + ·) xs ys) := by
  induction xs generalizing ys with
  | nil => cases ys <;> simp [addTotals]
  | cons x xs ih =>
    cases ys with
    | nil => simp at hl
    | cons y ys =>
      simp only [List.zipWith_cons_cons, List.mem_cons, forall_eq_or_imp] at h
      simp [addTotals, addU64_of_lt h.1, ih (by simpa using hl) h.2]

/-- The sums of the columns. -/
def columnSums (n : ℕ) (cast : List (List ℕ)) : List ℕ :=
  (List.range n).map fun j => (cast.map fun votes => (votes[j]?).getD 0).sum

theorem zipWith_columnSums {n : ℕ} {expected votes : List ℕ} (cast : List (List ℕ)) (hl : expected.length = n)
    (hl' : votes.length = n) :
    List.zipWith (· + ·) (List.zipWith (· + ·) expected votes) (columnSums n cast) =
      List.zipWith (· + ·) expected (columnSums n (votes :: cast)) := by
  apply List.ext_getElem
  · simp [columnSums, hl, hl']
  · intro i h1 h2
    simp only [columnSums, List.length_zipWith, List.length_map, List.length_range] at h1
    have : votes[i]? = some votes[i] := List.getElem?_eq_getElem (by omega)
    simp [columnSums, this, Nat.add_assoc]

theorem zipWith_columnSums_nil {n : ℕ} {xs : List ℕ} (hl : xs.length = n) :
    List.zipWith (· + ·) xs (columnSums n []) = xs := by
  subst hl
  apply List.ext_getElem
  · simp [columnSums]
  · intro i h1 h2
    simp [columnSums]

theorem mem_zipWith_le {xs ys : List ℕ} {a b : ℕ} (hx : ∀ x ∈ xs, x ≤ a) (hy : ∀ y ∈ ys, y ≤ b) :
    ∀ z ∈ List.zipWith (· + ·) xs ys, z ≤ a + b := by
  intro z hz
  obtain ⟨i, hi, rfl⟩ := List.mem_iff_getElem.mp hz
  simp only [List.length_zipWith] at hi
  simp only [List.getElem_zipWith]
  exact Nat.add_le_add (hx _ (List.getElem_mem _)) (hy _ (List.getElem_mem _))

theorem quadraticVoteLoop_total {B : Backend F E} {ext : RandExt B.Rng} (hT : B.TotalSer)
    (hR : LawfulRand ext) {params : QuadraticVotingParams E} {k : F} (hK : params.receiver.element = k • B.gen)
    (n c m : ℕ) (hn : 0 < n) (hc : c ≤ 2 ^ 64 - 2 ^ 33) (hm : c < (m + 1) * (m + 1))
    (hp : VotingParamsFor B params n c m) (voters a : ℕ) {expected : List ℕ}
    {encrypted : List (Ciphertext E)} {rng : B.Rng} (hl : expected.length = n) (hle : ∀ x ∈ expected, x ≤ a)
    (hb : a + voters * m < 2 ^ 64) (hd : Decrypts B k encrypted expected) :
    ∃ cast expected' encrypted' rng', quadraticVoteLoop B ext params n c voters expected encrypted rng =
        some ((cast, expected', encrypted'), rng') ∧
      cast.length = voters ∧ (∀ votes ∈ cast, votes.length = n ∧ cost votes ≤ c) ∧
      expected' = List.zipWith (· + ·) expected (columnSums n cast) ∧ Decrypts B k encrypted' expected' ∧
      ∀ x ∈ expected', x ≤ a + voters * m := by
  induction voters generalizing expected encrypted rng a with
  | zero => exact ⟨[], expected, encrypted, rng, rfl, rfl, by simp, (zipWith_columnSums_nil hl).symm, hd, by simpa⟩
  | succ voters ih =>
    obtain ⟨votes, r1, h1, h2, h3⟩ := castVotes_total hR B.debug n c hn hc rng
    have hvm : ∀ v ∈ votes, v ≤ m := by
      intro v hv
      by_contra hgt
      have h4 := le_cost hv
      have h5 := Nat.mul_le_mul (show m + 1 ≤ v by omega) (show m + 1 ≤ v by omega)
      omega
    have hbnd := mem_zipWith_le hle hvm
    have hnext : a + m + voters * m < 2 ^ 64 := by
      rw [Nat.add_mul] at hb; omega
    have hadd : addTotals B.debug expected votes = some (List.zipWith (· + ·) expected votes) :=
      addTotals_eq (by omega) fun x hx => by have := hbnd x hx; omega
    obtain ⟨⟨ballot, r2⟩, hbal⟩ := (C36_ballot_total B hT params n c m hp votes (.inr (by omega)) r1).mpr
      ⟨h2, hvm, h3⟩
    obtain ⟨i1, i2, -⟩ := C36_ballot_complete B params n c m hp k hK votes (.inr (by omega)) _ _ ballot hbal
    have hdec : Decrypts B k (ballot.votes.map (·.ciphertext)) votes := by
      have hlen := congrArg List.length i2
      simp only [List.length_map] at hlen
      rw [Decrypts, List.forall₂_iff_get]
      refine ⟨by simpa using hlen, fun j hj hj' => ?_⟩
      have := congrArg (·[j]?) i2
      simp only [List.length_map] at hj
      simp only [List.getElem?_map, List.getElem?_eq_getElem hj, List.getElem?_eq_getElem hj', Option.map_some,
        Option.some.injEq] at this
      simpa using this
    obtain ⟨cast, e', c', r3, j1, j2, j3, j4, j5, j6⟩ := ih (a + m) (expected := List.zipWith (· + ·) expected votes)
      (encrypted := addCiphertexts encrypted (ballot.votes.map (·.ciphertext))) (rng := r2)
      (by simp [hl, h2]) hbnd hnext (decrypts_add hd hdec (by omega))
    refine ⟨votes :: cast, e', c', r3, by simp [quadraticVoteLoop, h1, hadd, hbal, i1, j1], by simp [j2], ?_, ?_, j5, ?_⟩
    · intro v hv
      rcases List.mem_cons.mp hv with rfl | hv
      · exact ⟨h2, h3⟩
      · exact j3 v hv
    · rw [j4, zipWith_columnSums _ hl h2]
    · intro x hx
      have := j6 x hx
      rw [Nat.add_mul]; omega

/-! ## Ranges -/

theorem rangeLoop_total {B : Backend F E} {ext : RandExt B.Rng} (hB : B.Lawful) (hT : B.TotalSer)
    (hu : Backend.U64Inj F) (hR : LawfulRand ext) {receiver : Keypair F E}
    (hk : receiver.publicKey.element = receiver.secret • B.gen) {range : PreparedRange E}
    (hr : PreparedFor B upperBound range) {table : DiscreteLogTable}
    (ht : DiscreteLogTable.new B (List.range upperBound) = some table) (n : ℕ) (rng : B.Rng) :
    ∃ values rng', rangeLoop B ext receiver range table n rng = some (values, rng') ∧ values.length = n ∧
      ∀ v ∈ values, v.1 < upperBound ∧ v.2 = v.1 := by
  induction n generalizing rng with
  | zero => exact ⟨[], rng, rfl, rfl, by simp⟩
  | succ n ih =>
    have h0 : 0 < upperBound := by decide
    have hlt := hR.range_lt upperBound rng h0
    obtain ⟨⟨⟨ct, proof⟩, r1⟩, he⟩ := (C30_encrypt_range_total B hT upperBound range hr receiver.publicKey
      (ext.randomRange upperBound rng).1 (ext.randomRange upperBound rng).2).mpr hlt
    obtain ⟨h1, h2⟩ := C30_encrypt_range B upperBound range hr receiver.publicKey receiver.secret hk _ _ _ ct proof he
    have h3 : SecretKey.decrypt B receiver.secret ct table = some (some (ext.randomRange upperBound rng).1) := by
      rw [SecretKey.decrypt, h2]
      refine C02_get_complete B hB hu _ (fun v hv => ?_) table ht _ (List.mem_range.mpr hlt)
      rw [List.mem_range, upperBound] at hv
      omega
    obtain ⟨values, r2, h4, h5, h6⟩ := ih r1
    refine ⟨((ext.randomRange upperBound rng).1, (ext.randomRange upperBound rng).1) :: values, r2, ?_, by simp [h5], ?_⟩
    · simp [rangeLoop, RandExt.randomRange?, h0, he, h1, h3, h4, guard]
    · intro v hv
      rcases List.mem_cons.mp hv with rfl | hv
      · exact ⟨hlt, rfl⟩
      · exact h6 v hv

/-! ## Arguments -/

theorem splitOnce_eq {s a b : List Char} : splitOnce s = some (a, b) ↔ s = a ++ '/' :: b ∧ '/' ∉ a := by
  induction s generalizing a with
  | nil => simp [splitOnce]
  | cons c s ih =>
    rw [splitOnce]
    split
    · rename_i hc
      subst hc
      cases a with
      | nil => simp [eq_comm]
      | cons d a =>
        simp only [Option.some.injEq, Prod.mk.injEq, List.nil_eq, reduceCtorEq, false_and, List.cons_append,
          List.cons.injEq, List.mem_cons, not_or, false_iff, not_and]
        rintro ⟨rfl, -⟩ h
        exact absurd rfl h
    · rename_i hc
      simp only [Option.bind_eq_bind, Option.bind_eq_some_iff, Option.pure_def, Option.some.injEq, Prod.mk.injEq,
        Prod.exists]
      cases a with
      | nil => simp [hc]
      | cons d a =>
        constructor
        · rintro ⟨a', b', h, h', rfl⟩
          cases h'
          obtain ⟨rfl, h2⟩ := ih.mp h
          exact ⟨rfl, by simp [h2, Ne.symm hc]⟩
        · rintro ⟨h, h2⟩
          simp only [List.cons_append, List.cons.injEq] at h
          obtain ⟨rfl, h⟩ := h
          exact ⟨a, b, ih.mpr ⟨h, fun hm => h2 (by simp [hm])⟩, rfl, rfl⟩

theorem parseDigits_eq {acc v : ℕ} {s : List Char} (hacc : acc < 2 ^ 64) : parseDigits acc s = some v ↔
    (∀ c ∈ s, c.isDigit = true) ∧ v = s.foldl (fun a c => 10 * a + (c.toNat - 48)) acc ∧ v < 2 ^ 64 := by
  induction s generalizing acc with
  | nil =>
    simp only [parseDigits, Option.some.injEq, List.not_mem_nil, false_implies, implies_true, List.foldl_nil, true_and]
    constructor
    · rintro rfl; exact ⟨rfl, hacc⟩
    · rintro ⟨rfl, -⟩; rfl
  | cons c s ih =>
    have hmono : ∀ (l : List Char) (a : ℕ), a ≤ l.foldl (fun a c => 10 * a + (c.toNat - 48)) a := by
      intro l
      induction l with
      | nil => intro a; exact le_refl _
      | cons d l ih' => intro a; exact le_trans (by show a ≤ 10 * a + _; omega) (ih' _)
    have e48 : '0'.toNat = 48 := rfl
    simp only [parseDigits, Option.bind_eq_bind, Option.bind_eq_some_iff, guard_eq_some', e48, exists_const,
      List.mem_cons, forall_eq_or_imp, List.foldl_cons, Nat.mul_comm acc 10]
    constructor
    · rintro ⟨h1, h2, h3⟩
      have := (ih h2).mp h3
      exact ⟨⟨h1, this.1⟩, this.2⟩
    · rintro ⟨⟨h1, h2⟩, h3, h4⟩
      have h5 : 10 * acc + (c.toNat - 48) < 2 ^ 64 := lt_of_le_of_lt (hmono s _) (h3 ▸ h4)
      exact ⟨h1, h5, (ih h5).mpr ⟨h2, h3, h4⟩⟩

theorem parseUsize_eq {s : List Char} {v : ℕ} : parseUsize s = some v ↔ Numeral s v := by
  have hplus : ('+' : Char).isDigit = false := by decide
  have h0 : (0 : ℕ) < 2 ^ 64 := by norm_num
  unfold parseUsize
  split
  · simp [Numeral]
  · rename_i rest
    simp only [Option.bind_eq_bind, Option.bind_eq_some_iff, guard_eq_some', parseDigits_eq h0, Numeral]
    constructor
    · rintro ⟨-, h1, h2⟩
      exact ⟨rest, .inr rfl, h1, h2⟩
    · rintro ⟨ds, rfl | h, h1, h2, h3⟩
      · have := h2 '+' (by simp)
        rw [hplus] at this
        cases this
      · cases h
        exact ⟨(), h1, h2, h3⟩
  · rename_i h1 h2
    rw [parseDigits_eq h0, Numeral]
    constructor
    · rintro h
      exact ⟨s, .inl rfl, fun h' => h1 h', h⟩
    · rintro ⟨ds, rfl | rfl, h3, h4⟩
      · exact h4
      · exact absurd rfl (h2 ds)

end ElasticElgamal.Examples
