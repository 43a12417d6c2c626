import Verif.Lemmas.DkgBias

/-!
# Who determines the key made by distributed key generation (C91)
-/

set_option autoImplicit false
set_option linter.unusedSectionVars false

namespace ElasticElgamal

open Spec Toy

variable {F E : Type} [Field F] [Fintype F] [AddCommGroup E] [Module F E] [DecidableEq F] [DecidableEq E]

theorem card_digest : Fintype.card Digest = 2 ^ 256 := by
  have h : Fintype.card UInt8 = 256 := by
    rw [← Fintype.card_fin 256]
    exact Fintype.card_congr ⟨UInt8.toFin, UInt8.ofFin, fun _ => rfl, fun _ => rfl⟩
  rw [Fintype.card_pi, Finset.prod_const, h, Finset.card_univ, Fintype.card_fin]
  norm_num

theorem card_digest_cast : (Fintype.card Digest : ℚ) = 2 ^ 256 := by rw [card_digest]; norm_num

theorem mean_rotate {α β γ : Type} [Fintype α] [Fintype β] [Fintype γ] (f : α → β → γ → ℚ) :
    (mean fun a => mean fun b => mean fun c => f a b c) = mean fun c => mean fun a => mean fun b => f a b c :=
  (congrArg mean (funext fun a => mean_comm fun b c => f a b c)).trans (mean_comm fun a c => mean fun b => f a b c)

/-- Only the first scalar of the honest participant matters. -/
theorem mean_first_le {t : ℕ} (ht : 0 < t) {D : Finset Bytes} {H₀ : Bytes → Digest}
    {P : (Bytes → Digest) → Digest → F → Digest → Prop} {ε : ℚ}
    (h : ∀ H c, (mean fun x : F => mean fun opening : Digest => ind (P H c x opening)) ≤ ε) :
    (mean fun scalars : Fin t → F => mean fun opening : Digest => meanHash D H₀ fun H => mean fun c =>
      ind (P H c ((List.ofFn scalars).headD 0) opening)) ≤ ε := by
  have hfirst : ∀ scalars : Fin t → F, (List.ofFn scalars).headD 0 = scalars ⟨0, ht⟩ := by
    intro scalars
    obtain ⟨n, rfl⟩ : ∃ n, t = n + 1 := ⟨t - 1, by omega⟩
    rw [List.ofFn_succ]
    rfl
  simp only [hfirst]
  rw [← mean_update (⟨0, ht⟩ : Fin t)]
  refine mean_le fun rest => ?_
  simp only [Function.update_self, ← meanHash_mean]
  refine (meanHash_le (g := fun _ => ε) fun H _ => ?_).trans (by rw [meanHash_const])
  rw [mean_rotate]
  exact mean_le fun c => h H c

/-- C91: the key made by distributed key generation is random. With all participants but one under its control,
and although it speaks last, an attacker that evaluates SHA-256 a limited number of times cannot make a key in `S`
come out with a probability much above that of a random key. -/
theorem C91_unbiased (B : Backend F E) (hB : B.Lawful) (p : ℕ) [CharP F p] (params : Params) (hv : ValidParams params)
    (hn : params.shares < p) (index : ℕ) (attack : DkgAttack F E) (q₁ q₂ m : ℕ) (ha : attack.Bounded q₁ q₂ m)
    (S : Finset E) :
    ∃ D₀ : Finset Bytes, ∀ D, D₀ ⊆ D → ∀ H₀ : Bytes → Digest,
      attack.probability B params index S D H₀ ≤ S.card / Fintype.card F + q₁ / (Fintype.card F * 2 ^ 256) +
        (q₁ + q₂ + m + 1) * (q₁ + q₂ + m + 1 + params.shares) / 2 ^ 256 := by
  classical
  have ht : 0 < 2 * params.threshold := by have := hv.1; omega
  by_cases hi : index < params.shares
  swap
  · refine ⟨∅, fun D _ H₀ => ?_⟩
    have : attack.probability B params index S D H₀ = 0 := by
      rw [DkgAttack.probability, ← meanHash_const D H₀ 0]
      congr 1
      funext H
      rw [← mean_const (α := Fin (2 * params.threshold) → F) 0]
      congr 1
      funext s
      rw [← mean_const (α := Digest) 0]
      congr 1
      funext o
      refine ind_false ?_
      rintro ⟨start, own, hnew, -⟩
      rw [Option.map_eq_some_iff] at hnew
      obtain ⟨⟨start', rng'⟩, hnew, -⟩ := hnew
      obtain ⟨own', hset, -⟩ := collecting_new_spec hnew
      exact hi hset.index_lt
    rw [this]
    have h256 : (0 : ℚ) < 2 ^ 256 := by norm_num
    exact add_nonneg (add_nonneg (by positivity) (div_nonneg (by positivity) (mul_nonneg (by positivity) h256.le)))
      (div_nonneg (by positivity) h256.le)
  choose W hW using fun z : (Fin (2 * params.threshold) → F) × Digest =>
    (biasGame B params attack m (List.ofFn z.1) z.2).exists_within
  refine ⟨Finset.univ.biUnion fun z : (Fin (2 * params.threshold) → F) × Digest =>
    W z ∪ (honestQuery B ((List.ofFn z.1).headD 0) z.2).toFinset, fun D hD H₀ => ?_⟩
  have hWD : ∀ s o, (W (s, o) : Set Bytes) ⊆ {q | q ∈ D ∨ q ∈ ([] : List Bytes)} := fun s o q hq =>
    .inl (hD (Finset.mem_biUnion.mpr ⟨(s, o), Finset.mem_univ _, Finset.mem_union_left _ hq⟩))
  have hqD : ∀ (s : Fin (2 * params.threshold) → F) o, ∀ b ∈ honestQuery B ((List.ofFn s).headD 0) o, b ∈ D :=
    fun s o b hb => hD (Finset.mem_biUnion.mpr ⟨(s, o), Finset.mem_univ _, Finset.mem_union_right _
      (Option.mem_toFinset.mpr hb)⟩)
  have hsplit : attack.probability B params index S D H₀ ≤
      (mean fun s : Fin (2 * params.threshold) → F => mean fun o : Digest => meanHash D H₀ fun H =>
        mean fun c : Digest => ind (predictedKey B params index attack H c ((List.ofFn s).headD 0) ∈ S)) +
      (mean fun s : Fin (2 * params.threshold) → F => mean fun o : Digest => meanHash D H₀ fun H =>
        mean fun c : Digest => ind (∃ q ∈ (attack.commit (List.ofFn c)).queries H,
          honestQuery B ((List.ofFn s).headD 0) o = some q)) +
      (mean fun s : Fin (2 * params.threshold) → F => mean fun o : Digest => meanHash D H₀ fun H =>
        ind ((biasGame B params attack m (List.ofFn s) o).Caught H [] [])) := by
    have hL : attack.probability B params index S D H₀ =
        mean fun s : Fin (2 * params.threshold) → F => mean fun o : Digest => meanHash D H₀ fun H =>
          ind (attack.Yields B params index S H (List.ofFn s) o) := by
      rw [DkgAttack.probability, meanHash_mean]
      simp only [meanHash_mean]
    rw [hL, ← mean_add', ← mean_add']
    refine mean_le_mean fun s => ?_
    rw [← mean_add', ← mean_add']
    refine mean_le_mean fun o => ?_
    set q := honestQuery B ((List.ofFn s).headD 0) o with hq
    -- the three cases
    have h1 : (meanHash D H₀ fun H => ind (attack.Yields B params index S H (List.ofFn s) o)) ≤
        (meanHash D H₀ fun H => ind (∃ b, q = some b ∧ b ∉ (attack.commit (List.ofFn (H b))).queries H ∧
          predictedKey B params index attack H (H b) ((List.ofFn s).headD 0) ∈ S)) +
        (meanHash D H₀ fun H => ind (∃ b, q = some b ∧ b ∈ (attack.commit (List.ofFn (H b))).queries H)) +
        meanHash D H₀ fun H => ind ((biasGame B params attack m (List.ofFn s) o).Caught H [] []) := by
      rw [← meanHash_add, ← meanHash_add]
      refine meanHash_le fun H _ => ?_
      by_cases hy : attack.Yields B params index S H (List.ofFn s) o
      swap
      · rw [ind_false hy]
        exact add_nonneg (add_nonneg (ind_nonneg _) (ind_nonneg _)) (ind_nonneg _)
      by_cases hc : (biasGame B params attack m (List.ofFn s) o).Caught H [] []
      · rw [ind_true hc]
        exact (ind_le_one _).trans (le_add_of_nonneg_left (add_nonneg (ind_nonneg _) (ind_nonneg _)))
      · obtain ⟨-, b, hb, hk⟩ := yields_predicted hB p hv hn ha hy hc
        by_cases hg : b ∈ (attack.commit (List.ofFn (H b))).queries H
        · rw [ind_true (P := ∃ b, q = some b ∧ b ∈ (attack.commit (List.ofFn (H b))).queries H) ⟨b, hb, hg⟩]
          have := ind_le_one (attack.Yields B params index S H (List.ofFn s) o)
          have h2 := ind_nonneg (∃ b, q = some b ∧ b ∉ (attack.commit (List.ofFn (H b))).queries H ∧
            predictedKey B params index attack H (H b) ((List.ofFn s).headD 0) ∈ S)
          have h3 := ind_nonneg ((biasGame B params attack m (List.ofFn s) o).Caught H [] [])
          linarith
        · rw [ind_true (P := ∃ b, q = some b ∧ b ∉ (attack.commit (List.ofFn (H b))).queries H ∧
            predictedKey B params index attack H (H b) ((List.ofFn s).headD 0) ∈ S) ⟨b, hb, hg, hk hg⟩]
          have := ind_le_one (attack.Yields B params index S H (List.ofFn s) o)
          have h2 := ind_nonneg (∃ b, q = some b ∧ b ∈ (attack.commit (List.ofFn (H b))).queries H)
          have h3 := ind_nonneg ((biasGame B params attack m (List.ofFn s) o).Caught H [] [])
          linarith
    refine h1.trans (add_le_add_left (add_le_add ?_ ?_) _)
    · refine meanHash_honest (q := q) (P' := fun H c =>
        predictedKey B params index attack H c ((List.ofFn s).headD 0) ∈ S) H₀ (hqD s o) ?_
      rintro H ⟨b, hb, hg, hk⟩
      refine ⟨b, hb, fun a => ?_⟩
      rw [predictedKey_update a _ hg]
      exact hk
    · refine meanHash_honest (q := q) (P' := fun H c => ∃ b ∈ (attack.commit (List.ofFn c)).queries H, q = some b)
        H₀ (hqD s o) ?_
      rintro H ⟨b, hb, hg⟩
      exact ⟨b, hb, fun a => ⟨b, (OracleAlg.mem_queries_update_self a _).mpr hg, hb⟩⟩
  refine hsplit.trans (add_le_add (add_le_add ?_ ?_) ?_)
  · refine mean_first_le (P := fun H c x _ => predictedKey B params index attack H c x ∈ S) ht fun H c => ?_
    simp only [mean_const]
    exact mean_predictedKey hB p hn hi attack S H c
  · refine mean_first_le (P := fun H c x o => ∃ q ∈ (attack.commit (List.ofFn c)).queries H,
      honestQuery B x o = some q) ht fun H c => ?_
    refine (mean_honestQuery hB _).trans ?_
    rw [card_digest_cast]
    refine div_le_div_of_nonneg_right ?_ (by positivity)
    exact_mod_cast (ha.commit _).queries_length H
  · refine mean_le fun s => mean_le fun o => ?_
    have h := (biasGame B params attack m (List.ofFn s) o).mean_caught (q₁ + q₂ + m + 1) params.shares [] [] D H₀
      (biasGame_atMost B params ha _ _) ((hW (s, o)).mono (hWD s o)) (by simp)
    rw [card_digest_cast] at h
    refine h.trans (le_of_eq ?_)
    simp only [List.length_nil]
    push_cast
    ring

/-- An attacker of two participants of three that commits to a random oracle value it knows, and then copies. -/
example : ∃ D₀ : Finset Bytes, ∀ D, D₀ ⊆ D → ∀ H₀ : Bytes → Digest,
    DkgAttack.probability (F := ZMod 101) (E := ZMod 101)
      ⟨Digest, fun c => .ask [7] fun d => .done ([(1, List.ofFn d), (2, c)], d), fun d info =>
        .done [(1, ⟨[5], info.proofOfPossession, List.ofFn d⟩), (2, info)]⟩
      B101 ⟨3, 2⟩ 0 {3, 4} D H₀ ≤ ((2 : ℕ) : ℚ) / (101 : ℕ) + (1 : ℕ) / ((101 : ℕ) * 2 ^ 256) +
        ((1 : ℕ) + (0 : ℕ) + (2 : ℕ) + 1) * ((1 : ℕ) + (0 : ℕ) + (2 : ℕ) + 1 + (3 : ℕ)) / 2 ^ 256 := by
  have h := C91_unbiased (F := ZMod 101) (E := ZMod 101) B101 B101_lawful 101 ⟨3, 2⟩ (by simp [ValidParams])
    (by norm_num) 0
    ⟨Digest, fun c => .ask [7] fun d => .done ([(1, List.ofFn d), (2, c)], d), fun d info =>
        .done [(1, ⟨[5], info.proofOfPossession, List.ofFn d⟩), (2, info)]⟩ 1 0 2
    ⟨fun c => fun _ => trivial, fun _ _ => trivial, fun _ _ _ => le_refl _⟩ {3, 4}
  rw [ZMod.card] at h
  exact h

omit [Fintype F] [DecidableEq F] [DecidableEq E] in
theorem Backend.Lawful.withTapes {B : Backend F E} (hB : B.Lawful) (H : Bytes → Digest) :
    (B.withSha H).withTapes.Lawful where
  gen_ne_zero := hB.gen_ne_zero
  gen_spans := hB.gen_spans
  scalarSize_pos := hB.scalarSize_pos
  serScalar_length := hB.serScalar_length
  deScalar_serScalar := hB.deScalar_serScalar
  serScalar_deScalar := hB.serScalar_deScalar
  serElem_length := hB.serElem_length
  deElem_serElem := hB.deElem_serElem
  serElem_ne_zero := hB.serElem_ne_zero
  sha256_length b := by simp
  fill32_length r := by simp

omit [Fintype F] in
/-- The key is the sum of constant terms. -/
theorem key_of_complete {B : Backend F E} (p : ℕ) [CharP F p] {params : Params} (hv : ValidParams params)
    (hn : params.shares < p) {index : ℕ} {rng : B.Rng} {h : DkgHistory F E} {exchanging : ExchangingSecrets F E}
    {result : ActiveParticipant F E} (hsh : dkgShares B params index rng h = some exchanging)
    (hcomp : exchanging.complete B = some (.ok result)) :
    result.keySet.sharedKey.element = (exchanging.publicPolynomials.map fun poly => poly.headD 0).sum := by
  obtain ⟨Q, hf⟩ := dkgShares_spec hsh
  have hm : exchanging.missingShares = [] := by
    have h := hcomp
    simp only [ExchangingSecrets.complete, Option.bind_eq_bind, Option.bind_eq_some_iff, guard_eq_some'] at h
    exact h.choose_spec.1
  rw [complete_eq _ p params hv hn index _ _ _ hsh hm] at hcomp
  simp only [Option.bind_eq_some_iff, Option.map_eq_some_iff] at hcomp
  obtain ⟨keys, -, sk, hsk, hres⟩ := hcomp
  split at hres
  · cases hres
    rw [(fromElement_isKey.mp hsk).1, polyAt_polySum _ _ _ hf.degree]
    congr 1
    exact List.map_congr_left fun poly _ => polyAt_zero poly
  · cases hres

/-- The attacker sends copies of all messages of the honest participant, or stops, depending on the key that would
come out. -/
def copyAttack (params : Params) (index : ℕ) (S : Finset E) : DkgAttack F E where
  State := Unit
  commit own := .done (((List.range params.shares).filter (· ≠ index)).map fun j => (j, own), ())
  reveal _ info := .done (if params.shares • info.polynomial.headD 0 ∈ S then
    ((List.range params.shares).filter (· ≠ index)).map fun j => (j, info) else [])

omit [Fintype F] in
theorem mem_copies {α : Type} {n index : ℕ} {x : α} {m : ℕ × α} :
    m ∈ ((List.range n).filter (· ≠ index)).map (fun j => (j, x)) ↔ m.1 < n ∧ m.1 ≠ index ∧ m.2 = x := by
  obtain ⟨j, y⟩ := m
  simp only [List.mem_map, List.mem_filter, List.mem_range, decide_eq_true_eq, Prod.mk.injEq]
  constructor
  · rintro ⟨k, ⟨h1, h2⟩, rfl, rfl⟩
    exact ⟨h1, h2, rfl⟩
  · rintro ⟨h1, h2, rfl⟩
    exact ⟨j, ⟨h1, h2⟩, rfl, rfl⟩

/-- C91: nothing better holds for keys of completed runs: an attacker that sees the key in advance can stop key
generation if it does not like the key. So all keys of completed runs can be in a given set. The attacker only copies
messages and needs no hash values. -/
theorem C91_abort (B : Backend F E) (hB : B.Lawful) (hT : B.TotalSer) (p : ℕ) [CharP F p] (params : Params)
    (hv : ValidParams params) (hn : params.shares < p) (h2 : 2 ≤ params.shares) (index : ℕ)
    (hi : index < params.shares) (S : Finset E) :
    ∃ attack : DkgAttack F E, attack.Bounded 0 0 params.shares ∧
      ∀ (T : Finset E) (H : Bytes → Digest) (scalars : List F) (opening : Digest),
        attack.Yields B params index T H scalars opening ↔
          params.shares • scalars.headD 0 • B.gen ∈ S ∧ params.shares • scalars.headD 0 • B.gen ∈ T := by
  have ht : 0 < params.threshold := hv.1
  refine ⟨copyAttack params index S, ⟨fun _ => trivial, fun _ _ => trivial, fun s info H => ?_⟩,
    fun T H scalars opening => ?_⟩
  · simp only [copyAttack, OracleAlg.run]
    split
    · rw [List.length_map]
      exact (List.length_filter_le _ _).trans (by simp)
    · simp
  set B' := (B.withSha H).withTapes with hB'
  have hT' : B'.TotalSer := hT
  -- all participants are like the honest one
  have hnone := fun i => C49_new B' hT' params hv i (scalars, [opening])
  choose P hP using fun i : ℕ => show ∃ q : CollectingCommitments F E, i < params.shares →
      ∃ rng', CollectingCommitments.new B' params i (scalars, [opening]) = some (q, rng') from by
    cases hq : CollectingCommitments.new B' params i (scalars, [opening]) with
    | none => exact ⟨⟨params, 0, ⟨params, [], ⟨0, []⟩⟩, [], []⟩, fun h' => absurd ((hnone i).mp hq) (by omega)⟩
    | some q => exact ⟨q.1, fun _ => ⟨q.2, rfl⟩⟩
  obtain ⟨rng', hnew⟩ := hP index hi
  obtain ⟨own, hset, hs1, hs2, hs3⟩ := collecting_new_spec hnew
  obtain ⟨d1, d2, ⟨rng1, d3⟩, b, hb, hown⟩ := hset.withTapes ht
  have hsame : ∀ j, j < params.shares → (P j).dealer = (P index).dealer ∧ (P j).opening = (P index).opening ∧
      (P j).commitment = some own := by
    intro j hj
    obtain ⟨r, hr⟩ := hP j hj
    obtain ⟨own', g, g1, g2, g3⟩ := collecting_new_spec hr
    obtain ⟨-, f2, ⟨rng2, f3⟩, b', hb', hown'⟩ := g.withTapes ht
    rw [d3] at f3
    rw [hb] at hb'
    cases hb'
    refine ⟨(Prod.mk.inj (Option.some.inj f3)).1.symm, by rw [f2, d2], ?_⟩
    rw [← hown] at hown'
    subst hown'
    simp [CollectingCommitments.commitment, g2, g3, hj]
  set info : PublicInfo F E := ⟨(P index).dealer.publicInfo.1, (P index).dealer.publicInfo.2, (P index).opening⟩
    with hinfo
  have hhead : info.polynomial.headD 0 = scalars.headD 0 • B.gen := by
    show (P index).dealer.publicInfo.1.headD 0 = _
    cases hd : (P index).dealer.publicInfo.1 with
    | nil => simp [hd] at d1
    | cons e l => simpa [hd] using d1
  obtain ⟨hist, w1, w2, w3⟩ := honest_histories params.shares P
  let copy {α : Type} (x : α) (i : ℕ) : List (ℕ × α) :=
    ((List.range params.shares).filter (· ≠ i)).map fun j => (j, x)
  have h1 : ∀ (sh : ℕ → List (ℕ × F)) i m, m ∈ (⟨copy own i, copy info i, sh i⟩ : DkgHistory F E).commitments ↔
      m.1 < params.shares ∧ m.1 ≠ i ∧ (P m.1).commitment = some m.2 := by
    intro sh i m
    rw [show _ ↔ _ from mem_copies]
    refine and_congr_right fun hm => and_congr_right fun _ => ?_
    rw [(hsame _ hm).2.2, Option.some.injEq, eq_comm]
  have h2' : ∀ (sh : ℕ → List (ℕ × F)) i m, m ∈ (⟨copy own i, copy info i, sh i⟩ : DkgHistory F E).polynomials ↔
      m.1 < params.shares ∧ m.1 ≠ i ∧
        m.2 = ⟨(P m.1).dealer.publicInfo.1, (P m.1).dealer.publicInfo.2, (P m.1).opening⟩ := by
    intro sh i m
    rw [show _ ↔ _ from mem_copies]
    refine and_congr_right fun hm => and_congr_right fun _ => ?_
    rw [(hsame _ hm).1, (hsame _ hm).2.1]
  -- the first phase
  obtain ⟨p1, q0, hp1, hq0, hq1, hq2⟩ := honest_phase1 B' hP (h1 fun i => (hist i).shares) index hi
  have hp1 : p1 = runCommitments (copy own index) (P index) := by
    simp [dkgCommitments, hnew] at hp1
    exact hp1.symm
  subst hp1
  have hq0i : q0.publicInfo = info := by simp [CollectingPolynomials.publicInfo, hq1, hq2, hinfo]
  have hy : (copyAttack params index S).Yields B params index T H scalars opening ↔
      ∃ shares exchanging result, dkgShares B' params index (scalars, [opening])
        ⟨copy own index, if params.shares • scalars.headD 0 • B.gen ∈ S then copy info index else [], shares⟩ =
          some exchanging ∧
        exchanging.complete B' = some (.ok result) ∧ result.keySet.sharedKey.element ∈ T := by
    constructor
    · rintro ⟨start, own', e1, e2, collecting, e3, e4⟩
      rw [hnew] at e1
      cases e1
      rw [(hsame _ hi).2.2] at e2
      cases e2
      have e3 : (runCommitments (copy own index) (P index)).finishCommitmentPhase = some collecting := e3
      rw [hq0] at e3
      cases e3
      simp only [copyAttack, OracleAlg.run, hq0i, hhead] at e4
      exact e4
    · intro e4
      refine ⟨P index, own, by rw [hnew]; rfl, (hsame _ hi).2.2, q0, hq0, ?_⟩
      simp only [copyAttack, OracleAlg.run, hq0i, hhead]
      exact e4
  rw [hy]
  by_cases hS : params.shares • scalars.headD 0 • B.gen ∈ S
  · simp only [if_pos hS, hS, true_and]
    -- the key
    have hkey : ∀ shares exchanging result, dkgShares B' params index (scalars, [opening])
        ⟨copy own index, copy info index, shares⟩ = some exchanging →
        exchanging.complete B' = some (.ok result) →
        result.keySet.sharedKey.element = params.shares • scalars.headD 0 • B.gen := by
      intro shares exchanging result hsh hcomp
      obtain ⟨Q, hf⟩ := dkgShares_spec hsh
      rw [key_of_complete p hv hn hsh hcomp, list_sum_getD hf.polys_length]
      obtain ⟨q, p0, g1, -, g2, -⟩ := honest_phase2 B' hP (h1 fun _ => shares) (h2' fun _ => shares) index hi
      have hqQ : q = Q := by
        have := hf.before
        rw [g1] at this
        exact Option.some.inj this
      subst hqQ
      rw [Finset.sum_congr rfl fun j hj => ?_, Finset.sum_const, Finset.card_range]
      have hj := Finset.mem_range.mp hj
      have := g2 j hj
      rw [← hf.polys, List.getElem?_map, Option.map_eq_some_iff] at this
      obtain ⟨x, hx, hx'⟩ := this
      cases hx'
      rw [List.getD_eq_getElem?_getD, hx, Option.getD_some, (hsame j hj).1]
      exact hhead
    constructor
    · rintro ⟨shares, exchanging, result, e1, e2, e3⟩
      rwa [hkey _ _ _ e1 e2] at e3
    · intro hTT
      obtain ⟨ks, -, -, hall⟩ := dkg_honest B' (hB.withTapes H) hT' p params hv hn (fun _ => (scalars, [opening])) P hP
        (fun i => ⟨copy own i, copy info i, (hist i).shares⟩) (h1 fun i => (hist i).shares)
        (h2' fun i => (hist i).shares) w3
      obtain ⟨ex, part, e1, -, e2, -⟩ := hall index hi
      exact ⟨_, ex, part, e1, e2, by rwa [hkey _ _ _ e1 e2]⟩
  · simp only [if_neg hS, hS, false_and, iff_false]
    rintro ⟨shares, exchanging, result, e1, -, -⟩
    obtain ⟨Q, hf⟩ := dkgShares_spec e1
    obtain ⟨j, hj, hji⟩ : ∃ j, j < params.shares ∧ j ≠ index := by
      by_cases h0 : index = 0
      · exact ⟨1, by omega, by omega⟩
      · exact ⟨0, by omega, by omega⟩
    obtain ⟨cj, hcj⟩ : ∃ cj, Q.commitments[j]? = some cj :=
      ⟨_, List.getElem?_eq_getElem (by rw [hf.facts.commitments_length]; exact hj)⟩
    rcases hf.facts.polys j cj hcj with ⟨-, hp⟩ | ⟨pre, info', post, hsplit, -⟩
    · rw [if_neg hji, ← hf.polys, List.getElem?_map, Option.map_eq_some_iff] at hp
      obtain ⟨x, -, hx⟩ := hp
      cases hx
    · simp at hsplit

/-- Three participants, and an attacker that wants one of 30 keys: with the secret 4 of the honest participant it lets
key generation complete with the key 12, with the secret 20 it stops. -/
example : ∃ attack : DkgAttack (ZMod 101) (ZMod 101), attack.Bounded 0 0 3 ∧
    ∀ (H : Bytes → Digest) (opening : Digest),
      attack.Yields B101 ⟨3, 2⟩ 1 {12} H [4, 5, 6, 7] opening ∧
      ∀ T, ¬ attack.Yields B101 ⟨3, 2⟩ 1 T H [20, 5, 6, 7] opening := by
  obtain ⟨attack, h1, h2⟩ := C91_abort (F := ZMod 101) (E := ZMod 101) B101 B101_lawful B101_total 101 ⟨3, 2⟩
    (by simp [ValidParams]) (by norm_num) (by norm_num) 1 (by norm_num)
    ((Finset.range 30).image fun n : ℕ => (n : ZMod 101))
  refine ⟨attack, h1, fun H opening => ⟨(h2 _ H _ opening).mpr ?_, fun T hT => ?_⟩⟩
  · decide
  · exact absurd ((h2 _ H _ opening).mp hT).1 (by decide)

end ElasticElgamal
