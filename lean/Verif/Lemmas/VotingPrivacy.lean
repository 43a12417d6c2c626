import Verif.Lemmas.HashCongr
import Verif.Spec.VotingPrivacy
import Verif.Props.QuadraticVoting
import Verif.Props.SumOfSquares
import Mathlib.Data.List.OfFn
import Mathlib.Logic.Equiv.Fin.Basic

/-!
# Lemmas: privacy of quadratic voting
-/

set_option autoImplicit false
set_option linter.unusedSectionVars false

namespace ElasticElgamal

open Spec

variable {F E : Type} [Field F] [AddCommGroup E] [Module F E] [DecidableEq F] [DecidableEq E]

theorem ofFn_get_of_length {α : Type} {T : List α} {n : ℕ} (h : T.length = n) :
    List.ofFn (fun i : Fin n => T.get ⟨i, by rw [h]; exact i.2⟩) = T := by
  subst h
  exact List.ofFn_get T

/-! ## Sum-of-squares proofs -/

theorem makeSumSq_eq {o : ℕ} (p : SumSqScalars F o) : makeSumSq p = ⟨p.1, unpairs (List.ofFn p.2.1), p.2.2⟩ := rfl

theorem makeSumSq_injective {o : ℕ} : Function.Injective fun p : SumSqScalars F o => some (makeSumSq p) := by
  rintro ⟨c, ps, s⟩ ⟨c', ps', s'⟩ h
  simp only [makeSumSq_eq, Option.some.injEq, SumOfSquaresProof.mk.injEq] at h
  obtain ⟨rfl, h, rfl⟩ := h
  rw [List.ofFn_injective (unpairs_inj h)]

/-- The data hashed by a sum-of-squares proof, for given elements. -/
def sumSqData (B : Backend F E) (ctx : List Entry) (k : Bytes) (items : List (E × E × E × E)) (e : E × E × E × E) :
    List Entry :=
  sumSqQuery ctx k (items.map fun i => ⟨encOf B i.1, encOf B i.2.1, encOf B i.2.2.1, encOf B i.2.2.2⟩)
    (encOf B e.1) (encOf B e.2.1) (encOf B e.2.2.1) (encOf B e.2.2.2)

theorem sumSqPoint_spec (B : Backend F E) (hT : B.TotalSer) (K : PublicKey E) {o : ℕ} (cts : List (Ciphertext E))
    (hl : cts.length = o) (zc : Ciphertext E) (t : Transcript) (p : SumSqScalars F o) :
    ∃ items e, items.length = o ∧ (∀ H : List Entry → F, sumSqPoint (B.withHash H) K cts zc t (makeSumSq p) =
        [(sumSqData B t.log K.bytes items e, p.1)]) ∧
      ∀ H : List Entry → F, (∃ t', (makeSumSq p).verify (B.withHash H) cts zc K t = some (.ok (), t')) ↔
        H (sumSqData B t.log K.bytes items e) = p.1 := by
  have hs : ∀ x : E, B.serElem x = some (encOf B x) := by
    intro x
    obtain ⟨b, hb⟩ := hT x
    rw [encOf_eq hb, hb]
  let f : (F × F) × Ciphertext E → E × E × E × E := fun q => (q.2.random, q.2.blinded,
    q.1.1 • B.gen - p.1 • q.2.random, q.1.2 • B.gen + q.1.1 • K.element - p.1 • q.2.blinded)
  let ps := List.ofFn p.2.1
  have hps : ps.length = cts.length := by simp [ps, hl]
  let e : E × E × E × E := (zc.random, zc.blinded,
    Backend.multiMul (ps.map (·.2)) (cts.map (·.random)) + p.2.2 • B.gen - p.1 • zc.random,
    Backend.multiMul (ps.map (·.2)) (cts.map (·.blinded)) + p.2.2 • K.element - p.1 • zc.blinded)
  have hv : ∀ H : List Entry → F, (makeSumSq p).verify (B.withHash H) cts zc K t =
      some (checkChallenge (H (sumSqData B t.log K.bytes ((ps.zip cts).map f) e)) p.1,
        ⟨sumSqData B t.log K.bytes ((ps.zip cts).map f) e⟩) := by
    intro H
    refine (SumOfSquaresProof.verify_eq_some (ps := ps) hps).mpr ⟨_, _, _, _, _, ?_, hs _, hs _, hs _, hs _, rfl, rfl⟩
    rw [List.map_map, List.forall₂_map_right_iff, List.forall₂_same]
    intro q _
    exact ⟨hs _, hs _, hs _, hs _⟩
  refine ⟨(ps.zip cts).map f, e, by simp [hps, hl], ?_, ?_⟩
  · intro H
    simp only [sumSqPoint, hv]
    rfl
  · intro H
    simp only [hv, Option.some.injEq, Prod.mk.injEq, exists_and_left, exists_eq', and_true]
    exact checkChallenge_ok

theorem sumSqData_finite [Finite E] (B : Backend F E) (o : ℕ) (t : Transcript) : Set.Finite
    (Set.range fun p : E × (Fin o → E × E × E × E) × (E × E × E × E) =>
      sumSqData B t.log (encOf B p.1) (List.ofFn p.2.1) p.2.2) :=
  Set.finite_range _

theorem sumSqPoint_programmable [Fintype F] (B : Backend F E) (hT : B.TotalSer) [Finite E] (K : PublicKey E)
    (hK : K.bytes = encOf B K.element) {o : ℕ} (cts : List (Ciphertext E)) (hl : cts.length = o) (zc : Ciphertext E)
    (t : Transcript) (D : Finset (List Entry)) (hD : (sumSqData_finite B o t).toFinset ⊆ D) :
    Programmable (fun H (p : SumSqScalars F o) => sumSqPoint (B.withHash H) K cts zc t (makeSumSq p)) 1 D ∧
    ∀ H (p : SumSqScalars F o), ((sumSqPoint (B.withHash H) K cts zc t (makeSumSq p)).map Prod.fst).Nodup := by
  refine ⟨⟨?_, ?_, ?_⟩, ?_⟩
  · intro H H' p _
    obtain ⟨items, e, -, h, -⟩ := sumSqPoint_spec B hT K cts hl zc t p
    simp only [h]
  · intro H p
    obtain ⟨items, e, -, h, -⟩ := sumSqPoint_spec B hT K cts hl zc t p
    simp only [h, List.length_cons, List.length_nil]
  · intro H p qa hqa
    obtain ⟨items, e, h1, h, -⟩ := sumSqPoint_spec B hT K cts hl zc t p
    simp only [h, List.mem_singleton] at hqa
    subst hqa
    refine hD ?_
    rw [Set.Finite.mem_toFinset]
    refine ⟨(K.element, fun i => items.get ⟨i, by rw [h1]; exact i.2⟩, e), ?_⟩
    have : List.ofFn (fun i : Fin o => items.get ⟨i, by rw [h1]; exact i.2⟩) = items :=
      ofFn_get_of_length h1
    simp only [this, hK]
  · intro H p
    obtain ⟨items, e, -, h, -⟩ := sumSqPoint_spec B hT K cts hl zc t p
    simp only [h, List.map_cons, List.map_nil, List.nodup_singleton]

theorem SumOfSquaresProof.commitLoop_rest {B : Backend F E} {K : PublicKey E} (cts : List (CiphertextWithValue F E)) :
    ∀ {s0 s1 : F} {t t' : Transcript} {tape rest : List F} {ps : List (CiphertextWithValue F E × F × F)},
    commitLoop B.withTape K cts s0 t tape = some (ps, s1, t', rest) → rest = tape.drop (cts.length * 2) := by
  induction cts with
  | nil =>
    intro s0 s1 t t' tape rest ps h
    simp only [commitLoop, Option.some.injEq, Prod.mk.injEq] at h
    simp [h.2.2.2]
  | cons ct cts ih =>
    intro s0 s1 t t' tape rest ps h
    simp only [commitLoop, Option.bind_eq_bind, Option.bind_eq_some_iff, Option.pure_def, Option.some.injEq,
      Prod.mk.injEq, Prod.exists] at h
    obtain ⟨_, -, _, -, _, -, _, -, ps', s', t1, rest', h, -, -, -, rfl⟩ := h
    rw [ih h, List.length_cons]
    rcases tape with _ | ⟨a, _ | ⟨b, tape⟩⟩
    · simp [SecretKey.generate]
    · simp [SecretKey.generate, Nat.add_mul]
    · rw [Nat.add_mul]; rfl

theorem SumOfSquaresProof.new_rest {B : Backend F E} {K : PublicKey E} {cts : List (CiphertextWithValue F E)}
    {zc : CiphertextWithValue F E} {t t' : Transcript} {tape rest : List F} {proof : SumOfSquaresProof F}
    (h : SumOfSquaresProof.new B.withTape cts zc K t tape = some (proof, t', rest)) :
    rest = tape.drop (cts.length * 2 + 1) := by
  simp only [SumOfSquaresProof.new, Option.bind_eq_bind, Option.bind_eq_some_iff, Option.pure_def, Option.some.injEq,
    Prod.mk.injEq, Prod.exists] at h
  obtain ⟨ps, s, t1, rest', h, _, -, _, -, _, -, _, -, -, -, rfl⟩ := h
  rw [commitLoop_rest cts h]
  cases tape with
  | nil => simp [SecretKey.generate]
  | cons a tape => rfl

theorem SumOfSquaresProof.verify_withTape (B : Backend F E) (proof : SumOfSquaresProof F) (cts : List (Ciphertext E))
    (zc : Ciphertext E) (K : PublicKey E) (t : Transcript) :
    proof.verify B.withTape cts zc K t = proof.verify B cts zc K t := by
  have h : ∀ (c c' : F) (l : List (List F × Ciphertext E)) (t : Transcript),
      verifyLoop B.withTape K c c' l t = verifyLoop B K c c' l t := by
    intro c c' l
    induction l with
    | nil => intro t; rfl
    | cons p l ih => intro t; simp only [verifyLoop, ih]; rfl
  simp only [SumOfSquaresProof.verify, h]
  rfl

variable [Fintype F]

theorem card_sumSqScalars (o : ℕ) : Fintype.card (SumSqScalars F o) =
    Fintype.card (Fin (o * 2 + 1) → F) * Fintype.card F ^ 1 := by
  simp only [Fintype.card_prod, Fintype.card_pi, Finset.prod_const, Finset.card_univ, Fintype.card_fin]
  ring

/-- Sum-of-squares proofs can be simulated. -/
theorem sumSq_simulation (B : Backend F E) (hT : B.TotalSer) [Finite E] (K : PublicKey E)
    (hK : K.bytes = encOf B K.element) {o : ℕ} (cts : List (CiphertextWithValue F E)) (hl : cts.length = o)
    (zc : CiphertextWithValue F E) (hcts : ∀ ct ∈ cts, Opened B K.element ct) (hz : Opened B K.element zc)
    (hsum : zc.value = (cts.map fun ct => ct.value * ct.value).sum) (t : Transcript)
    (D : Finset (List Entry)) (hD : (sumSqData_finite B o t).toFinset ⊆ D) (H₀ : List Entry → F)
    (f : (List Entry → F) → Option (SumOfSquaresProof F) → ℚ) :
    (meanHash D H₀ fun H => mean fun tape : Fin (o * 2 + 1) → F =>
      f H ((SumOfSquaresProof.new (B.withHash H).withTape cts zc K t (List.ofFn tape)).map Prod.fst)) =
    mean fun p : SumSqScalars F o => meanHash D H₀ fun H =>
      f (program H (sumSqPoint (B.withHash H) K (cts.map (·.ciphertext)) zc.ciphertext t (makeSumSq p)))
        (some (makeSumSq p)) := by
  obtain ⟨hp, hnd⟩ := sumSqPoint_programmable B hT K hK (cts.map (·.ciphertext)) (by simpa using hl) zc.ciphertext t D hD
  refine rom_simulation hp hnd H₀ _ _ makeSumSq_injective ?_ ?_ (card_sumSqScalars o) f
  · intro H p hh
    obtain ⟨items, e, -, h1, h2⟩ := sumSqPoint_spec B hT K (cts.map (·.ciphertext)) (by simpa using hl) zc.ciphertext t p
    rw [h1 H] at hh
    obtain ⟨t', hv⟩ := (h2 H).mpr (hh _ (List.mem_singleton_self _))
    obtain ⟨T, ⟨hT1, hT2⟩, huniq⟩ := C51_sum_sq_zk (B.withHash H) cts zc K hcts hz hsum (makeSumSq p) t t' hv
    rw [hl] at hT1
    have hofn : List.ofFn (fun i : Fin (o * 2 + 1) => T.get ⟨i, by rw [hT1]; exact i.2⟩) = T :=
      ofFn_get_of_length hT1
    refine ⟨fun i => T.get ⟨i, by rw [hT1]; exact i.2⟩, ?_, ?_⟩
    · simp only [hofn, hT2, Option.map_some]
    · intro tape ht
      obtain ⟨⟨proof, t2, rest⟩, hnew, rfl⟩ := Option.map_eq_some_iff.mp ht
      have hr := SumOfSquaresProof.new_rest hnew
      rw [List.drop_eq_nil_of_le (by simp [hl])] at hr
      subst hr
      have hc := C19_sum_sq_complete (B.withHash H).withTape cts zc K hcts hz hsum t t2 _ _ _ hnew
      rw [SumOfSquaresProof.verify_withTape, hv] at hc
      obtain rfl : t' = t2 := (Prod.mk.inj (Option.some.inj hc)).2
      have := huniq (List.ofFn tape) ⟨by simp [hl], hnew⟩
      rw [← hofn] at this
      exact List.ofFn_injective this
  · intro H tape
    obtain ⟨⟨proof, t2, rest⟩, hnew⟩ := C19_sum_sq_new_total (B.withHash H).withTape hT cts zc K t (List.ofFn tape)
    have hc := C19_sum_sq_complete (B.withHash H).withTape cts zc K hcts hz hsum t t2 _ _ _ hnew
    rw [SumOfSquaresProof.verify_withTape] at hc
    obtain ⟨ps, hps, hlen⟩ := SumOfSquaresProof.verify_ok hc
    rw [List.length_map, hl] at hlen
    have hofn : List.ofFn (fun i : Fin o => ps.get ⟨i, by rw [hlen]; exact i.2⟩) = ps :=
      ofFn_get_of_length hlen
    have hm : proof = makeSumSq (proof.challenge, (fun i : Fin o => ps.get ⟨i, by rw [hlen]; exact i.2⟩),
        proof.sumResponse) := by
      rw [makeSumSq_eq, hofn]
      exact hps
    refine ⟨(proof.challenge, (fun i : Fin o => ps.get ⟨i, by rw [hlen]; exact i.2⟩), proof.sumResponse), ?_, ?_⟩
    rotate_left
    · rw [hnew, Option.map_some]
      exact congrArg some hm
    · obtain ⟨items, e, -, h1, h2⟩ := sumSqPoint_spec B hT K (cts.map (·.ciphertext)) (by simpa using hl) zc.ciphertext t
        (proof.challenge, (fun i : Fin o => ps.get ⟨i, by rw [hlen]; exact i.2⟩), proof.sumResponse)
      rw [h1 H]
      intro qa hqa
      rw [List.mem_singleton] at hqa
      subst hqa
      exact (h2 H).mp ⟨t2, by rw [← hm]; exact hc⟩

/-! ## Ballots -/

/-- Range encryption uses a fixed number of random scalars. -/
theorem range_new_frame (B : Backend F E) (hB : B.Lawful) (hT : B.TotalSer) {n : ℕ} {range : PreparedRange E}
    (hr : PreparedFor B n range) (K : PublicKey E) (k : F) (hk : K.element = k • B.gen) {value : ℕ} (hv : value < n)
    (t : Transcript) (T : List F) (hl : T.length = rangeDraws range) :
    ∃ proof t', ∀ xs, RangeProof.new B.withTape K range value t (T ++ xs) =
      some (((CiphertextWithValue.newU64 B.withTape value K T).1, proof), t', xs) := by
  have hofn : List.ofFn (fun i : Fin (rangeDraws range) => T.get ⟨i, by rw [hl]; exact i.2⟩) = T :=
    ofFn_get_of_length hl
  obtain ⟨-, -, h3⟩ := range_outputs B hB hT hr t K k hk hv
  obtain ⟨s, hs, ho⟩ := h3 B.challenge fun i => T.get ⟨i, by rw [hl]; exact i.2⟩
  rw [hofn] at ho
  have hBc : B.withHash B.challenge = B := rfl
  rw [hBc] at hs ho
  obtain ⟨-, -, -, h5⟩ := rangePoint_spec B hT B.challenge K hr.facts t (rangeCts B K range value s.1) s.2
  rw [hBc] at h5
  obtain ⟨t', hv'⟩ := h5.mpr hs
  obtain ⟨T', hl', h1, h2⟩ := range_new_tape B hB hr K k hk hv s.1 s.2 t t' hv'
  obtain ⟨⟨⟨ct, proof⟩, t2, xs⟩, hnew, ho'⟩ := Option.map_eq_some_iff.mp ho
  simp only [Prod.ext_iff] at ho'
  obtain ⟨o1, o2⟩ := ho'
  subst o2
  have h4 := h2 T ct t2 xs (by rw [hl, hl']) hnew o1
  have hxs : xs = [] := by
    have := congrArg List.length h4
    rw [List.length_append, hl, hl'] at this
    exact List.length_eq_zero_iff.mp (by omega)
  subst hxs
  rw [List.append_nil] at h4
  subst h4
  refine ⟨(makeRange (rangeCts B K range value s.1) s.2).2, t', fun xs => ?_⟩
  rw [h1 xs]
  have h6 := h1 []
  rw [List.append_nil] at h6
  simp only [RangeProof.new, Option.bind_eq_bind, Option.bind_eq_some_iff, Option.pure_def, Option.some.injEq,
    Prod.mk.injEq, Prod.exists] at h6
  obtain ⟨_, _, _, -, ⟨h7, -⟩, -⟩ := h6
  rw [h7]

theorem encryptVotes_frame (B : Backend F E) (hB : B.Lawful) (hT : B.TotalSer) {n : ℕ} {range : PreparedRange E}
    (hr : PreparedFor B n range) (K : PublicKey E) (k : F) (hk : K.element = k • B.gen) (l : List (ℕ × List F)) :
    (∀ p ∈ l, p.1 < n ∧ p.2.length = rangeDraws range) → ∃ outs : List (CiphertextWithValue F E × RangeProof F E),
    (∀ xs, QuadraticVotingBallot.encryptVotes B.withTape K range (l.map Prod.fst) ((l.map Prod.snd).flatten ++ xs) =
      some (outs, xs)) ∧
    outs.map Prod.fst = l.map (fun p => (CiphertextWithValue.newU64 B.withTape p.1 K p.2).1.generalize) ∧
    outs.map (fun o => some (o.1.ciphertext, o.2)) =
      l.map fun p => rangeOutput B K range (Transcript.new "quadratic_voting_variant") p.1 p.2 := by
  induction l with
  | nil => intro _; exact ⟨[], fun xs => rfl, rfl, rfl⟩
  | cons p l ih =>
    intro h
    obtain ⟨v, T⟩ := p
    obtain ⟨outs, h1, h2, h3⟩ := ih fun q hq => h q (by simp [hq])
    obtain ⟨hv, hl⟩ := h (v, T) (by simp)
    obtain ⟨proof, t', hf⟩ := range_new_frame B hB hT hr K k hk hv (Transcript.new "quadratic_voting_variant") T hl
    refine ⟨(((CiphertextWithValue.newU64 B.withTape v K T).1.generalize), proof) :: outs, ?_, ?_, ?_⟩
    · intro xs
      simp only [List.map_cons, List.flatten_cons, List.append_assoc, QuadraticVotingBallot.encryptVotes, hf, h1,
        Option.bind_eq_bind, Option.bind_some, Option.pure_def]
    · simp [h2]
    · have := hf []
      rw [List.append_nil] at this
      simp only [List.map_cons, h3, rangeOutput, this, Option.map_some]
      rfl

theorem mapM_id_some {α : Type} (l : List α) : (l.map some).mapM id = some l := by
  induction l with
  | nil => rfl
  | cons a l ih => simp [ih]

/-- A ballot is made of its parts, created with their own random scalars. -/
theorem voting_output (B : Backend F E) (hB : B.Lawful) (hT : B.TotalSer) {params : QuadraticVotingParams E}
    {o c m : ℕ} (hp : VotingParamsFor B params o c m) (K : PublicKey E) (k : F) (hk : K.element = k • B.gen)
    (votes : Fin o → ℕ) (hv : ∀ i, votes i ≤ m) (hc : cost (List.ofFn votes) ≤ c)
    (tapes : Fin o → Fin (rangeDraws params.voteCountRange) → F) (tape : Fin (rangeDraws params.creditRange) → F)
    (s : Fin (o * 2 + 1) → F) :
    votingOutput B { params with receiver := K } (List.ofFn votes)
        ((List.ofFn fun i => List.ofFn (tapes i)).flatten ++ (List.ofFn tape ++ List.ofFn s)) =
      makeBallot (fun i => rangeOutput B K params.voteCountRange (Transcript.new "quadratic_voting_variant") (votes i)
          (List.ofFn (tapes i)))
        (rangeOutput B K params.creditRange (Transcript.new "quadratic_voting_credit_range") (cost (List.ofFn votes))
          (List.ofFn tape))
        ((SumOfSquaresProof.new B.withTape
          (List.ofFn fun i => (CiphertextWithValue.newU64 B.withTape (votes i) K (List.ofFn (tapes i))).1.generalize)
          (CiphertextWithValue.newU64 B.withTape (cost (List.ofFn votes)) K (List.ofFn tape)).1.generalize K
          (Transcript.new "quadratic_voting_credit_equiv") (List.ofFn s)).map Prod.fst) := by
  have hc64 : cost (List.ofFn votes) < 2 ^ 64 := by
    obtain ⟨_, _, _, h, _⟩ := hp.credits
    omega
  obtain ⟨outs, h1, h2, h3⟩ := encryptVotes_frame B hB hT hp.votes K k hk
    (List.ofFn fun i => (votes i, List.ofFn (tapes i))) (by
      intro p hp
      obtain ⟨i, rfl⟩ := List.mem_ofFn.mp hp
      exact ⟨Nat.lt_succ_of_le (hv i), by simp⟩)
  simp only [List.map_ofFn, Function.comp_def] at h1 h2 h3
  obtain ⟨proof, t', hf⟩ := range_new_frame B hB hT hp.credits K k hk (Nat.lt_succ_of_le hc)
    (Transcript.new "quadratic_voting_credit_range") (List.ofFn tape) (by simp)
  have hf0 := hf []
  rw [List.append_nil] at hf0
  have hg : (guard ((List.ofFn votes).length = params.optionsCount) : Option Unit) = some () := by
    simp [guard, hp.options]
  have hcr : QuadraticVotingBallot.creditOf B.withTape.debug (List.ofFn votes) = some (cost (List.ofFn votes)) :=
    QuadraticVotingBallot.creditOf_eq hc64
  have h4 : (List.ofFn fun i => rangeOutput B K params.voteCountRange (Transcript.new "quadratic_voting_variant") (votes i)
      (List.ofFn (tapes i))).mapM id = some (outs.map fun o => (o.1.ciphertext, o.2)) := by
    rw [← h3, ← mapM_id_some, List.map_map]
    rfl
  have h5 : rangeOutput B K params.creditRange (Transcript.new "quadratic_voting_credit_range") (cost (List.ofFn votes))
      (List.ofFn tape) = some ((CiphertextWithValue.newU64 B.withTape (cost (List.ofFn votes)) K
        (List.ofFn tape)).1.ciphertext, proof) := by
    rw [rangeOutput, hf0]
    rfl
  simp only [votingOutput, QuadraticVotingBallot.new, hg, hcr, h1, hf, h2, Option.bind_eq_bind, Option.bind_some,
    makeBallot, h4, h5]
  cases SumOfSquaresProof.new B.withTape
    (List.ofFn fun i => (CiphertextWithValue.newU64 B.withTape (votes i) K (List.ofFn (tapes i))).1.generalize)
    (CiphertextWithValue.newU64 B.withTape (cost (List.ofFn votes)) K (List.ofFn tape)).1.generalize K
    (Transcript.new "quadratic_voting_credit_equiv") (List.ofFn s) with
  | none => rfl
  | some out =>
    simp only [Option.bind_some, Option.map_some, Option.pure_def, List.map_map]
    rfl

/-- Splitting the random scalars. -/
theorem mean_split {a b c o : ℕ} (f : List F → ℚ) :
    (mean fun tape : Fin (o * a + (b + c)) → F => f (List.ofFn tape)) =
      mean fun tapes : Fin o → Fin a → F => mean fun tape : Fin b → F => mean fun s : Fin c → F =>
        f ((List.ofFn fun i => List.ofFn (tapes i)).flatten ++ (List.ofFn tape ++ List.ofFn s)) := by
  have h1 : ∀ {m n : ℕ} (g : List F → ℚ), (mean fun x : Fin (m + n) → F => g (List.ofFn x)) =
      mean fun x : Fin m → F => mean fun y : Fin n → F => g (List.ofFn x ++ List.ofFn y) := by
    intro m n g
    rw [← mean_equiv (Fin.appendEquiv m n), mean_prod]
    congr 1
    funext x
    congr 1
    funext y
    rw [← List.ofFn_fin_append]
    rfl
  have h2 : ∀ (g : List F → ℚ), (mean fun x : Fin (o * a) → F => g (List.ofFn x)) =
      mean fun x : Fin o → Fin a → F => g (List.ofFn fun i => List.ofFn (x i)).flatten := by
    intro g
    rw [← mean_equiv ((Equiv.curry (Fin o) (Fin a) F).symm.trans (Equiv.arrowCongr finProdFinEquiv (Equiv.refl F)))]
    congr 1
    funext x
    rw [List.ofFn_mul]
    congr 4
    funext i
    congr 1
    funext j
    simp only [Equiv.trans_apply, Equiv.arrowCongr_apply, Equiv.coe_refl, Function.comp, id, Equiv.curry_symm_apply]
    have : (⟨i * a + j, by
        calc (i : ℕ) * a + j < (i + 1) * a := by rw [Nat.add_mul, Nat.one_mul]; omega
          _ ≤ _ := Nat.mul_le_mul_right _ i.2⟩ : Fin (o * a)) = finProdFinEquiv (i, j) := by
      apply Fin.ext
      simp [finProdFinEquiv, Nat.mul_comm, Nat.add_comm]
    rw [this, Equiv.symm_apply_apply]
    rfl
  rw [h1 f, h2 fun l => mean fun y : Fin (b + c) → F => f (l ++ List.ofFn y)]
  congr 1
  funext tapes
  exact h1 fun l => f ((List.ofFn fun i => List.ofFn (tapes i)).flatten ++ l)

theorem ciphertextOf_rangeOutput (B : Backend F E) (hB : B.Lawful) (hT : B.TotalSer) {n : ℕ} {range : PreparedRange E}
    (hr : PreparedFor B n range) (K : PublicKey E) (k : F) (hk : K.element = k • B.gen) {value : ℕ} (hv : value < n)
    (t : Transcript) (tape : Fin (rangeDraws range) → F) :
    ciphertextOf (rangeOutput B K range t value (List.ofFn tape)) =
      (CiphertextWithValue.newU64 B.withTape value K (List.ofFn tape)).1.ciphertext := by
  obtain ⟨proof, t', h⟩ := range_new_frame B hB hT hr K k hk hv t (List.ofFn tape) (by simp)
  have := h []
  rw [List.append_nil] at this
  rw [rangeOutput, this]
  rfl

theorem opened_newU64 (B : Backend F E) (K : PublicKey E) (value : ℕ) (rng : B.Rng) :
    Opened B K.element (CiphertextWithValue.newU64 B value K rng).1.generalize :=
  ⟨rfl, rfl⟩

theorem rangeOutput_congr (B : Backend F E) {H H' : List Entry → F} (K : PublicKey E) (range : PreparedRange E)
    (t : Transcript) (hag : ∀ q, t.log <+: q → H' q = H q) (value : ℕ) (tape : List F) :
    rangeOutput (B.withHash H') K range t value tape = rangeOutput (B.withHash H) K range t value tape := by
  have := RangeProof.new_congr (B := B.withTape) (fun q h _ => hag q h) K range value t (List.prefix_refl _) tape
  simp only [rangeOutput]
  exact congrArg (Option.map _) this

/-- Contexts of different protocols. -/
theorem sumSqData_not_prefix (B : Backend F E) (k : Bytes) (items : List (E × E × E × E)) (e : E × E × E × E)
    {label : String} (hne : asciiBytes label ≠ asciiBytes "quadratic_voting_credit_equiv") :
    ¬ (Transcript.new label).log <+:
      sumSqData B (Transcript.new "quadratic_voting_credit_equiv").log k items e := by
  intro h
  simp only [sumSqData, sumSqQuery, Transcript.new, Transcript.appendMessage, List.nil_append, List.cons_append,
    List.cons_prefix_cons, Entry.msg.injEq, true_and] at h
  exact hne h.1

theorem voting_simulation (B : Backend F E) (hB : B.Lawful) (hT : B.TotalSer) [Finite E]
    {params : QuadraticVotingParams E} {o c m : ℕ} (hp : VotingParamsFor B params o c m) (K : PublicKey E) (k : F)
    (hk : K.element = k • B.gen) (hK : K.bytes = encOf B K.element) (votes : Fin o → ℕ) (hv : ∀ i, votes i ≤ m)
    (hc : cost (List.ofFn votes) ≤ c) (D : Finset (List Entry))
    (hD : (sumSqData_finite B o (Transcript.new "quadratic_voting_credit_equiv")).toFinset ⊆ D) (H₀ : List Entry → F)
    (guess : (List Entry → F) → PublicKey E → Option (QuadraticVotingBallot F E) → ℚ) :
    (meanHash D H₀ fun H => mean fun tape : Fin (ballotDraws params o) → F =>
      guess H K (votingOutput (B.withHash H) { params with receiver := K } (List.ofFn votes) (List.ofFn tape))) =
    meanHash D H₀ fun H => mean fun tapes : Fin o → Fin (rangeDraws params.voteCountRange) → F =>
      mean fun tape : Fin (rangeDraws params.creditRange) → F => simulatedSum B guess H K
        (fun i => rangeOutput (B.withHash H) K params.voteCountRange (Transcript.new "quadratic_voting_variant") (votes i)
          (List.ofFn (tapes i)))
        (rangeOutput (B.withHash H) K params.creditRange (Transcript.new "quadratic_voting_credit_range")
          (cost (List.ofFn votes)) (List.ofFn tape)) := by
  have hpH : ∀ H : List Entry → F, VotingParamsFor (B.withHash H) params o c m :=
    fun H => ⟨hp.options, hp.votes.withHash H, hp.credits.withHash H⟩
  have h1 : ∀ H : List Entry → F, (mean fun tape : Fin (ballotDraws params o) → F =>
      guess H K (votingOutput (B.withHash H) { params with receiver := K } (List.ofFn votes) (List.ofFn tape))) =
      mean fun tapes : Fin o → Fin (rangeDraws params.voteCountRange) → F =>
      mean fun tape : Fin (rangeDraws params.creditRange) → F => mean fun s : Fin (o * 2 + 1) → F =>
      guess H K (votingOutput (B.withHash H) { params with receiver := K } (List.ofFn votes)
        ((List.ofFn fun i => List.ofFn (tapes i)).flatten ++ (List.ofFn tape ++ List.ofFn s))) :=
    fun H => mean_split fun l => guess H K (votingOutput (B.withHash H) { params with receiver := K } (List.ofFn votes) l)
  simp only [h1]
  rw [meanHash_mean, meanHash_mean]
  congr 1
  funext tapes
  rw [meanHash_mean, meanHash_mean]
  congr 1
  funext tape
  have h2 := fun (H : List Entry → F) (s : Fin (o * 2 + 1) → F) =>
    voting_output (B.withHash H) (hB.withHash H) hT (hpH H) K k hk votes hv hc tapes tape s
  simp only [h2]
  let cts : List (CiphertextWithValue F E) :=
    List.ofFn fun i => (CiphertextWithValue.newU64 B.withTape (votes i) K (List.ofFn (tapes i))).1.generalize
  let zc : CiphertextWithValue F E :=
    (CiphertextWithValue.newU64 B.withTape (cost (List.ofFn votes)) K (List.ofFn tape)).1.generalize
  refine (sumSq_simulation B hT K hK cts (by simp [cts]) zc ?_ (opened_newU64 B.withTape K _ _) ?_
    (Transcript.new "quadratic_voting_credit_equiv") D hD H₀ fun H x => guess H K (makeBallot
      (fun i => rangeOutput (B.withHash H) K params.voteCountRange (Transcript.new "quadratic_voting_variant") (votes i)
        (List.ofFn (tapes i)))
      (rangeOutput (B.withHash H) K params.creditRange (Transcript.new "quadratic_voting_credit_range")
        (cost (List.ofFn votes)) (List.ofFn tape)) x)).trans ?_
  · intro ct hct
    obtain ⟨i, rfl⟩ := List.mem_ofFn.mp hct
    exact opened_newU64 B.withTape K _ _
  · simp only [zc, cts, CiphertextWithValue.newU64, CiphertextWithValue.generalize, ExtendedCiphertext.withValue,
      List.map_ofFn, Function.comp_def, cost]
    rw [Nat.cast_list_sum, List.map_ofFn]
    simp [Function.comp_def]
  · simp only [simulatedSum]
    rw [meanHash_mean]
    congr 1
    funext p
    congr 1
    funext H
    have e1 : (cts.map (·.ciphertext)) = List.ofFn fun i => ciphertextOf (rangeOutput (B.withHash H) K
        params.voteCountRange (Transcript.new "quadratic_voting_variant") (votes i) (List.ofFn (tapes i))) := by
      simp only [cts, List.map_ofFn, Function.comp_def]
      congr 1
      funext i
      exact (ciphertextOf_rangeOutput (B.withHash H) (hB.withHash H) hT (hpH H).votes K k hk (Nat.lt_succ_of_le (hv i))
        _ _).symm
    have e2 : zc.ciphertext = ciphertextOf (rangeOutput (B.withHash H) K params.creditRange
        (Transcript.new "quadratic_voting_credit_range") (cost (List.ofFn votes)) (List.ofFn tape)) :=
      (ciphertextOf_rangeOutput (B.withHash H) (hB.withHash H) hT (hpH H).credits K k hk (Nat.lt_succ_of_le hc) _ _).symm
    rw [← e1, ← e2]
    obtain ⟨items, e, -, hpt, -⟩ := sumSqPoint_spec B hT K (cts.map (·.ciphertext)) (o := o) (by simp [cts]) zc.ciphertext
      (Transcript.new "quadratic_voting_credit_equiv") p
    rw [hpt H]
    have hag : ∀ label : String, asciiBytes label ≠ asciiBytes "quadratic_voting_credit_equiv" →
        ∀ q, (Transcript.new label).log <+: q →
        program H [(sumSqData B (Transcript.new "quadratic_voting_credit_equiv").log K.bytes items e, p.1)] q = H q := by
      intro label hne q hq
      refine program_of_notMem ?_
      rw [List.map_cons, List.map_nil, List.mem_singleton]
      rintro rfl
      exact sumSqData_not_prefix B K.bytes items e hne hq
    simp only [rangeOutput_congr B K _ _ (hag "quadratic_voting_variant" (by decide)),
      rangeOutput_congr B K _ _ (hag "quadratic_voting_credit_range" (by decide))]

end ElasticElgamal
