import Verif.Lemmas.PartialRange
import Verif.Lemmas.VotingPrivacy

/-!
# Lemmas: quadratic voting in groups that cannot encode all elements
-/

set_option autoImplicit false
set_option linter.unusedSectionVars false

namespace ElasticElgamal

open Spec

variable {F E : Type} [Field F] [Fintype F] [AddCommGroup E] [Module F E] [DecidableEq F] [DecidableEq E]

/-! ## Verification -/

theorem totalize_sumSqLoop {B : Backend F E} {spare : Bytes} {K : PublicKey E} {c c' : F} (l : List (List F × Ciphertext E)) :
    ∀ {t t' : Transcript}, SumOfSquaresProof.verifyLoop B K c c' l t = some t' →
      SumOfSquaresProof.verifyLoop (totalize B spare) K c c' l t = some t' := by
  induction l with
  | nil => intro t t' h; exact h
  | cons p l ih =>
    obtain ⟨chunk, ct⟩ := p
    intro t t' h
    simp only [SumOfSquaresProof.verifyLoop, Option.bind_eq_bind, Option.bind_eq_some_iff] at h ⊢
    obtain ⟨t1, h1, t2, h2, x, hx, y, hy, t3, h3, t4, h4, h⟩ := h
    exact ⟨t1, totalize_append h1, t2, totalize_append h2, x, hx, y, hy, t3, totalize_append h3, t4, totalize_append h4,
      ih h⟩

theorem totalize_sumSq {B : Backend F E} {spare : Bytes} {proof : SumOfSquaresProof F} {cts : List (Ciphertext E)}
    {zc : Ciphertext E} {K : PublicKey E} {t : Transcript} {out} (h : proof.verify B cts zc K t = some out) :
    proof.verify (totalize B spare) cts zc K t = some out := by
  unfold SumOfSquaresProof.verify at h ⊢
  dsimp only at h ⊢
  split
  · rename_i e he
    rw [he] at h
    exact h
  · rename_i he
    rw [he] at h
    simp only [Option.bind_eq_bind, Option.bind_eq_some_iff] at h ⊢
    obtain ⟨t0, h0, t1, h1, t2, h2, t3, h3, t4, h4, h⟩ := h
    exact ⟨t0, totalize_sumSqLoop _ h0, t1, totalize_append h1, t2, totalize_append h2, t3, totalize_append h3, t4,
      totalize_append h4, h⟩

theorem totalize_verifyVotes {B : Backend F E} {spare : Bytes} {K : PublicKey E} {range : PreparedRange E}
    (l : List (CiphertextWithRangeProof F E)) : ∀ {i : ℕ} {out},
      QuadraticVotingBallot.verifyVotes B K range i l = some out →
      QuadraticVotingBallot.verifyVotes (totalize B spare) K range i l = some out := by
  induction l with
  | nil => intro i out h; exact h
  | cons v l ih =>
    intro i out h
    simp only [QuadraticVotingBallot.verifyVotes, Option.bind_eq_bind, Option.bind_eq_some_iff, Prod.exists] at h ⊢
    obtain ⟨r, t', h1, h⟩ := h
    refine ⟨r, t', totalize_range h1, ?_⟩
    cases r with
    | error e => exact h
    | ok u => exact ih h

theorem totalize_ballot {B : Backend F E} {spare : Bytes} {ballot : QuadraticVotingBallot F E}
    {params : QuadraticVotingParams E} {out} (h : ballot.verify B params = some out) :
    ballot.verify (totalize B spare) params = some out := by
  unfold QuadraticVotingBallot.verify at h ⊢
  split
  · rename_i e he
    rw [he] at h
    exact h
  · rename_i he
    rw [he] at h
    simp only [Option.bind_eq_bind, Option.bind_eq_some_iff] at h ⊢
    obtain ⟨r, h1, h⟩ := h
    refine ⟨r, totalize_verifyVotes _ h1, ?_⟩
    cases r with
    | error e => exact h
    | ok u =>
      simp only [Option.bind_eq_some_iff, Prod.exists] at h ⊢
      obtain ⟨r2, t2, h2, h⟩ := h
      refine ⟨r2, t2, totalize_range h2, ?_⟩
      cases r2 with
      | error e => exact h
      | ok u =>
        simp only [Option.bind_eq_some_iff, Prod.exists] at h ⊢
        obtain ⟨r3, t3, h3, h⟩ := h
        exact ⟨r3, t3, totalize_sumSq h3, h⟩

/-! ## Parts of a ballot -/

/-- Shape of an encrypted value with its range proof. It does not depend on encodings. -/
def RangeShape (B : Backend F E) (K : PublicKey E) (range : PreparedRange E) (value : ℕ)
    (ct : CiphertextWithValue F E ℕ) (proof : RangeProof F E) : Prop :=
  ∃ (rs : Fin (rangeRings range) → F) (p : RangeScalars F range),
    ct = ⟨⟨(makeRange (rangeCts B K range value rs) p).1, (List.ofFn rs).sum⟩, value⟩ ∧
    proof = (makeRange (rangeCts B K range value rs) p).2

theorem RangeShape.opened {B : Backend F E} {n : ℕ} {range : PreparedRange E} (hr : PreparedFor B n range)
    {K : PublicKey E} {value : ℕ} (hv : value < n) {ct : CiphertextWithValue F E ℕ} {proof : RangeProof F E}
    (h : RangeShape B K range value ct proof) : Opened B K.element ct.generalize ∧ ct.value = value := by
  obtain ⟨rs, p, rfl, rfl⟩ := h
  have hct : (makeRange (rangeCts B K range value rs) p).1 =
      ⟨(List.ofFn rs).sum • B.gen, (value : F) • B.gen + (List.ofFn rs).sum • K.element⟩ := by
    rw [← sum_ringMessage hr.facts hv]
    simp only [makeRange, List.map_ofFn, Function.comp_def, rangeCts, List.sum_ofFn, Finset.sum_smul,
      Finset.sum_add_distrib]
  refine ⟨?_, rfl⟩
  rw [hct]
  exact ⟨rfl, rfl⟩

theorem rangeShape_new (B : Backend F E) (hB : B.Lawful) {n : ℕ} {range : PreparedRange E} (hr : PreparedFor B n range)
    (t t' : Transcript) (K : PublicKey E) {value : ℕ} {tape rest : List F} {ct : CiphertextWithValue F E ℕ}
    {proof : RangeProof F E} (h : RangeProof.new B.withTape K range value t tape = some ((ct, proof), t', rest)) :
    RangeShape B K range value ct proof ∧ proof.verify B K range ct.ciphertext t = some (.ok (), t') := by
  obtain ⟨hv, hval, hop, hver⟩ := RangeProof.new_spec (B := B.withTape) hr.withTape h
  rw [RangeProof.verify_withTape] at hver
  refine ⟨?_, hver⟩
  obtain ⟨-, rs, p, he⟩ := range_output B hr t K tape (ct.ciphertext, proof) (by rw [rangeOutput, h]; rfl)
  obtain ⟨e1, e2⟩ := Prod.mk.inj he
  refine ⟨rs, p, ?_, e2⟩
  have hs : RangeShape B K range value ⟨⟨(makeRange (rangeCts B K range value rs) p).1, (List.ofFn rs).sum⟩, value⟩ _ :=
    ⟨rs, p, rfl, rfl⟩
  obtain ⟨⟨c1, r⟩, v⟩ := ct
  obtain rfl : v = value := hval
  have hr1 : r = (List.ofFn rs).sum := by
    have h1 := hop.1
    have h2 := (hs.opened hr hv).1.1
    change _ = r • B.gen at h1
    change _ = (List.ofFn rs).sum • B.gen at h2
    have e1' := congrArg Ciphertext.random e1
    exact hB.smul_gen_inj (h1.symm.trans (e1'.trans h2))
  rw [← hr1]
  have e3 : c1 = (makeRange (rangeCts B K range v rs) p).1 := e1
  rw [e3]

theorem rangeShape_tape (B : Backend F E) (hB : B.Lawful) {n : ℕ} {range : PreparedRange E} (hr : PreparedFor B n range)
    (t t' : Transcript) (K : PublicKey E) {value : ℕ} (hv : value < n) {ct : CiphertextWithValue F E ℕ}
    {proof : RangeProof F E} (hs : RangeShape B K range value ct proof)
    (h : proof.verify B K range ct.ciphertext t = some (.ok (), t')) :
    ∃ T : List F, T.length = rangeDraws range ∧
      (∀ xs, RangeProof.new B.withTape K range value t (T ++ xs) = some ((ct, proof), t', xs)) ∧
      ∀ tape ct' t'' xs, T.length ≤ tape.length →
        RangeProof.new B.withTape K range value t tape = some ((ct', proof), t'', xs) →
        ct'.ciphertext = ct.ciphertext → tape = T ++ xs := by
  obtain ⟨k, hk⟩ := hB.gen_spans K.element
  obtain ⟨rs, p, rfl, rfl⟩ := hs
  exact range_new_tape B hB hr K k hk hv rs p t t' h

/-- Shapes of all votes. -/
def VotesShape (B : Backend F E) (K : PublicKey E) (range : PreparedRange E) (votes : List ℕ)
    (outs : List (CiphertextWithValue F E × RangeProof F E)) : Prop :=
  List.Forall₂ (fun v (out : CiphertextWithValue F E × RangeProof F E) => ∃ ct : CiphertextWithValue F E ℕ,
    RangeShape B K range v ct out.2 ∧ out.1 = ct.generalize) votes outs

theorem votesShape_new (B : Backend F E) (hB : B.Lawful) {n : ℕ} {range : PreparedRange E} (hr : PreparedFor B n range)
    (K : PublicKey E) (votes : List ℕ) : ∀ {tape rest : List F} {outs : List (CiphertextWithValue F E × RangeProof F E)},
    QuadraticVotingBallot.encryptVotes B.withTape K range votes tape = some (outs, rest) →
    VotesShape B K range votes outs := by
  induction votes with
  | nil =>
    intro tape rest outs h
    simp only [QuadraticVotingBallot.encryptVotes, Option.some.injEq, Prod.mk.injEq] at h
    obtain ⟨rfl, -⟩ := h
    exact .nil
  | cons v votes ih =>
    intro tape rest outs h
    simp only [QuadraticVotingBallot.encryptVotes, Option.bind_eq_bind, Option.bind_eq_some_iff, Option.pure_def,
      Option.some.injEq, Prod.mk.injEq, Prod.exists] at h
    obtain ⟨ct, proof, t', rest1, h1, outs', rest2, h2, rfl, rfl⟩ := h
    exact .cons ⟨ct, (rangeShape_new B hB hr _ _ K h1).1, rfl⟩ (ih h2)

theorem votesShape_tape (B : Backend F E) (hB : B.Lawful) {n : ℕ} {range : PreparedRange E} (hr : PreparedFor B n range)
    (K : PublicKey E) {votes : List ℕ} {outs : List (CiphertextWithValue F E × RangeProof F E)}
    (hs : VotesShape B K range votes outs) :
    (∀ v ∈ votes, v < n) →
    (∀ out ∈ outs, ∃ t', out.2.verify B K range out.1.ciphertext (Transcript.new "quadratic_voting_variant") =
      some (.ok (), t')) →
    ∃ T : List F, T.length = votes.length * rangeDraws range ∧
      (∀ xs, QuadraticVotingBallot.encryptVotes B.withTape K range votes (T ++ xs) = some (outs, xs)) ∧
      ∀ tape outs' xs, T.length ≤ tape.length →
        QuadraticVotingBallot.encryptVotes B.withTape K range votes tape = some (outs', xs) →
        (outs'.map fun o => (o.1.ciphertext, o.2)) = (outs.map fun o => (o.1.ciphertext, o.2)) → tape = T ++ xs := by
  induction hs with
  | nil =>
    intro _ _
    refine ⟨[], by simp, fun xs => rfl, ?_⟩
    intro tape outs' xs _ h _
    simp only [QuadraticVotingBallot.encryptVotes, Option.some.injEq, Prod.mk.injEq] at h
    exact h.2
  | @cons v out votes outs hh hs ih =>
    intro hv hver
    obtain ⟨o1, proof⟩ := out
    obtain ⟨ct, hsh, rfl⟩ := hh
    obtain ⟨T2, hl2, h2, hu2⟩ := ih (fun w hw => hv w (by simp [hw])) (fun o ho => hver o (by simp [ho]))
    obtain ⟨t', hv1⟩ := hver _ (List.mem_cons_self)
    obtain ⟨T1, hl1, h1, hu1⟩ := rangeShape_tape B hB hr _ t' K (hv v (by simp)) hsh hv1
    refine ⟨T1 ++ T2, ?_, ?_, ?_⟩
    · rw [List.length_append, hl1, hl2, List.length_cons]; ring
    · intro xs
      simp only [List.append_assoc, QuadraticVotingBallot.encryptVotes, h1, h2, Option.bind_eq_bind, Option.bind_some,
        Option.pure_def]
    · intro tape outs' xs hl h he
      simp only [QuadraticVotingBallot.encryptVotes, Option.bind_eq_bind, Option.bind_eq_some_iff, Option.pure_def,
        Option.some.injEq, Prod.mk.injEq, Prod.exists] at h
      obtain ⟨ct', proof', t'', rest1, g1, outs2, rest2, g2, rfl, rfl⟩ := h
      simp only [List.map_cons, List.cons.injEq, Prod.mk.injEq] at he
      obtain ⟨⟨e1, rfl⟩, e2⟩ := he
      have h3 := hu1 tape ct' t'' rest1 (by rw [List.length_append] at hl; omega) g1 e1
      subst h3
      rw [hu2 rest1 outs2 rest2 (by simp only [List.length_append] at hl; omega) g2 e2, List.append_assoc]

/-! ## Ballots -/

theorem Spec.VotingParamsFor.withTape {B : Backend F E} {params : QuadraticVotingParams E} {o c m : ℕ}
    (h : VotingParamsFor B params o c m) : VotingParamsFor B.withTape params o c m := ⟨h.options, h.votes, h.credits⟩

theorem Spec.VotingParamsFor.totalize {B : Backend F E} {params : QuadraticVotingParams E} {o c m : ℕ}
    (h : VotingParamsFor B params o c m) (spare : Bytes) : VotingParamsFor (totalize B spare) params o c m :=
  ⟨h.options, h.votes, h.credits⟩

/-- Shape of a ballot. -/
def BallotShape (B : Backend F E) (params : QuadraticVotingParams E) (votes : List ℕ)
    (ballot : QuadraticVotingBallot F E) : Prop :=
  ∃ outs ct, VotesShape B params.receiver params.voteCountRange votes outs ∧
    RangeShape B params.receiver params.creditRange (cost votes) ct ballot.credit.rangeProof ∧
    ballot.votes = outs.map (fun o => ⟨o.1.ciphertext, o.2⟩) ∧ ballot.credit.ciphertext = ct.ciphertext

theorem ballotShape_new (B : Backend F E) (hB : B.Lawful) {params : QuadraticVotingParams E} {o c m : ℕ}
    (hp : VotingParamsFor B params o c m) (votes : List ℕ) (hc : cost votes < 2 ^ 64) (tape : List F)
    (ballot : QuadraticVotingBallot F E) (h : votingOutput B params votes tape = some ballot) :
    BallotShape B params votes ballot ∧ ballot.verify B params = some (.ok (ballot.votes.map (·.ciphertext))) := by
  obtain ⟨⟨_, rest⟩, hnew, rfl⟩ := Option.map_eq_some_iff.mp h
  rename_i ballot
  obtain ⟨k, hk⟩ := hB.gen_spans params.receiver.element
  have hver := (C36_ballot_complete B.withTape params o c m hp.withTape k hk votes (.inr hc) tape rest ballot hnew).1
  refine ⟨?_, ?_⟩
  · simp only [QuadraticVotingBallot.new, Option.bind_eq_bind, Option.bind_eq_some_iff, Option.pure_def,
      Option.some.injEq, Prod.mk.injEq, Prod.exists] at hnew
    obtain ⟨-, -, credit, hcr, outs, rest1, h1, ct, proof, t2, rest2, h2, sp, t3, rest3, h3, rfl, -⟩ := hnew
    have hcr' : credit = cost votes :=
      Option.some.inj (hcr.symm.trans (QuadraticVotingBallot.creditOf_eq hc))
    subst hcr'
    exact ⟨outs, ct, votesShape_new B hB hp.votes _ votes h1, (rangeShape_new B hB hp.credits _ _ _ h2).1, rfl, rfl⟩
  · have hw : ∀ v : CiphertextWithRangeProof F E, ∀ K range t, v.rangeProof.verify B.withTape K range v.ciphertext t =
        v.rangeProof.verify B K range v.ciphertext t := fun v K range t => RangeProof.verify_withTape _ _ _ _ _
    have hvotes : ∀ (l : List (CiphertextWithRangeProof F E)) K range i,
        QuadraticVotingBallot.verifyVotes B.withTape K range i l = QuadraticVotingBallot.verifyVotes B K range i l := by
      intro l K range
      induction l with
      | nil => intro i; rfl
      | cons v l ih => intro i; simp only [QuadraticVotingBallot.verifyVotes, hw, ih]
    rw [← hver]
    simp only [QuadraticVotingBallot.verify, hvotes, hw, SumOfSquaresProof.verify_withTape]

/-- Every valid ballot is made from one list of random scalars. -/
theorem ballotShape_tape (B : Backend F E) (hB : B.Lawful) {params : QuadraticVotingParams E} {o c m : ℕ}
    (hp : VotingParamsFor B params o c m) (votes : List ℕ) (hl : votes.length = o) (hv : ∀ v ∈ votes, v ≤ m)
    (hc : cost votes ≤ c) (ballot : QuadraticVotingBallot F E) (hs : BallotShape B params votes ballot)
    (hver : ballot.verify B params = some (.ok (ballot.votes.map (·.ciphertext)))) :
    ∃! tape : Fin (ballotDraws params o) → F, votingOutput B params votes (List.ofFn tape) = some ballot := by
  have hc64 : cost votes < 2 ^ 64 := by
    obtain ⟨_, _, _, h, _⟩ := hp.credits
    omega
  obtain ⟨outs, ct, hs1, hs2, e1, e2⟩ := hs
  obtain ⟨bv, ⟨bc, bp⟩, sp⟩ := ballot
  simp only at e1 e2 hs2
  subst e1 e2
  obtain ⟨-, -, hv1, ⟨t2, hv2⟩, t3, hv3⟩ := QuadraticVotingBallot.verify_ok.mp hver
  simp only at hv1 hv2 hv3
  have hv1' : ∀ out ∈ outs, ∃ t', out.2.verify B params.receiver params.voteCountRange out.1.ciphertext
      (Transcript.new "quadratic_voting_variant") = some (.ok (), t') := by
    intro out hout
    exact hv1 ⟨out.1.ciphertext, out.2⟩ (List.mem_map.mpr ⟨out, hout, rfl⟩)
  have hlo : outs.length = o := hl ▸ (List.Forall₂.length_eq hs1).symm
  obtain ⟨T1, hl1, h1, hu1⟩ := votesShape_tape B hB hp.votes params.receiver hs1
    (fun v h => Nat.lt_succ_of_le (hv v h)) hv1'
  obtain ⟨T2, hl2, h2, hu2⟩ := rangeShape_tape B hB hp.credits _ t2 params.receiver (Nat.lt_succ_of_le hc) hs2 hv2
  -- the ciphertexts of the last proof
  have hop : ∀ x ∈ outs.map Prod.fst, Opened B params.receiver.element x := by
    intro x hx
    obtain ⟨out, hout, rfl⟩ := List.mem_map.mp hx
    obtain ⟨i, hi, rfl⟩ := List.getElem_of_mem hout
    obtain ⟨ct', hsh, he⟩ := (List.forall₂_iff_get.mp hs1).2 i (by rw [List.Forall₂.length_eq hs1]; exact hi) hi
    have := (hsh.opened hp.votes (Nat.lt_succ_of_le (hv _ (List.get_mem _ _)))).1
    rw [← he] at this
    exact this
  have hvals : outs.map (fun p => p.1.value) = votes.map fun v : ℕ => (v : F) := by
    rw [← List.forall₂_eq_eq_eq, List.forall₂_map_left_iff, List.forall₂_map_right_iff]
    refine (List.forall₂_iff_get.mpr ⟨(List.Forall₂.length_eq hs1).symm, fun i hi1 hi2 => ?_⟩)
    obtain ⟨ct', hsh, he⟩ := (List.forall₂_iff_get.mp hs1).2 i hi2 hi1
    have := (hsh.opened hp.votes (Nat.lt_succ_of_le (hv _ (List.get_mem _ _)))).2
    rw [he]
    show (ct'.value : F) = _
    rw [this]
  have hoc := hs2.opened hp.credits (Nat.lt_succ_of_le hc)
  have hsum : ct.generalize.value = ((outs.map Prod.fst).map fun ct => ct.value * ct.value).sum := by
    show (ct.value : F) = _
    rw [hoc.2, List.map_map]
    have h1 : (outs.map ((fun x : CiphertextWithValue F E => x.value * x.value) ∘ Prod.fst)) =
        (outs.map (fun p => p.1.value)).map fun x => x * x := by
      rw [List.map_map]; rfl
    rw [h1, hvals, List.map_map, cost]
    simp [Function.comp_def]
  have hcts : (outs.map fun o => (⟨o.1.ciphertext, o.2⟩ : CiphertextWithRangeProof F E)).map (·.ciphertext) =
      (outs.map Prod.fst).map (·.ciphertext) := by
    rw [List.map_map, List.map_map]
    rfl
  rw [hcts] at hv3
  obtain ⟨T3, ⟨hl3, h3⟩, hu3⟩ := C51_sum_sq_zk B (outs.map Prod.fst) ct.generalize params.receiver hop hoc.1 hsum sp
    _ t3 hv3
  rw [List.length_map, hlo] at hl3
  rw [hl] at hl1
  have hg : (guard (votes.length = params.optionsCount) : Option Unit) = some () := by
    simp [guard, hp.options, hl]
  have hcr : QuadraticVotingBallot.creditOf B.withTape.debug votes = some (cost votes) :=
    QuadraticVotingBallot.creditOf_eq hc64
  have hT : (T1 ++ (T2 ++ T3)).length = ballotDraws params o := by
    rw [List.length_append, List.length_append, hl1, hl2, hl3, ballotDraws]
  refine ⟨fun i => (T1 ++ (T2 ++ T3)).get ⟨i, by rw [hT]; exact i.2⟩, ?_, ?_⟩
  · show votingOutput B params votes (List.ofFn _) = _
    rw [ofFn_get_of_length hT]
    simp only [votingOutput, QuadraticVotingBallot.new, hg, hcr, h1, h2, h3, Option.bind_eq_bind, Option.bind_some,
      Option.pure_def, Option.map_some]
    rfl
  · intro tape ht
    have hlen : (List.ofFn tape).length =
        o * rangeDraws params.voteCountRange + (rangeDraws params.creditRange + (o * 2 + 1)) := List.length_ofFn
    generalize htl : List.ofFn tape = tl at ht hlen
    obtain ⟨⟨b, rest⟩, hnew, he⟩ := Option.map_eq_some_iff.mp ht
    simp only [QuadraticVotingBallot.new, hg, hcr, Option.bind_eq_bind, Option.bind_eq_some_iff, Option.bind_some,
      Option.pure_def, Option.some.injEq, Prod.mk.injEq, Prod.exists] at hnew
    obtain ⟨outs', rest1, g1, ct', proof', t2', rest2, g2, sp', t3', rest3, g3, rfl, -⟩ := hnew
    simp only [QuadraticVotingBallot.mk.injEq, CiphertextWithRangeProof.mk.injEq] at he
    obtain ⟨e1, ⟨e2, rfl⟩, rfl⟩ := he
    have e1' : (outs'.map fun o => (o.1.ciphertext, o.2)) = (outs.map fun o => (o.1.ciphertext, o.2)) := by
      have := congrArg (List.map fun v : CiphertextWithRangeProof F E => (v.ciphertext, v.rangeProof)) e1
      simpa [List.map_map, Function.comp_def] using this
    have f1 := hu1 tl outs' rest1 (by rw [hl1]; omega) g1 e1'
    subst f1
    rw [h1] at g1
    obtain ⟨rfl, -⟩ := Prod.mk.inj (Option.some.inj g1)
    rw [List.length_append, hl1] at hlen
    have f2 := hu2 rest1 ct' t2' rest2 (by rw [hl2]; omega) g2 e2
    subst f2
    rw [h2] at g2
    simp only [Option.some.injEq, Prod.mk.injEq, and_true] at g2
    obtain ⟨rfl, -⟩ := g2
    rw [List.length_append, hl2] at hlen
    have hr := SumOfSquaresProof.new_rest g3
    rw [List.drop_eq_nil_of_le (by rw [List.length_map, hlo]; omega)] at hr
    subst hr
    have hcm := C19_sum_sq_complete B.withTape (outs.map Prod.fst) ct.generalize params.receiver hop hoc.1 hsum _ t3' _ _ _ g3
    rw [SumOfSquaresProof.verify_withTape] at hcm
    obtain rfl : t3 = t3' := (Prod.mk.inj (Option.some.inj (hv3.symm.trans hcm))).2
    have f3 := hu3 rest2 ⟨by rw [List.length_map, hlo]; omega, g3⟩
    subst f3
    rw [← ofFn_get_of_length hT] at htl
    exact List.ofFn_injective htl

/-- Ballots in a group with partial encodings are those in the group with all encodings, without those that cannot be
verified. -/
theorem voting_partial (B : Backend F E) (hB : B.Lawful) {spare : Bytes} (hs : SpareEncoding B spare)
    {params : QuadraticVotingParams E} {o c m : ℕ} (hp : VotingParamsFor B params o c m) (votes : Fin o → ℕ)
    (hv : ∀ i, votes i ≤ m) (hc : cost (List.ofFn votes) ≤ c) :
    ∃ σ : Equiv.Perm (Fin (ballotDraws params o) → F), ∀ tape,
      votingOutput B params (List.ofFn votes) (List.ofFn tape) =
      (votingOutput (totalize B spare) params (List.ofFn votes) (List.ofFn (σ tape))).filter fun ballot =>
        (ballot.verify B params).isSome := by
  have hB' := hB.totalize hs
  have hp' := hp.totalize spare
  have hl : (List.ofFn votes).length = o := List.length_ofFn
  have hv' : ∀ v ∈ List.ofFn votes, v ≤ m := by
    intro v h
    obtain ⟨i, rfl⟩ := List.mem_ofFn.mp h
    exact hv i
  have hc64 : cost (List.ofFn votes) < 2 ^ 64 := by
    obtain ⟨_, _, _, h, _⟩ := hp.credits
    omega
  refine exists_perm_filter (fun tape : Fin (ballotDraws params o) → F => votingOutput B params (List.ofFn votes)
    (List.ofFn tape)) (fun tape => votingOutput (totalize B spare) params (List.ofFn votes) (List.ofFn tape)) _ ?_ ?_ ?_ ?_ ?_
  · intro tape x h
    rw [(ballotShape_new B hB hp _ hc64 _ x h).2]
    rfl
  · intro t₁ t₂ x h₁ h₂
    obtain ⟨hx, hy⟩ := ballotShape_new B hB hp _ hc64 _ x h₁
    exact (ballotShape_tape B hB hp _ hl hv' hc x hx hy).unique h₁ h₂
  · intro t₁ t₂ x h₁ h₂
    obtain ⟨hx, hy⟩ := ballotShape_new _ hB' hp' _ hc64 _ x h₁
    exact (ballotShape_tape _ hB' hp' _ hl hv' hc x hx hy).unique h₁ h₂
  · intro tape x h
    obtain ⟨hx, hy⟩ := ballotShape_new B hB hp _ hc64 _ x h
    exact (ballotShape_tape _ hB' hp' _ hl hv' hc x hx (totalize_ballot hy)).exists
  · intro tape x h hA
    obtain ⟨hx, hy⟩ := ballotShape_new _ hB' hp' _ hc64 _ x h
    obtain ⟨out, hout⟩ := Option.isSome_iff_exists.mp hA
    have e := hy.symm.trans (totalize_ballot (spare := spare) hout)
    rw [← Option.some.inj e] at hout
    exact (ballotShape_tape B hB hp _ hl hv' hc x hx hout).exists

end ElasticElgamal
