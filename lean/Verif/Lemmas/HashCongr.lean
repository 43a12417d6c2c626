import Verif.Lemmas.Points
import Verif.Lemmas.RangePrivacy

/-!
# Lemmas: provers evaluate the hash function only on data that begins with their context
-/

set_option autoImplicit false
set_option linter.unusedSectionVars false

namespace ElasticElgamal

open Spec

variable {F E : Type} [Field F] [AddCommGroup E] [Module F E] [DecidableEq F] [DecidableEq E]
variable {B : Backend F E} {H H' : List Entry → F} {P : List Entry}

/-- Data that does not end like data hashed for proofs of log equality and of possession. -/
def ProverData (q : List Entry) : Prop := ∃ l s x, q = l ++ [.msg s x, .chal "c"] ∧ s ≠ "[x]K" ∧ s ≠ "R"

/-- Two hash functions agree on the data that begins with `P` and is hashed for ring proofs and sum-of-squares proofs. -/
def Agree (P : List Entry) (H H' : List Entry → F) : Prop := ∀ q, P <+: q → ProverData q → H' q = H q

/-- The same for a transcript before the challenge. -/
def LastOk (l : List Entry) : Prop := ∃ l' s x, l = l' ++ [.msg s x] ∧ s ≠ "[x]K" ∧ s ≠ "R"

theorem LastOk.data {l : List Entry} (h : LastOk l) : ProverData (l ++ [.chal "c"]) := by
  obtain ⟨l', s, x, rfl, hs⟩ := h
  exact ⟨l', s, x, by simp, hs⟩

theorem ringChal_congr (hag : Agree P H H') {base : List Entry} (hb : P <+: base) (j : ℕ) (m : E × E) :
    ringChal (B.withHash H') base j m = ringChal (B.withHash H) base j m := by
  simp only [ringChal]
  congr 1
  funext x
  congr 1
  funext y
  have : H' (ringQuery base j x y) = H (ringQuery base j x y) := by
    refine hag _ (hb.trans ?_) ⟨base ++ [.msg "j" (leBytes 8 j), .msg "R_G" x], "R_K", y, by simp [ringQuery], by decide⟩
    rw [ringQuery]
    exact List.prefix_append _ _
  exact congrArg some this

theorem Ring.newLoop_congr (hag : Agree P H H') {K : E} {ct : Ciphertext E} {t : Transcript}
    (ht : P <+: t.log) (vs : List E) : ∀ (j : ℕ) (m : E × E) (rs : List F) (rng : B.Rng),
    newLoop (B.withHash H') K ct t (j + 1) vs m rs rng = newLoop (B.withHash H) K ct t (j + 1) vs m rs rng := by
  induction vs with
  | nil => intro j m rs rng; rfl
  | cons v vs ih =>
    intro j m rs rng
    rw [newLoop_cons, newLoop_cons, ringChal_congr hag ht]
    congr 1
    funext c
    congr 1
    funext rs'
    exact ih _ _ _ _

theorem Ring.finalizeLoop_congr (hag : Agree P H H') {K : E} {ct : Ciphertext E} {t : Transcript}
    (ht : P <+: t.log) (vs : List E) : ∀ (j : ℕ) (c : F) (rs : List F) (rng : B.Rng),
    finalizeLoop (B.withHash H') K ct t j vs c rs rng = finalizeLoop (B.withHash H) K ct t j vs c rs rng := by
  induction vs with
  | nil => intro j m rs rng; rfl
  | cons v vs ih =>
    intro j c rs rng
    rw [finalizeLoop_cons, finalizeLoop_cons, ringChal_congr hag ht]
    congr 1
    funext rs'
    congr 1
    funext c'
    exact ih _ _ _ _

theorem Ring.new_congr (hag : Agree P H H') {i : ℕ} {K : E} {ct : ExtendedCiphertext F E} {vs : List E}
    {vi : ℕ} {t : Transcript} (ht : P <+: t.log) {rs : List F} {rng : B.Rng} :
    Ring.new (B.withHash H') i K ct vs vi t rs rng = Ring.new (B.withHash H) i K ct vs vi t rs rng ∧
    ∀ ring rng', Ring.new (B.withHash H) i K ct vs vi t rs rng = some (ring, rng') → P <+: ring.transcript.log := by
  constructor
  · simp only [Ring.new, Option.bind_eq_bind]
    congr 1
    funext _
    congr 1
    funext _
    congr 1
    funext _
    congr 1
    funext kv
    congr 1
    funext _
    congr 1
    funext enc
    rw [newLoop_congr hag]
    · rfl
    · exact ht.trans (by simp [Transcript.startProof, Transcript.appendMessage, Transcript.appendU64, List.append_assoc])
  · intro ring rng' h
    simp only [Ring.new, Option.bind_eq_bind, Option.bind_eq_some_iff, Option.pure_def, Option.some.injEq,
      Prod.mk.injEq, Prod.exists] at h
    obtain ⟨-, -, -, -, -, -, -, -, -, -, enc, -, m, m', rs', rng1, -, rfl, -⟩ := h
    exact ht.trans (by simp [Transcript.startProof, Transcript.appendMessage, Transcript.appendU64, List.append_assoc])

theorem Ring.finalize_congr (hag : Agree P H H') {ring : Ring F E} (hr : P <+: ring.transcript.log) {K : E}
    {c : F} {rng : B.Rng} : ring.finalize (B.withHash H') K c rng = ring.finalize (B.withHash H) K c rng := by
  simp only [Ring.finalize, finalizeLoop_congr hag hr]
  rfl

theorem Ring.finalizeAll_congr (hag : Agree P H H') {K : E} {c : F} (rings : List (Ring F E)) :
    (∀ r ∈ rings, P <+: r.transcript.log) → ∀ rng : B.Rng,
    finalizeAll (B.withHash H') K c rings rng = finalizeAll (B.withHash H) K c rings rng := by
  induction rings with
  | nil => intro _ rng; rfl
  | cons r rings ih =>
    intro h rng
    simp only [finalizeAll, finalize_congr hag (h r (by simp)), Option.bind_eq_bind]
    congr 1
    funext x
    rw [ih (fun r' hr' => h r' (by simp [hr']))]

theorem Ring.appendTerminal_prefix {B : Backend F E} (rings : List (Ring F E)) : ∀ {t t' : Transcript},
    appendTerminal B rings t = some t' → t.log <+: t'.log ∧ (LastOk t.log → LastOk t'.log) := by
  induction rings with
  | nil => intro t t' h; simp only [appendTerminal, Option.some.injEq] at h; simp [h]
  | cons r rings ih =>
    intro t t' h
    simp only [appendTerminal, Option.bind_eq_bind, Option.bind_eq_some_iff, Backend.appendElement_eq_some] at h
    obtain ⟨t1, ⟨x, -, rfl⟩, t2, ⟨y, -, rfl⟩, h⟩ := h
    refine ⟨List.IsPrefix.trans ?_ (ih h).1, fun _ => (ih h).2 ⟨_, "R_K", y, rfl, by decide⟩⟩
    simp [Transcript.appendElementBytes, Transcript.appendMessage, List.append_assoc]

theorem Ring.appendTerminal_congr (rings : List (Ring F E)) : ∀ t : Transcript,
    appendTerminal (B.withHash H') rings t = appendTerminal (B.withHash H) rings t := by
  induction rings with
  | nil => intro t; rfl
  | cons r rings ih => intro t; simp only [appendTerminal, ih]; rfl

theorem Ring.aggregate_congr (hag : Agree P H H') {rings : List (Ring F E)}
    (h : ∀ r ∈ rings, P <+: r.transcript.log) {K : E} {t : Transcript} (ht : P <+: t.log) (hl : LastOk t.log)
    {rng : B.Rng} :
    aggregate (B.withHash H') rings K t rng = aggregate (B.withHash H) rings K t rng := by
  simp only [aggregate, Option.bind_eq_bind]
  congr 1
  funext _
  refine (congrArg (fun x => Option.bind x _) (appendTerminal_congr (H := H) rings t)).trans ?_
  refine Option.bind_congr fun t' ht' => ?_
  have h1 : H' (t'.log ++ [.chal "c"]) = H (t'.log ++ [.chal "c"]) :=
    hag _ ((ht.trans (appendTerminal_prefix rings ht').1).trans (List.prefix_append _ _))
      ((appendTerminal_prefix rings ht').2 hl).data
  have h2 : (B.withHash H').challengeScalar t' "c" = (B.withHash H).challengeScalar t' "c" := by
    simp only [Backend.challengeScalar]
    exact congrArg (fun x => (x, _)) h1
  simp only [h2, finalizeAll_congr hag rings h]

/-- The same builder for another hash function. -/
def RingProofBuilder.toHash (b : RingProofBuilder (B.withHash H)) : RingProofBuilder (B.withHash H') :=
  ⟨b.receiver, b.transcript, b.rings, b.ringResponses, b.rng⟩

/-- All transcripts begin with `P`. -/
def RingProofBuilder.Within (P : List Entry) {B : Backend F E} (b : RingProofBuilder B) : Prop :=
  (P <+: b.transcript.log ∧ LastOk b.transcript.log) ∧ ∀ r ∈ b.rings, P <+: r.transcript.log

theorem RingProofBuilder.addPrecomputed_congr (hag : Agree P H H') (b : RingProofBuilder (B.withHash H))
    (hb : b.Within P) (ct : ExtendedCiphertext F E) (vs : List E) (vi : ℕ) :
    addPrecomputedValue (B.withHash H') b.toHash ct vs vi =
      (addPrecomputedValue (B.withHash H) b ct vs vi).map toHash ∧
    ∀ b', addPrecomputedValue (B.withHash H) b ct vs vi = some b' → b'.Within P := by
  obtain ⟨h1, h2⟩ := Ring.new_congr (B := B) hag (i := b.rings.length) (K := b.receiver.element) (ct := ct) (vs := vs)
    (vi := vi) hb.1.1 (rs := b.ringResponses.take vs.length) (rng := b.rng)
  constructor
  · simp only [addPrecomputedValue, toHash, h1, Option.bind_eq_bind, Option.map_bind]
    congr 1
    funext _
    simp only [Function.comp, Option.map_bind]
    rfl
  · intro b' h
    simp only [addPrecomputedValue, Option.bind_eq_bind, Option.bind_eq_some_iff, Option.pure_def, Option.some.injEq,
      Prod.exists] at h
    obtain ⟨-, -, ring, rng', h, rfl⟩ := h
    refine ⟨hb.1, fun r hr => ?_⟩
    rcases List.mem_append.mp hr with hr | hr
    · exact hb.2 r hr
    · rw [List.mem_singleton.mp hr]
      exact h2 _ _ h

theorem RingProofBuilder.addValue_congr (hag : Agree P H H') (b : RingProofBuilder (B.withHash H))
    (hb : b.Within P) (vs : List E) (vi : ℕ) :
    addValue (B.withHash H') b.toHash vs vi = (addValue (B.withHash H) b vs vi).map (fun p => (p.1, p.2.toHash)) ∧
    ∀ ct b', addValue (B.withHash H) b vs vi = some (ct, b') → b'.Within P := by
  constructor
  · simp only [addValue, Option.bind_eq_bind, Option.map_bind]
    congr 1
    funext v
    have := (addPrecomputed_congr hag (H := H) { b with rng := (ExtendedCiphertext.new (B.withHash H) v b.receiver b.rng).2 }
      hb (ExtendedCiphertext.new (B.withHash H) v b.receiver b.rng).1 vs vi).1
    refine (congrArg (fun x => Option.bind x _) this).trans ?_
    simp only [Function.comp, Option.bind_map, Option.map_bind]
    rfl
  · intro ct b' h
    simp only [addValue, Option.bind_eq_bind, Option.bind_eq_some_iff, Option.pure_def, Option.some.injEq,
      Prod.mk.injEq] at h
    obtain ⟨v, -, b1, h, -, rfl⟩ := h
    exact (addPrecomputed_congr (H := H) hag
      { b with rng := (ExtendedCiphertext.new (B.withHash H) v b.receiver b.rng).2 } hb
      (ExtendedCiphertext.new (B.withHash H) v b.receiver b.rng).1 vs vi).2 _ h

theorem RangeProof.addValues_congr (hag : Agree P H H') (items : List (ℕ × List E)) :
    ∀ (cum : ExtendedCiphertext F E) (b : RingProofBuilder (B.withHash H)), b.Within P →
    addValues (B.withHash H') items cum b.toHash =
      (addValues (B.withHash H) items cum b).map (fun p => (p.1, p.2.1, p.2.2.toHash)) ∧
    ∀ cts cum' b', addValues (B.withHash H) items cum b = some (cts, cum', b') → b'.Within P := by
  induction items with
  | nil =>
    intro cum b hb
    refine ⟨rfl, fun cts cum' b' h => ?_⟩
    simp only [addValues, Option.some.injEq, Prod.mk.injEq] at h
    rw [← h.2.2]
    exact hb
  | cons p items ih =>
    obtain ⟨vi, vs⟩ := p
    intro cum b hb
    obtain ⟨h1, h2⟩ := RingProofBuilder.addValue_congr hag b hb vs vi
    constructor
    · simp only [addValues, h1, Option.bind_eq_bind, Option.map_bind, Option.bind_map]
      refine Option.bind_congr fun q hq => ?_
      obtain ⟨ct, b1⟩ := q
      simp only [Function.comp, (ih (cum.add ct) b1 (h2 _ _ hq)).1, Option.bind_map, Option.map_bind]
      rfl
    · intro cts cum' b' h
      simp only [addValues, Option.bind_eq_bind, Option.bind_eq_some_iff, Option.pure_def, Option.some.injEq,
        Prod.mk.injEq, Prod.exists] at h
      obtain ⟨ct, b1, hq, cts1, cum1, b2, h, -, -, rfl⟩ := h
      exact (ih _ b1 (h2 _ _ hq)).2 _ _ _ h

theorem RingProofBuilder.build_congr (hag : Agree P H H') (b : RingProofBuilder (B.withHash H))
    (hb : b.Within P) : build (B.withHash H') b.toHash = build (B.withHash H) b := by
  simp only [build, toHash, Ring.aggregate_congr hag hb.2 hb.1.1 hb.1.2]
  rfl

theorem RangeProof.fromCiphertext_congr (hag : Agree P H H') (K : PublicKey E) (range : PreparedRange E)
    (ct : CiphertextWithValue F E ℕ) (t : Transcript) (ht : P <+: t.log) (rng : B.Rng) :
    fromCiphertext (B.withHash H') K range ct t rng = fromCiphertext (B.withHash H) K range ct t rng := by
  simp only [fromCiphertext, Option.bind_eq_bind]
  congr 1
  funext idx
  congr 1
  funext _
  congr 1
  funext size
  congr 1
  funext _
  have hw : (RingProofBuilder.new (B.withHash H) K (List.replicate size (0 : F))
      ((t.startProof "encryption_range_proof").appendMessage "range" range.inner.display) rng).Within P := by
    refine ⟨⟨ht.trans ?_, _, "K", _, rfl, by decide⟩, by simp [RingProofBuilder.new]⟩
    simp [RingProofBuilder.new, RingProof.initializeTranscript, Transcript.startProof, Transcript.appendMessage,
      Transcript.appendElementBytes, List.append_assoc]
  obtain ⟨h1, h2⟩ := addValues_congr hag ((idx.zip range.admissibleValues).take (idx.length - 1))
    ExtendedCiphertext.zero _ hw
  refine (congrArg (fun x => Option.bind x _) h1).trans ?_
  rw [Option.bind_map]
  refine Option.bind_congr fun q hq => ?_
  obtain ⟨cts, cum, b⟩ := q
  have hw' := h2 _ _ _ hq
  simp only [Function.comp]
  congr 1
  funext p
  obtain ⟨h3, h4⟩ := RingProofBuilder.addPrecomputed_congr hag b hw' (ct.inner.sub cum) p.2 p.1
  refine (congrArg (fun x => Option.bind x _) h3).trans ?_
  rw [Option.bind_map]
  refine Option.bind_congr fun b1 hb1 => ?_
  simp only [Function.comp, RingProofBuilder.build_congr hag b1 (h4 _ hb1)]

/-- A range proof does not depend on the values of the hash function for data that does not begin with its context. -/
theorem RangeProof.new_congr (hag : Agree P H H') (K : PublicKey E) (range : PreparedRange E)
    (value : ℕ) (t : Transcript) (ht : P <+: t.log) (rng : B.Rng) :
    RangeProof.new (B.withHash H') K range value t rng = RangeProof.new (B.withHash H) K range value t rng := by
  simp only [RangeProof.new]
  have : CiphertextWithValue.newU64 (B.withHash H') value K rng = CiphertextWithValue.newU64 (B.withHash H) value K rng :=
    rfl
  rw [this, fromCiphertext_congr hag K range _ t ht]

theorem SumOfSquaresProof.commitLoop_congr (K : PublicKey E) (cts : List (CiphertextWithValue F E)) :
    ∀ (r : F) (t : Transcript) (rng : B.Rng),
    commitLoop (B.withHash H') K cts r t rng = commitLoop (B.withHash H) K cts r t rng := by
  induction cts with
  | nil => intro r t rng; rfl
  | cons ct cts ih =>
    intro r t rng
    simp only [commitLoop, ih]
    rfl

theorem SumOfSquaresProof.new_congr (hag : Agree [] H H') (cts : List (CiphertextWithValue F E))
    (zc : CiphertextWithValue F E) (K : PublicKey E) (t : Transcript) (rng : B.Rng) :
    SumOfSquaresProof.new (B.withHash H') cts zc K t rng = SumOfSquaresProof.new (B.withHash H) cts zc K t rng := by
  have hl := commitLoop_congr (B := B) (H := H) (H' := H') K cts zc.randomness (initializeTranscript t K)
    (SecretKey.generate B rng).2
  simp only [SumOfSquaresProof.new, Option.bind_eq_bind]
  refine Eq.trans (b := (commitLoop (B.withHash H) K cts zc.randomness (initializeTranscript t K)
    (SecretKey.generate B rng).2).bind _) (by rw [← hl]; rfl) ?_
  refine Option.bind_congr fun q _ => ?_
  refine Option.bind_congr fun t1 h1 => Option.bind_congr fun t2 h2 => Option.bind_congr fun t3 h3 =>
    Option.bind_congr fun t4 h4 => ?_
  obtain ⟨y, -, h4⟩ := Backend.appendElement_eq_some.mp h4
  have h : H' (t4.log ++ [.chal "c"]) = H (t4.log ++ [.chal "c"]) :=
    hag _ (List.nil_prefix) (LastOk.data ⟨t3.log, "[e_x]X + [e_z]K", y, by rw [← h4]; rfl, by decide, by decide⟩)
  have h2 : (B.withHash H').challengeScalar t4 "c" = (B.withHash H).challengeScalar t4 "c" := by
    simp only [Backend.challengeScalar]
    exact congrArg (fun x => (x, _)) h
  simp only [h2]
  rfl

theorem QuadraticVotingBallot.encryptVotes_congr (hag : Agree [] H H') (K : PublicKey E) (range : PreparedRange E)
    (votes : List ℕ) : ∀ rng : B.Rng,
    encryptVotes (B.withHash H') K range votes rng = encryptVotes (B.withHash H) K range votes rng := by
  induction votes with
  | nil => intro rng; rfl
  | cons v votes ih =>
    intro rng
    simp only [encryptVotes, RangeProof.new_congr hag K range v _ List.nil_prefix, ih]

/-- A ballot does not depend on the values of the hash function for other data. -/
theorem QuadraticVotingBallot.new_congr (hag : Agree [] H H') (params : QuadraticVotingParams E) (votes : List ℕ)
    (rng : B.Rng) :
    QuadraticVotingBallot.new (B.withHash H') params votes rng = QuadraticVotingBallot.new (B.withHash H) params votes rng := by
  simp only [QuadraticVotingBallot.new, encryptVotes_congr hag, RangeProof.new_congr hag _ _ _ _ List.nil_prefix,
    SumOfSquaresProof.new_congr hag]

end ElasticElgamal
