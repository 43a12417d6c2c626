import Verif.Spec.Transcript
import Verif.Model.Proofs.SumOfSquares
import Verif.Lemmas.Possession

/-!
# Lemmas about sum-of-squares proofs
-/

set_option autoImplicit false
set_option linter.unusedSectionVars false

namespace ElasticElgamal

open Spec

variable {F E : Type} [Field F] [AddCommGroup E] [Module F E]

/-! ## Splitting the responses into pairs -/

/-- Interleave pairs. -/
def unpairs {α : Type} (ps : List (α × α)) : List α := ps.flatMap fun p => [p.1, p.2]

theorem unpairs_length {α : Type} (ps : List (α × α)) : (unpairs ps).length = ps.length * 2 := by
  induction ps with
  | nil => rfl
  | cons p ps ih => simp only [unpairs, List.flatMap_cons, List.length_append] at *; simp [ih]; omega

theorem exists_unpairs {α : Type} : ∀ (n : ℕ) (l : List α), l.length = n * 2 →
    ∃ ps : List (α × α), unpairs ps = l ∧ ps.length = n
  | 0, l, h => ⟨[], by simp at h; simp [unpairs, h], rfl⟩
  | n + 1, a :: b :: l, h => by
    obtain ⟨ps, h1, h2⟩ := exists_unpairs n l (by simp at h; omega)
    exact ⟨(a, b) :: ps, by simp [unpairs] at h1 ⊢; exact h1, by simp [h2]⟩
  | n + 1, [a], h => by simp at h; omega
  | n + 1, [], h => by simp at h

theorem unpairs_inj {α : Type} {ps qs : List (α × α)} (h : unpairs ps = unpairs qs) : ps = qs := by
  induction ps generalizing qs with
  | nil =>
    cases qs with
    | nil => rfl
    | cons q qs => simp [unpairs] at h
  | cons p ps ih =>
    cases qs with
    | nil => simp [unpairs] at h
    | cons q qs =>
      simp only [unpairs, List.flatMap_cons, List.cons_append, List.nil_append, List.cons.injEq] at h
      rw [ih h.2.2, Prod.ext h.1 h.2.1]

theorem chunks_unpairs {α : Type} (ps : List (α × α)) :
    chunks 2 (unpairs ps) = ps.map fun p => [p.1, p.2] := by
  induction ps with
  | nil => rw [chunks]; simp [unpairs]
  | cons p ps ih =>
    rw [chunks]
    simp only [unpairs, List.flatMap_cons, List.cons_append, List.nil_append] at *
    simp [ih]

theorem oddItems_unpairs {α : Type} (ps : List (α × α)) :
    (OddItems.new (unpairs ps)).collect = ps.map (·.2) := by
  have : ∀ (ps : List (α × α)) (fuel : ℕ), ps.length < fuel →
      OddItems.collectFuel fuel ⟨unpairs ps, false⟩ = ps.map (·.2) := by
    intro ps
    induction ps with
    | nil =>
      intro fuel h
      obtain ⟨f, rfl⟩ : ∃ f, fuel = f + 1 := ⟨fuel - 1, by simp at h; omega⟩
      simp [OddItems.collectFuel, OddItems.next, OddItems.iterNext, unpairs]
    | cons p ps ih =>
      intro fuel h
      obtain ⟨f, rfl⟩ : ∃ f, fuel = f + 1 := ⟨fuel - 1, by simp at h; omega⟩
      have : unpairs (p :: ps) = p.1 :: p.2 :: unpairs ps := by simp [unpairs]
      simp only [OddItems.collectFuel, OddItems.next, OddItems.iterNext, this]
      simp only [Bool.false_eq_true, if_false, Option.isNone_some, List.map_cons, List.cons.injEq,
        true_and]
      exact ih f (by simp at h; omega)
  unfold OddItems.collect OddItems.new
  apply this
  simp only [unpairs_length]; omega

namespace SumOfSquaresProof

/-- Relation between a (response pair, ciphertext) and the hashed item computed by the verifier. -/
def VerifierItem (B : Backend F E) (K : E) (c : F) (p : (F × F) × Ciphertext E) (i : SquareItem) :
    Prop :=
  B.serElem p.2.random = some i.r ∧ B.serElem p.2.blinded = some i.x ∧
    B.serElem (p.1.1 • B.gen - c • p.2.random) = some i.e ∧
    B.serElem (p.1.2 • B.gen + p.1.1 • K - c • p.2.blinded) = some i.f

theorem verifyLoop_eq_some {B : Backend F E} {K : PublicKey E} {c : F}
    {l : List ((F × F) × Ciphertext E)} {t t' : Transcript} :
    verifyLoop B K c (-c) (l.map fun p => ([p.1.1, p.1.2], p.2)) t = some t' ↔
      ∃ items, List.Forall₂ (VerifierItem B K.element c) l items ∧
        t' = ⟨t.log ++ items.flatMap SquareItem.entries⟩ := by
  induction l generalizing t with
  | nil => simp [verifyLoop, eq_comm]
  | cons p l ih =>
    obtain ⟨⟨a, b⟩, ct⟩ := p
    have e1 : B.doubleMulGen (-c) ct.random a = a • B.gen - c • ct.random := by
      simp only [Backend.doubleMulGen]; module
    have e2 : Backend.multiMul [b, a, -c] [B.gen, K.element, ct.blinded] =
        b • B.gen + a • K.element - c • ct.blinded := by
      simp only [Backend.multiMul_cons, Backend.multiMul_nil]; module
    simp only [List.map_cons, verifyLoop, List.getElem?_cons_zero, List.getElem?_cons_succ, e1, e2,
      Option.bind_eq_bind, Option.bind_eq_some_iff, Option.bind_some,
      Backend.appendElement_eq_some, ih]
    constructor
    · rintro ⟨_, ⟨r, hr, rfl⟩, _, ⟨x, hx, rfl⟩, _, ⟨e, he, rfl⟩, _, ⟨f, hf, rfl⟩, items, hi, rfl⟩
      exact ⟨⟨r, x, e, f⟩ :: items, .cons ⟨hr, hx, he, hf⟩ hi, by
        simp [Transcript.appendElementBytes, Transcript.appendMessage, SquareItem.entries]⟩
    · rintro ⟨items, hi, rfl⟩
      cases hi with
      | cons h hi =>
        obtain ⟨hr, hx, he, hf⟩ := h
        exact ⟨_, ⟨_, hr, rfl⟩, _, ⟨_, hx, rfl⟩, _, ⟨_, he, rfl⟩, _, ⟨_, hf, rfl⟩, _, hi, by
          simp [Transcript.appendElementBytes, Transcript.appendMessage, SquareItem.entries]⟩

/-- What `verify` does on proofs of the right shape. -/
theorem verify_eq_some [DecidableEq F] {B : Backend F E} {c : F} {ps : List (F × F)} {s : F}
    {cts : List (Ciphertext E)} {zc : Ciphertext E} {K : PublicKey E} {t t' : Transcript}
    {res : Except VerificationError Unit} (hl : ps.length = cts.length) :
    (⟨c, unpairs ps, s⟩ : SumOfSquaresProof F).verify B cts zc K t = some (res, t') ↔
      ∃ items rz z u v, List.Forall₂ (VerifierItem B K.element c) (ps.zip cts) items ∧
        B.serElem zc.random = some rz ∧ B.serElem zc.blinded = some z ∧
        B.serElem (Backend.multiMul (ps.map (·.2)) (cts.map (·.random)) + s • B.gen - c • zc.random)
          = some u ∧
        B.serElem (Backend.multiMul (ps.map (·.2)) (cts.map (·.blinded)) + s • K.element
          - c • zc.blinded) = some v ∧
        t' = ⟨sumSqQuery t.log K.bytes items rz z u v⟩ ∧
        res = checkChallenge (B.challenge (sumSqQuery t.log K.bytes items rz z u v)) c := by
  have hz : (chunks 2 (unpairs ps)).zip cts =
      (ps.zip cts).map fun p => ([p.1.1, p.1.2], p.2) := by
    rw [chunks_unpairs]
    exact (List.zip_map_left ..)
  have e1 : Backend.multiMul (ps.map (·.2) ++ [s, -c]) (cts.map (·.random) ++ [B.gen, zc.random]) =
      Backend.multiMul (ps.map (·.2)) (cts.map (·.random)) + s • B.gen - c • zc.random := by
    rw [Backend.multiMul_append _ _ _ _ (by simp [hl])]
    simp only [Backend.multiMul_cons, Backend.multiMul_nil]; module
  have e2 : Backend.multiMul (ps.map (·.2) ++ [s, -c])
      (cts.map (·.blinded) ++ [K.element, zc.blinded]) =
      Backend.multiMul (ps.map (·.2)) (cts.map (·.blinded)) + s • K.element - c • zc.blinded := by
    rw [Backend.multiMul_append _ _ _ _ (by simp [hl])]
    simp only [Backend.multiMul_cons, Backend.multiMul_nil]; module
  have hlen : VerificationError.checkLengths "ciphertext responses" (unpairs ps).length
    (cts.length * 2) = .ok () := checkLengths_ok.mpr (by rw [unpairs_length, hl])
  simp only [verify, hlen, hz, oddItems_unpairs, e1, e2, verifyLoop_eq_some, Option.bind_eq_bind,
    Option.bind_eq_some_iff, Option.pure_def, Option.some.injEq, Prod.mk.injEq,
    Backend.appendElement_eq_some, Backend.challengeScalar, initializeTranscript,
    Transcript.appendElementBytes, Transcript.appendMessage, Transcript.startProof, sumSqQuery]
  constructor
  · rintro ⟨_, ⟨items, hi, rfl⟩, _, ⟨rz, hrz, rfl⟩, _, ⟨z, hz, rfl⟩, _, ⟨u, hu, rfl⟩,
      _, ⟨v, hv, rfl⟩, rfl, rfl⟩
    exact ⟨items, rz, z, u, v, hi, hrz, hz, hu, hv, by simp, by simp⟩
  · rintro ⟨items, rz, z, u, v, hi, hrz, hz, hu, hv, rfl, rfl⟩
    exact ⟨_, ⟨items, hi, rfl⟩, _, ⟨rz, hrz, rfl⟩, _, ⟨z, hz, rfl⟩, _, ⟨u, hu, rfl⟩,
      _, ⟨v, hv, rfl⟩, by simp, by simp⟩

theorem verify_ok [DecidableEq F] {B : Backend F E} {proof : SumOfSquaresProof F}
    {cts : List (Ciphertext E)} {zc : Ciphertext E} {K : PublicKey E} {t t' : Transcript}
    (h : proof.verify B cts zc K t = some (.ok (), t')) :
    ∃ ps, proof = ⟨proof.challenge, unpairs ps, proof.sumResponse⟩ ∧ ps.length = cts.length := by
  by_cases hl : proof.ciphertextResponses.length = cts.length * 2
  · obtain ⟨ps, h1, h2⟩ := exists_unpairs _ _ hl
    exact ⟨ps, by rw [h1], h2⟩
  · simp [verify, checkLengths_ne hl] at h

/-- Relation between what the prover drew for a ciphertext and the hashed item. -/
def ProverItem (B : Backend F E) (K : E) (p : CiphertextWithValue F E × F × F) (i : SquareItem) :
    Prop :=
  B.serElem p.1.ciphertext.random = some i.r ∧ B.serElem p.1.ciphertext.blinded = some i.x ∧
    B.serElem (p.2.1 • B.gen) = some i.e ∧
    B.serElem (p.2.2 • B.gen + p.2.1 • K) = some i.f

theorem commitLoop_eq_some {B : Backend F E} {K : PublicKey E}
    {cts : List (CiphertextWithValue F E)} {s0 s1 : F} {t t' : Transcript} {rng rng' : B.Rng}
    {ps : List (CiphertextWithValue F E × F × F)}
    (h : commitLoop B K cts s0 t rng = some (ps, s1, t', rng')) :
    ps.map (·.1) = cts ∧ s1 = s0 - (cts.map fun ct => ct.randomness * ct.value).sum ∧
      ∃ items, List.Forall₂ (ProverItem B K.element) ps items ∧
        t' = ⟨t.log ++ items.flatMap SquareItem.entries⟩ := by
  induction cts generalizing s0 s1 t t' rng rng' ps with
  | nil =>
    simp only [commitLoop, Option.some.injEq, Prod.mk.injEq] at h
    obtain ⟨rfl, rfl, rfl, rfl⟩ := h
    exact ⟨rfl, by simp, [], .nil, by simp⟩
  | cons ct cts ih =>
    simp only [commitLoop, Option.bind_eq_bind, Option.bind_eq_some_iff, Option.pure_def,
      Option.some.injEq, Prod.mk.injEq, Backend.appendElement_eq_some, Prod.exists] at h
    obtain ⟨_, ⟨r, hr, rfl⟩, _, ⟨x, hx, rfl⟩, _, ⟨e, he, rfl⟩, _, ⟨f, hf, rfl⟩, ps', s', t1, rng1, h1,
      rfl, rfl, rfl, rfl⟩ := h
    obtain ⟨h2, h3, items, hi, rfl⟩ := ih h1
    refine ⟨by simp [h2], ?_, ⟨r, x, e, f⟩ :: items, .cons ⟨hr, hx, he, hf⟩ hi, ?_⟩
    · rw [h3]
      simp only [SecretKey.add, SecretKey.mul, List.map_cons, List.sum_cons]
      ring
    · simp [Transcript.appendElementBytes, Transcript.appendMessage, SquareItem.entries]

theorem commitLoop_total {B : Backend F E} (hT : B.TotalSer) (K : PublicKey E)
    (cts : List (CiphertextWithValue F E)) (s0 : F) (t : Transcript) (rng : B.Rng) :
    ∃ out, commitLoop B K cts s0 t rng = some out := by
  induction cts generalizing s0 t rng with
  | nil => exact ⟨_, rfl⟩
  | cons ct cts ih =>
    obtain ⟨r, hr⟩ := hT ct.ciphertext.random
    obtain ⟨x, hx⟩ := hT ct.ciphertext.blinded
    obtain ⟨e, he⟩ := hT (B.mulGen (SecretKey.generate B rng).1)
    obtain ⟨f, hf⟩ := hT (B.mulGen (SecretKey.generate B (SecretKey.generate B rng).2).1 +
      (SecretKey.generate B rng).1 • K.element)
    simp only [commitLoop, Backend.appendElement, hr, hx, he, hf, Option.bind_eq_bind,
      Option.bind_some, Option.pure_def]
    generalize h : commitLoop B K cts _ _ _ = o
    obtain ⟨⟨a, b, c, d⟩, hout⟩ := h ▸ ih _ _ _
    rw [hout]
    exact ⟨_, rfl⟩

theorem commitLoop_tape {B : Backend F E} {K : PublicKey E} {cts : List (CiphertextWithValue F E)}
    {ns : List (F × F)} {items : List SquareItem} (hl : cts.length = ns.length)
    (h : List.Forall₂ (ProverItem B K.element) (cts.zip ns) items) (s0 : F) (t : Transcript) :
    commitLoop B.withTape K cts s0 t (unpairs ns) = some (cts.zip ns,
      s0 - (cts.map fun ct => ct.randomness * ct.value).sum,
      ⟨t.log ++ items.flatMap SquareItem.entries⟩, []) := by
  induction cts generalizing ns items s0 t with
  | nil =>
    cases ns with
    | nil => cases h; simp [commitLoop, unpairs]
    | cons n ns => simp at hl
  | cons ct cts ih =>
    cases ns with
    | nil => simp at hl
    | cons n ns =>
      simp only [List.zip_cons_cons] at h
      cases h with
      | cons h1 h2 =>
        rename_i i items
        obtain ⟨hr, hx, he, hf⟩ := h1
        have hu : unpairs (n :: ns) = n.1 :: n.2 :: unpairs ns := by simp [unpairs]
        have a1 : ∀ t, B.withTape.appendElement t "R_x" ct.ciphertext.random =
          some (t.appendElementBytes "R_x" i.r) := fun t =>
            Backend.appendElement_eq_some.mpr ⟨_, hr, rfl⟩
        have a2 : ∀ t, B.withTape.appendElement t "X" ct.ciphertext.blinded =
          some (t.appendElementBytes "X" i.x) := fun t =>
            Backend.appendElement_eq_some.mpr ⟨_, hx, rfl⟩
        have a3 : ∀ t, B.withTape.appendElement t "[e_r]G" (B.withTape.mulGen n.1) =
          some (t.appendElementBytes "[e_r]G" i.e) := fun t =>
            Backend.appendElement_eq_some.mpr ⟨_, he, rfl⟩
        have a4 : ∀ t, B.withTape.appendElement t "[e_x]G + [e_r]K"
            (B.withTape.mulGen n.2 + n.1 • K.element) =
          some (t.appendElementBytes "[e_x]G + [e_r]K" i.f) := fun t =>
            Backend.appendElement_eq_some.mpr ⟨_, hf, rfl⟩
        simp only [commitLoop, hu, SecretKey.generate, List.headD_cons, List.tail_cons, a1, a2, a3, a4,
          Option.bind_eq_bind, Option.bind_some, ih (by simpa using hl) h2, Option.pure_def,
          List.zip_cons_cons, Option.some.injEq, Prod.mk.injEq, true_and, and_true]
        refine ⟨?_, ?_⟩
        · simp only [SecretKey.add, SecretKey.mul, List.map_cons, List.sum_cons]
          ring
        · simp [Transcript.appendElementBytes, Transcript.appendMessage, SquareItem.entries]

theorem commitLoop_tape_inv {B : Backend F E} {K : PublicKey E}
    {cts : List (CiphertextWithValue F E)} {ns : List (F × F)} (hl : cts.length = ns.length)
    {s0 s1 : F} {t t' : Transcript} {u : List F} {ps : List (CiphertextWithValue F E × F × F)}
    (h : commitLoop B.withTape K cts s0 t (unpairs ns) = some (ps, s1, t', u)) :
    ps = cts.zip ns := by
  induction cts generalizing ns s0 s1 t t' u ps with
  | nil => simp [commitLoop] at h; simp [h.1]
  | cons ct cts ih =>
    cases ns with
    | nil => simp at hl
    | cons n ns =>
      have hu : unpairs (n :: ns) = n.1 :: n.2 :: unpairs ns := by simp [unpairs]
      simp only [commitLoop, hu, SecretKey.generate, List.headD_cons, List.tail_cons,
        Option.bind_eq_bind, Option.bind_eq_some_iff, Option.pure_def,
        Option.some.injEq, Prod.mk.injEq, Prod.exists] at h
      obtain ⟨_, -, _, -, _, -, _, -, ps', s', t1, rng1, h1, rfl, -, -, -⟩ := h
      rw [ih (by simpa using hl) h1]
      rfl

/-- What `new` does. -/
theorem new_eq_some {B : Backend F E} {cts : List (CiphertextWithValue F E)}
    {zc : CiphertextWithValue F E} {K : PublicKey E} {t t' : Transcript} {rng rng' : B.Rng}
    {proof : SumOfSquaresProof F}
    (h : SumOfSquaresProof.new B cts zc K t rng = some (proof, t', rng')) :
    ∃ (ps : List (CiphertextWithValue F E × F × F)) (items : List SquareItem) (s : F)
      (rz z u v : Bytes),
      ps.map (·.1) = cts ∧ List.Forall₂ (ProverItem B K.element) ps items ∧
      B.serElem zc.ciphertext.random = some rz ∧ B.serElem zc.ciphertext.blinded = some z ∧
      B.serElem (Backend.multiMul (ps.map (·.2.2)) (ps.map (·.1.ciphertext.random)) + s • B.gen)
        = some u ∧
      B.serElem (Backend.multiMul (ps.map (·.2.2)) (ps.map (·.1.ciphertext.blinded))
        + s • K.element) = some v ∧
      t' = ⟨sumSqQuery t.log K.bytes items rz z u v⟩ ∧
      proof.challenge = B.challenge (sumSqQuery t.log K.bytes items rz z u v) ∧
      proof.ciphertextResponses = unpairs (ps.map fun p =>
        (proof.challenge * p.1.randomness + p.2.1, proof.challenge * p.1.value + p.2.2)) ∧
      proof.sumResponse = proof.challenge *
        (zc.randomness - (cts.map fun ct => ct.randomness * ct.value).sum) + s := by
  simp only [SumOfSquaresProof.new, Option.bind_eq_bind, Option.bind_eq_some_iff, Option.pure_def,
    Option.some.injEq, Prod.mk.injEq, Backend.appendElement_eq_some, Prod.exists,
    Backend.challengeScalar] at h
  obtain ⟨ps, s1, t1, rng1, hloop, _, ⟨rz, hrz, rfl⟩, _, ⟨z, hz, rfl⟩, _, ⟨u, hu, rfl⟩, _,
    ⟨v, hv, rfl⟩, rfl, rfl, rfl⟩ := h
  obtain ⟨h1, h2, items, hi, rfl⟩ := commitLoop_eq_some hloop
  refine ⟨ps, items, (SecretKey.generate B rng).1, rz, z, u, v, h1, hi, hrz, hz, ?_, ?_, ?_, ?_, ?_, ?_⟩
  · rw [← hu, Backend.multiMul_append _ _ _ _ (by simp)]
    simp
  · rw [← hv, Backend.multiMul_append _ _ _ _ (by simp)]
    simp
  · simp [sumSqQuery, initializeTranscript, Transcript.appendElementBytes, Transcript.appendMessage,
      Transcript.startProof]
  · simp [sumSqQuery, initializeTranscript, Transcript.appendElementBytes, Transcript.appendMessage,
      Transcript.startProof]
  · simp [unpairs, List.flatMap_map]
  · rw [h2]

end SumOfSquaresProof

theorem flatMap_entries_inj {p p' : List Entry} {k k' : Bytes} {l l' : List SquareItem}
    (h : p ++ [.msg "K" k] ++ l.flatMap SquareItem.entries =
      p' ++ [.msg "K" k'] ++ l'.flatMap SquareItem.entries) : p = p' ∧ k = k' ∧ l = l' := by
  induction l using List.reverseRecOn generalizing l' with
  | nil =>
    cases l' using List.reverseRecOn with
    | nil =>
      simp only [List.flatMap_nil, List.append_nil] at h
      have := List.append_inj' h rfl
      simpa using this
    | append_singleton l' i' =>
      simp only [List.flatMap_nil, List.append_nil, List.flatMap_append, List.flatMap_cons,
        SquareItem.entries] at h
      rw [show ([.msg "R_x" i'.r, .msg "X" i'.x, .msg "[e_r]G" i'.e, .msg "[e_x]G + [e_r]K" i'.f] :
        List Entry) = [.msg "R_x" i'.r, .msg "X" i'.x, .msg "[e_r]G" i'.e] ++
          [.msg "[e_x]G + [e_r]K" i'.f] from rfl] at h
      simp only [← List.append_assoc] at h
      have := (List.append_inj' h rfl).2
      simp at this
  | append_singleton l i ih =>
    cases l' using List.reverseRecOn with
    | nil =>
      simp only [List.flatMap_nil, List.append_nil, List.flatMap_append, List.flatMap_cons,
        SquareItem.entries] at h
      rw [show ([.msg "R_x" i.r, .msg "X" i.x, .msg "[e_r]G" i.e, .msg "[e_x]G + [e_r]K" i.f] :
        List Entry) = [.msg "R_x" i.r, .msg "X" i.x, .msg "[e_r]G" i.e] ++
          [.msg "[e_x]G + [e_r]K" i.f] from rfl] at h
      simp only [← List.append_assoc] at h
      have := (List.append_inj' h rfl).2
      simp at this
    | append_singleton l' i' =>
      simp only [List.flatMap_append, List.flatMap_cons, List.flatMap_nil, List.append_nil,
        ← List.append_assoc] at h
      obtain ⟨h1, h2⟩ := List.append_inj' h rfl
      obtain ⟨e1, e2, rfl⟩ := ih (by simpa using h1)
      refine ⟨e1, e2, ?_⟩
      congr 1
      cases i; cases i'
      simpa [SquareItem.entries] using h2

theorem sumSqQuery_inj {c c' : List Entry} {k k' rz z u v rz' z' u' v' : Bytes}
    {items items' : List SquareItem}
    (h : sumSqQuery c k items rz z u v = sumSqQuery c' k' items' rz' z' u' v') :
    c = c' ∧ k = k' ∧ items = items' ∧ rz = rz' ∧ z = z' ∧ u = u' ∧ v = v' := by
  unfold sumSqQuery at h
  obtain ⟨h1, h2⟩ := List.append_inj' h rfl
  have h3 : (c ++ [.msg "dom-sep" (asciiBytes "sum_of_squares")]) ++ [.msg "K" k] ++
      items.flatMap SquareItem.entries = (c' ++ [.msg "dom-sep" (asciiBytes "sum_of_squares")]) ++
      [.msg "K" k'] ++ items'.flatMap SquareItem.entries := by simpa using h1
  obtain ⟨h4, h5, h6⟩ := flatMap_entries_inj h3
  refine ⟨(List.append_inj' h4 rfl).1, h5, h6, ?_⟩
  simpa using h2

end ElasticElgamal
