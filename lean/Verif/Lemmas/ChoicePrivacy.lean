import Verif.Lemmas.Simulation
import Verif.Lemmas.Points
import Verif.Props.Choice

/-!
# Lemmas: simulation of encrypted choices
-/

set_option autoImplicit false
set_option linter.unusedSectionVars false

namespace ElasticElgamal

open Spec

variable {F E : Type} [Field F] [AddCommGroup E] [Module F E] [DecidableEq F] [DecidableEq E]

/-- The rings of a choice: flags with the randomness of their ciphertexts. -/
def bitInputs (B : Backend F E) (K : E) (frs : List (Bool × F)) : List (RingInput F E) :=
  frs.map fun fr => ⟨⟨⟨fr.2 • B.gen, (if fr.1 then B.gen else 0) + fr.2 • K⟩, fr.2⟩, [0, B.gen],
    if fr.1 then 1 else 0, true⟩

theorem bitInputs_honest (B : Backend F E) (K : E) (frs : List (Bool × F)) :
    ∀ r ∈ bitInputs B K frs, r.Honest B K := by
  intro r hr
  obtain ⟨⟨f, x⟩, -, rfl⟩ := List.mem_map.mp hr
  refine ⟨if f then B.gen else 0, ?_, rfl, rfl⟩
  cases f <;> rfl

theorem bitInputs_steps (B : Backend F E) (K : E) (frs : List (Bool × F)) :
    (bitInputs B K frs).map (·.step) = bitSteps B (frs.map Prod.fst) := by
  simp [bitInputs, bitSteps, RingInput.step, Function.comp_def]

theorem bitInputs_draws (B : Backend F E) (K : E) (frs : List (Bool × F)) :
    ((bitInputs B K frs).map (·.draws)).sum = 3 * frs.length := by
  simp [bitInputs, RingInput.draws, Function.comp_def, mul_comm]

theorem bitInputs_sizes (B : Backend F E) (K : E) (frs : List (Bool × F)) :
    ((bitInputs B K frs).map (·.values.length)).sum = 2 * frs.length := by
  simp [bitInputs, Function.comp_def, mul_comm]

theorem bitInputs_values (B : Backend F E) (K : E) (frs : List (Bool × F)) :
    (bitInputs B K frs).map (·.values) = List.replicate frs.length [0, B.gen] := by
  simp [bitInputs, Function.comp_def]

/-- Every accepted ballot with given choices and randomness of ciphertexts is the output of `new` for exactly one tape. -/
theorem choice_tape (B : Backend F E) (hB : B.Lawful) {kind : ChoiceKind} (K : PublicKey E)
    (frs : List (Bool × F)) (hne : frs ≠ []) (hone : kind = .single → (frs.map Prod.fst).count true = 1)
    (ballot : EncryptedChoice F E kind)
    (hch : ballot.choices = (bitInputs B K.element frs).map (·.ct.inner))
    (hv : ballot.verify B ⟨frs.length, K⟩ = some (.ok ballot.choices)) :
    ∃! tape : List F, tape.length = 3 * frs.length + sumProofs kind ∧
      (EncryptedChoice.new B.withTape ⟨frs.length, K⟩ (frs.map Prod.fst) tape).map Prod.fst = some ballot := by
  have hgen : B.gen ≠ 0 := hB.gen_ne_zero
  obtain ⟨choices, ⟨c, rs⟩, sp⟩ := ballot
  simp only at hch
  have hcl : choices.length = frs.length := by rw [hch]; simp [bitInputs]
  obtain ⟨-, -, -, hsum, t', hring⟩ := EncryptedChoice.verify_ok hv
  simp only [hcl] at hring hsum
  have hs := bitInputs_honest B K.element frs
  rw [← bitInputs_values B K.element, hch] at hring
  obtain ⟨htl, htape⟩ := proveRings_tape B K _ hs c rs _ t' hring
  rw [bitInputs_draws] at htl
  generalize hT : ringTape₁ B K (RingProof.initializeTranscript (Transcript.new "encrypted_choice_ranges") K) c 0
    (bitInputs B K.element frs) rs ++ ringTape₂ (bitInputs B K.element frs) rs = T at htl htape
  -- the randomness of the sum
  obtain ⟨r, hr1, hr2⟩ : ∃ r : F, (ctSum choices).random = r • B.gen ∧
      (kind = .single → (ctSum choices).blinded - B.gen = r • K.element) := by
    refine ⟨(frs.map Prod.snd).sum, ?_, fun hk => ?_⟩
    · rw [hch]
      clear hone hch hring htape hs hT hne hcl hv hsum htl
      simp only [ctSum, bitInputs, List.map_map, Function.comp_def]
      induction frs with
      | nil => simp
      | cons fr frs ih => simp [add_smul, ih]
    · have h1 : (ctSum choices).blinded = ((frs.map Prod.fst).map fun f : Bool => if f then B.gen else (0 : E)).sum +
          (frs.map Prod.snd).sum • K.element := by
        rw [hch]
        clear hone hch hring htape hs hT hne hcl hv hsum htl
        simp only [ctSum, bitInputs, List.map_map, Function.comp_def]
        induction frs with
        | nil => simp
        | cons fr frs ih => simp only [List.map_cons, List.sum_cons, add_smul, ih]; module
      rw [h1, sum_bits (F := F), sum_ite_eq_count, hone hk]
      module
  -- the sum proof is the prover's output for exactly one rest of the tape
  obtain ⟨xs, hxs, hxu⟩ : ∃! xs : List F, xs.length = sumProofs kind ∧
      ∀ s : ExtendedCiphertext F E, s.inner = ctSum choices → s.randomScalar = r → ∀ n,
        ∃ rest, SumProof.prove B.withTape kind (s.withValue n) K xs = some (sp, rest) := by
    cases kind with
    | multi =>
      refine ⟨[], ⟨rfl, fun s _ _ n => ⟨[], rfl⟩⟩, fun xs hxs => List.length_eq_zero_iff.mp hxs.1⟩
    | single =>
      simp only [SumProof.verify, Option.bind_eq_bind, Option.bind_eq_some_iff, Option.pure_def,
        Option.some.injEq, Prod.exists] at hsum
      obtain ⟨res, t2, hv2, hr3⟩ := hsum
      match res, hr3 with
      | .ok (), _ =>
      rw [hr1, hr2 rfl] at hv2
      obtain ⟨x, hx, hxu⟩ := C51_log_eq_zk B K r sp _ t2 hv2
      refine ⟨[x], ⟨rfl, fun s h1 h2 n => ⟨[], ?_⟩⟩, ?_⟩
      · change (LogEqualityProof.new B.withTape K s.randomScalar (s.inner.random, s.inner.blinded - B.gen) _ _).bind _ = _
        rw [h1, h2, hr1, hr2 rfl, hx]
        rfl
      · rintro xs ⟨hl, hp⟩
        obtain ⟨y, rfl⟩ := List.length_eq_one_iff.mp hl
        congr 1
        obtain ⟨rest, hp⟩ := hp ⟨ctSum choices, r⟩ rfl rfl 0
        change (LogEqualityProof.new B.withTape K r ((ctSum choices).random, (ctSum choices).blinded - B.gen) _ _).bind _ = _ at hp
        rw [hr1, hr2 rfl] at hp
        obtain ⟨⟨p, t3, rest'⟩, hp1, hp2⟩ := Option.bind_eq_some_iff.mp hp
        have hp2 : p = sp := congrArg Prod.fst (Option.some.inj hp2)
        subst hp2
        obtain ⟨-, -, -, -, -, -, -, -, -, -, e1, -⟩ := LogEqualityProof.new_eq_some.mp hx
        obtain ⟨-, -, -, -, -, -, -, -, -, -, e2, -⟩ := LogEqualityProof.new_eq_some.mp hp1
        rw [e1] at e2
        simpa using e2.symm
  have hlen0 : (frs.map Prod.fst) ≠ [] := by simpa using hne
  have hopen : ∀ {exts : List (ExtendedCiphertext F E)}, List.Forall₂ (fun ext (f : Bool) =>
      OpenedExt B.withTape K.element ext (if f then B.gen else 0)) exts (frs.map Prod.fst) →
      exts.map (·.inner) = choices → ∀ s, reduce ExtendedCiphertext.add exts = some s →
      s.inner = ctSum choices ∧ s.randomScalar = r := by
    intro exts hop he s hred
    have hop' : List.Forall₂ (OpenedExt B.withTape K.element) exts
        ((frs.map Prod.fst).map fun f : Bool => if f then B.gen else 0) := by
      rw [List.forall₂_map_right_iff]; exact hop
    obtain ⟨h1, h2⟩ := reduce_ext hop' hred
    rw [he] at h2
    refine ⟨h2, ?_⟩
    have h3 := h1.1
    rw [h2, hr1] at h3
    exact (smul_left_injective F hgen h3).symm
  refine ⟨T ++ xs, ⟨by rw [List.length_append, htl, hxs.1], ?_⟩, ?_⟩
  · have h1 := htape xs
    simp only [proveRings, bitInputs_steps, bitInputs_sizes, Option.bind_eq_bind, Option.bind_eq_some_iff,
      Option.pure_def, Option.some.injEq, Prod.mk.injEq, Prod.exists, RingProof.mk.injEq] at h1
    obtain ⟨cts, b, hrun, c', rs', t1, rng1, hbuild, ⟨hcts, rfl, rfl⟩, rfl, rfl⟩ := h1
    obtain ⟨exts, hadd, hexts⟩ := addChoices_of_run _ hrun
    obtain ⟨-, hop⟩ := addChoices_spec _ hadd
    have hexts' : exts.map (·.inner) = choices := by rw [hexts, hcts, hch]
    obtain ⟨s, hs⟩ : ∃ s, reduce ExtendedCiphertext.add exts = some s := by
      cases exts with
      | nil => exact absurd (List.length_eq_zero_iff.mp hop.length_eq.symm) hlen0
      | cons e es => exact ⟨_, rfl⟩
    obtain ⟨o1, o2⟩ := hopen hop hexts' s hs
    obtain ⟨rest, hsp⟩ := hxs.2 s o1 o2 ((frs.map Prod.fst).map fun flag => if flag then 1 else 0).sum
    have : EncryptedChoice.new B.withTape ⟨frs.length, K⟩ (frs.map Prod.fst) (T ++ rng1) =
        some (⟨choices, ⟨c', rs'⟩, sp⟩, rest) := by
      simp only [EncryptedChoice.new, guard, hlen0, List.length_map, hadd, hbuild, hs, hsp, Option.bind_eq_bind,
        ne_eq, not_false_eq_true, if_true, Option.pure_def, Option.bind_some, hexts']
    rw [this]
    rfl
  · rintro tape ⟨hl, hp⟩
    obtain ⟨⟨ballot, rest⟩, hnew, rfl⟩ := Option.map_eq_some_iff.mp hp
    obtain ⟨-, -, exts, b, c', rs', t1, rng1, s, hadd, hbuild, hred, hsp, hbc, hbr⟩ := EncryptedChoice.new_eq_some hnew
    simp only at hbc hbr hadd hsp
    cases hbr
    obtain ⟨hrun, hop⟩ := addChoices_spec _ hadd
    have hpr : proveRings B.withTape K (bitInputs B K.element frs) (Transcript.new "encrypted_choice_ranges") tape =
        some (((bitInputs B K.element frs).map (·.ct.inner), ⟨c, rs⟩), t1, rng1) := by
      have hrun' : runRingSteps B.withTape ((bitInputs B K.element frs).map (·.step))
          (RingProofBuilder.new B.withTape K (List.replicate (2 * frs.length) 0)
            (Transcript.new "encrypted_choice_ranges") tape) = some (exts.map (·.inner), b) := by
        rw [bitInputs_steps]; exact hrun
      simp only [proveRings, bitInputs_sizes, hrun', hbuild, Option.bind_eq_bind, Option.bind_some, Option.pure_def]
      rw [← hch, hbc]
    have ht := proveRings_tape_inv B hgen K _ hs c rs _ t1 tape rng1 (by rw [bitInputs_draws]; omega) hpr
    rw [hT] at ht
    have hl1 : List.length (α := F) rng1 = sumProofs kind := by
      rw [ht, List.length_append, htl] at hl
      omega
    rw [ht]
    congr 1
    refine hxu rng1 ⟨hl1, fun s' h1 h2 n => ⟨rest, ?_⟩⟩
    obtain ⟨o1, o2⟩ := hopen hop hbc.symm s hred
    have hss : s' = s := by
      cases s; cases s'
      simp only at h1 h2 o1 o2
      rw [h1, h2, o1, o2]
    rw [← hsp, hss]
    cases kind <;> rfl

/-! ## Programming -/

theorem common_ne_logEq {B : Backend F E} {k k' : Bytes} {terms : List (Bytes × Bytes)} {e : (E × E) × (E × E)} :
    commonQuery (Transcript.new "encrypted_choice_ranges").log k terms ≠
      logEqData B (Transcript.new "choice_encryption_sum").log k' e := by
  intro h
  have := congrArg (fun l => l.head?) h
  simp [commonQuery, logEqData, logEqQuery, Transcript.new, Transcript.appendMessage] at this
  revert this
  decide

theorem ring_ne_logEq {B : Backend F E} {k k' enc x y : Bytes} {i j : ℕ} {e : (E × E) × (E × E)} :
    ringQuery (ringBase (Transcript.new "encrypted_choice_ranges").log k enc i) j x y ≠
      logEqData B (Transcript.new "choice_encryption_sum").log k' e := by
  intro h
  have := congrArg (fun l => l.head?) h
  simp [ringQuery, ringBase, logEqData, logEqQuery, Transcript.new, Transcript.appendMessage] at this
  revert this
  decide

/-- The programmed values of a ballot. -/
theorem choicePoints_spec (B : Backend F E) (hT : B.TotalSer) {kind : ChoiceKind} {o : ℕ} (ho : o ≠ 0)
    (H : List Entry → F) (K : PublicKey E)
    (cts : Fin o → Ciphertext E) (proofs : ChoiceProofs F o kind) :
    ∃ terms : List (E × E), terms.length = o ∧ ∃ l : List (List Entry × F), l.length = sumProofs kind ∧
      (∀ q ∈ l, ∃ e, q.1 = logEqData B (Transcript.new "choice_encryption_sum").log K.bytes e) ∧
      (∀ H' : List Entry → F,
        (∀ enc i j x y, H' (ringQuery (ringBase (Transcript.new "encrypted_choice_ranges").log K.bytes enc i) j x y) =
          H (ringQuery (ringBase (Transcript.new "encrypted_choice_ranges").log K.bytes enc i) j x y)) →
        choicePoints (B.withHash H') K (makeChoice cts proofs) =
          (commonPoint B (Transcript.new "encrypted_choice_ranges").log K.bytes terms, proofs.1.1) :: l) ∧
      ((makeChoice cts proofs).verify (B.withHash H) ⟨o, K⟩ = some (.ok (makeChoice cts proofs).choices) ↔
        Has H (choicePoints (B.withHash H) K (makeChoice cts proofs))) := by
  have hlen : (makeChoice (kind := kind) cts proofs).choices.length = o := by simp [makeChoice]
  obtain ⟨terms, h1, h2, h3⟩ := ringPoint_spec B hT H K
    (List.replicate (makeChoice (kind := kind) cts proofs).choices.length [0, B.gen])
    (makeChoice (kind := kind) cts proofs).choices
    (Transcript.new "encrypted_choice_ranges") (makeChoice (kind := kind) cts proofs).rangeProof
    (by simp [makeChoice, mul_comm])
  have hred : reduce Ciphertext.add (makeChoice (kind := kind) cts proofs).choices =
      some (ctSum (makeChoice (kind := kind) cts proofs).choices) := by
    cases hc : (makeChoice (kind := kind) cts proofs).choices with
    | nil => rw [hc] at hlen; exact absurd hlen.symm ho
    | cons x xs =>
      obtain ⟨y, hy⟩ : ∃ y, reduce Ciphertext.add (x :: xs) = some y := ⟨_, rfl⟩
      rw [hy, reduce_ciphertext hy]
  have hver : (makeChoice cts proofs).verify (B.withHash H) ⟨o, K⟩ = some (.ok (makeChoice cts proofs).choices) ↔
      SumProof.verify (B.withHash H) kind (ctSum (makeChoice cts proofs).choices) proofs.2 K = some (.ok ()) ∧
      ∃ t', (makeChoice cts proofs).rangeProof.verify (B.withHash H) K
        (List.replicate (makeChoice cts proofs).choices.length [0, B.gen]) (makeChoice cts proofs).choices
        (Transcript.new "encrypted_choice_ranges") = some (.ok (), t') := by
    constructor
    · intro h
      obtain ⟨-, -, -, hs, t', hr⟩ := EncryptedChoice.verify_ok h
      exact ⟨hs, t', hr⟩
    · rintro ⟨hs, t', hr⟩
      have hs' : SumProof.verify (B.withHash H) kind (ctSum (makeChoice cts proofs).choices)
        (makeChoice cts proofs).sumProof K = some (.ok ()) := hs
      simp only [EncryptedChoice.verify, ChoiceParams.checkOptionsCount, hlen, if_true, hred, hs', Option.bind_eq_bind,
        Option.bind_some]
      rw [hlen] at hr
      rw [hr]
      rfl
  cases kind with
  | multi =>
    refine ⟨terms, by rw [h1]; simp [hlen], [], rfl, by simp, h2, ?_⟩
    rw [hver, h3]
    have : choicePoints (B.withHash H) K (makeChoice (kind := .multi) cts proofs) = _ := h2 H fun _ _ _ _ _ => rfl
    rw [this]
    simp [SumProof.verify, Has]
  | single =>
    obtain ⟨e, e1, e2⟩ := logEqPoint_spec B hT K
      (((makeChoice (kind := .single) cts proofs).choices.map (·.random)).sum,
        ((makeChoice (kind := .single) cts proofs).choices.map (·.blinded)).sum - B.gen)
      (Transcript.new "choice_encryption_sum") proofs.2
    refine ⟨terms, by rw [h1]; simp [hlen], [(logEqData B (Transcript.new "choice_encryption_sum").log K.bytes e,
      proofs.2.challenge)], rfl, fun q hq => ⟨e, by rw [List.mem_singleton.mp hq]⟩, ?_, ?_⟩
    · intro H' hH'
      have : choicePoints (B.withHash H') K (makeChoice (kind := .single) cts proofs) = _ ++ _ :=
        congrArg₂ (· ++ ·) (h2 H' hH') (e1 H')
      exact this
    · have : choicePoints (B.withHash H) K (makeChoice (kind := .single) cts proofs) = _ ++ _ :=
        congrArg₂ (· ++ ·) (h2 H fun _ _ _ _ _ => rfl) (e1 H)
      rw [hver, h3, this]
      have hs : SumProof.verify (B.withHash H) .single (ctSum (makeChoice (kind := .single) cts proofs).choices) proofs.2 K =
          some (.ok ()) ↔ H (logEqData B (Transcript.new "choice_encryption_sum").log K.bytes e) = proofs.2.challenge := by
        rw [← e2 H]
        simp only [SumProof.verify, Option.bind_eq_bind, Option.bind_eq_some_iff, Option.pure_def,
          Option.some.injEq, Prod.exists]
        constructor
        · rintro ⟨res, t2, hv2, hr3⟩
          match res, hr3 with
          | .ok (), _ => exact ⟨t2, hv2⟩
        · rintro ⟨t2, hv2⟩
          exact ⟨_, t2, hv2, rfl⟩
      rw [hs]
      simp only [Has, List.cons_append, List.nil_append, List.mem_cons, List.not_mem_nil, or_false, forall_eq_or_imp,
        forall_eq]
      exact and_comm

/-- All data hashed last by verifiers of ballots with `o` options. -/
theorem choiceData_finite [Finite E] (B : Backend F E) (o : ℕ) : Set.Finite
    ((Set.range fun p : E × (Fin o → E × E) =>
      commonPoint B (Transcript.new "encrypted_choice_ranges").log (encOf B p.1) (List.ofFn p.2)) ∪
    Set.range fun p : E × ((E × E) × (E × E)) =>
      logEqData B (Transcript.new "choice_encryption_sum").log (encOf B p.1) p.2) :=
  (Set.finite_range _).union (Set.finite_range _)

theorem choicePoints_programmable (B : Backend F E) (hT : B.TotalSer) {kind : ChoiceKind} {o : ℕ} (ho : o ≠ 0)
    [Finite E] (K : PublicKey E) (hK : K.bytes = encOf B K.element) {S : Type} [Fintype S]
    (cts : S → Fin o → Ciphertext E) (proofs : S → ChoiceProofs F o kind) (D : Finset (List Entry))
    (hD : (choiceData_finite B o).toFinset ⊆ D) :
    Programmable (fun H s => choicePoints (B.withHash H) K (makeChoice (cts s) (proofs s))) (1 + sumProofs kind) D ∧
    ∀ H s, ((choicePoints (B.withHash H) K (makeChoice (cts s) (proofs s))).map Prod.fst).Nodup := by
  refine ⟨⟨?_, ?_, ?_⟩, ?_⟩
  · intro H H' s h
    obtain ⟨terms, -, l, -, h3, h4, -⟩ := choicePoints_spec B hT ho H K (cts s) (proofs s)
    have h5 := h4 H fun _ _ _ _ _ => rfl
    rw [h5]
    refine h4 H' fun enc i j x y => h _ ?_
    rw [h5, List.map_cons, List.mem_cons, not_or]
    refine ⟨ringQuery_ne_commonQuery, fun hm => ?_⟩
    obtain ⟨q, hq, he⟩ := List.mem_map.mp hm
    obtain ⟨e, hqe⟩ := h3 q hq
    exact ring_ne_logEq (he.symm.trans hqe)
  · intro H s
    obtain ⟨terms, -, l, h2, -, h4, -⟩ := choicePoints_spec B hT ho H K (cts s) (proofs s)
    simp only [h4 H fun _ _ _ _ _ => rfl, List.length_cons, h2]
    omega
  · intro H s qa hqa
    obtain ⟨terms, h1, l, -, h3, h4, -⟩ := choicePoints_spec B hT ho H K (cts s) (proofs s)
    simp only [h4 H fun _ _ _ _ _ => rfl, List.mem_cons] at hqa
    refine hD ?_
    rw [Set.Finite.mem_toFinset]
    rcases hqa with rfl | hqa
    · subst h1
      exact .inl ⟨(K.element, terms.get), by simp [hK]⟩
    · obtain ⟨e, he⟩ := h3 qa hqa
      exact .inr ⟨(K.element, e), by rw [he, hK]⟩
  · intro H s
    obtain ⟨terms, -, l, h2, h3, h4, -⟩ := choicePoints_spec B hT ho H K (cts s) (proofs s)
    rw [h4 H fun _ _ _ _ _ => rfl, List.map_cons, List.nodup_cons]
    refine ⟨fun hm => ?_, ?_⟩
    · obtain ⟨q, hq, he⟩ := List.mem_map.mp hm
      obtain ⟨e, hqe⟩ := h3 q hq
      exact common_ne_logEq (he.symm.trans hqe)
    · cases kind with
      | multi => rw [List.length_eq_zero_iff.mp h2]; simp
      | single =>
        obtain ⟨q, rfl⟩ := List.length_eq_one_iff.mp h2
        simp

theorem makeChoice_injective {o : ℕ} {kind : ChoiceKind} {c c' : Fin o → Ciphertext E} {p p' : ChoiceProofs F o kind}
    (h : makeChoice c p = makeChoice c' p') : c = c' ∧ p = p' := by
  simp only [makeChoice, EncryptedChoice.mk.injEq, RingProof.mk.injEq] at h
  obtain ⟨h1, ⟨h2, h3⟩, h4⟩ := h
  exact ⟨List.ofFn_injective h1, Prod.ext (Prod.ext h2 (List.ofFn_injective h3)) h4⟩

/-- Every ballot of the right size is made of ciphertexts and scalars. -/
theorem exists_makeChoice {o : ℕ} {kind : ChoiceKind} (ballot : EncryptedChoice F E kind)
    (h1 : ballot.choices.length = o) (h2 : ballot.rangeProof.ringResponses.length = 2 * o) :
    ∃ (c : Fin o → Ciphertext E) (p : ChoiceProofs F o kind), ballot = makeChoice c p := by
  obtain ⟨choices, ⟨c, rs⟩, sp⟩ := ballot
  simp only at h1 h2
  subst h1
  refine ⟨choices.get, ((c, fun i => rs.get ⟨i, by rw [h2]; exact i.2⟩), sp), ?_⟩
  simp only [makeChoice, EncryptedChoice.mk.injEq, RingProof.mk.injEq, List.ofFn_get, true_and, and_true]
  refine List.ext_getElem (by simp [h2]) fun i _ _ => by simp

section
variable [Fintype F]

theorem card_choiceProofs (o : ℕ) (kind : ChoiceKind) :
    Fintype.card ((Fin o → F) × ChoiceProofs F o kind) =
      Fintype.card (Fin (choiceDraws o kind) → F) * Fintype.card F ^ (1 + sumProofs kind) := by
  have : Fintype.card (SumProof F kind) = Fintype.card F ^ (2 * sumProofs kind) := by
    cases kind with
    | multi => rfl
    | single =>
      rw [show Fintype.card (SumProof F .single) = Fintype.card (F × F) from Fintype.card_congr
        ⟨fun p => (p.challenge, p.response), fun p => ⟨p.1, p.2⟩, fun _ => rfl, fun _ => rfl⟩, Fintype.card_prod]
      simp [sumProofs, sq]
  have hf : ∀ n : ℕ, Fintype.card (Fin n → F) = Fintype.card F ^ n := fun n => by simp
  rw [Fintype.card_prod, Fintype.card_prod, Fintype.card_prod, hf, hf, hf, this, choiceDraws, ← pow_succ', ← pow_add,
    ← pow_add, ← pow_add]
  congr 1
  omega

theorem RingProof.verifyRingLoop_withTape {B : Backend F E} {K : PublicKey E}
    {ct : Ciphertext E} {t : Transcript} {n : ℕ} (l : List (E × F)) :
    ∀ (j : ℕ) (c : F) (m : E × E), verifyRingLoop B.withTape K ct t n j l c m = verifyRingLoop B K ct t n j l c m := by
  induction l with
  | nil => intro j c m; rfl
  | cons p l ih =>
    intro j c m
    simp only [verifyRingLoop, ih]
    rfl

theorem RingProof.verifyLoop_withTape {B : Backend F E} {K : PublicKey E} {proof : RingProof F} {t₀ : Transcript}
    (l : List (List E × Ciphertext E)) :
    ∀ (i off : ℕ) (t : Transcript), verifyLoop B.withTape proof K t₀ i off l t = verifyLoop B proof K t₀ i off l t := by
  induction l with
  | nil => intro i off t; rfl
  | cons p l ih =>
    intro i off t
    simp only [verifyLoop, ih, verifyRingLoop_withTape]
    rfl

theorem EncryptedChoice.verify_withTape {B : Backend F E} {kind : ChoiceKind} (ballot : EncryptedChoice F E kind)
    (params : ChoiceParams E kind) : ballot.verify B.withTape params = ballot.verify B params := by
  have h : ∀ (proof : RingProof F) K values cts t, proof.verify B.withTape K values cts t = proof.verify B K values cts t := by
    intro proof K values cts t
    simp only [RingProof.verify, RingProof.verifyLoop_withTape]
    rfl
  simp only [EncryptedChoice.verify, h]
  cases kind <;> rfl

/-- The ciphertexts of a ballot with given randomness. -/
def choiceCts (B : Backend F E) {o : ℕ} (K : PublicKey E) (votes : Fin o → Bool) (rs : Fin o → F) (j : Fin o) :
    Ciphertext E :=
  ⟨rs j • B.gen, (if votes j then B.gen else 0) + rs j • K.element⟩

/-- Outputs of `new` are exactly the valid ballots, and each of them is produced by one tape. -/
theorem choice_outputs (B : Backend F E) (hB : B.Lawful) (hT : B.TotalSer) {kind : ChoiceKind} {o : ℕ}
    (ho : o ≠ 0) (K : PublicKey E) (k : F) (hk : K.element = k • B.gen)
    (votes : Fin o → Bool) (hone : kind = .single → (List.ofFn votes).count true = 1) :
    (Function.Injective fun s : (Fin o → F) × ChoiceProofs F o kind =>
      some (makeChoice (choiceCts B K votes s.1) s.2)) ∧
    (∀ H (s : (Fin o → F) × ChoiceProofs F o kind),
      Has H (choicePoints (B.withHash H) K (makeChoice (choiceCts B K votes s.1) s.2)) →
      ∃! tape : Fin (choiceDraws o kind) → F, (EncryptedChoice.new (B.withHash H).withTape ⟨o, K⟩ (List.ofFn votes)
        (List.ofFn tape)).map Prod.fst = some (makeChoice (choiceCts B K votes s.1) s.2)) ∧
    ∀ H (tape : Fin (choiceDraws o kind) → F), ∃ s : (Fin o → F) × ChoiceProofs F o kind,
      Has H (choicePoints (B.withHash H) K (makeChoice (choiceCts B K votes s.1) s.2)) ∧
      (EncryptedChoice.new (B.withHash H).withTape ⟨o, K⟩ (List.ofFn votes)
        (List.ofFn tape)).map Prod.fst = some (makeChoice (choiceCts B K votes s.1) s.2) := by
  have hcts : ∀ rs, List.ofFn (choiceCts B K votes rs) =
      (bitInputs B K.element (List.ofFn fun j => (votes j, rs j))).map (·.ct.inner) := by
    intro rs
    rw [bitInputs, List.map_map, List.map_ofFn]
    rfl
  have hfl : ∀ rs : Fin o → F, (List.ofFn fun j => (votes j, rs j)).map Prod.fst = List.ofFn votes := by
    intro rs
    rw [List.map_ofFn]
    rfl
  refine ⟨?_, ?_, ?_⟩
  · -- injectivity
    rintro ⟨rs, p⟩ ⟨rs', p'⟩ h
    obtain ⟨h1, h2⟩ := makeChoice_injective (Option.some.inj h)
    refine Prod.ext (funext fun j => ?_) h2
    exact hB.smul_gen_inj (congrArg Ciphertext.random (congrFun h1 j))
  · rintro H ⟨rs, p⟩ hh
    obtain ⟨-, -, -, -, -, -, h5⟩ := choicePoints_spec B hT ho H K (choiceCts B K votes rs) p
    have hv := h5.mpr hh
    obtain ⟨tape, ⟨hl, ht⟩, hu⟩ := choice_tape (B.withHash H) (hB.withHash H) K (List.ofFn fun j => (votes j, rs j))
      (by simpa using ho) (fun hk => by rw [hfl]; exact hone hk) (makeChoice (choiceCts B K votes rs) p) (hcts rs) (by simpa using hv)
    rw [hfl, List.length_ofFn] at ht
    rw [List.length_ofFn] at hl
    have hofn : List.ofFn (fun i : Fin (choiceDraws o kind) => tape.get ⟨i, by rw [hl]; exact i.2⟩) = tape :=
      List.ext_getElem (by simp [hl, choiceDraws]) fun i _ _ => by simp
    refine ⟨fun i => tape.get ⟨i, by rw [hl]; exact i.2⟩, ?_, ?_⟩
    · show Option.map _ _ = _
      rw [hofn]; exact ht
    · intro tape' ht'
      have := hu (List.ofFn tape') ⟨by rw [List.length_ofFn, List.length_ofFn]; rfl, by rw [hfl, List.length_ofFn]; exact ht'⟩
      rw [← hofn] at this
      exact List.ofFn_injective this
  · intro H tape
    obtain ⟨⟨ballot, rest⟩, hnew⟩ := (C32_choice_total (B.withHash H).withTape hT (kind := kind) ⟨o, K⟩ (List.ofFn votes)
      (List.ofFn tape)).mpr ⟨by simpa using ho, by simp⟩
    obtain ⟨hv, hl, -, hbits⟩ := C32_choice_complete (B.withHash H).withTape (kind := kind) ⟨o, K⟩ k hk (List.ofFn votes)
      hone _ _ _ hnew
    rw [EncryptedChoice.verify_withTape] at hv
    obtain ⟨-, -, -, -, t', hring⟩ := EncryptedChoice.verify_ok hv
    have hl : ballot.choices.length = o := hl
    obtain ⟨c, p, rfl⟩ := exists_makeChoice ballot hl (by
      rw [RingProof.verify_ok_length hring, hl]; simp [mul_comm])
    have hc : ∀ j, ∃ r : F, c j = ⟨r • B.gen, (if votes j then B.gen else 0) + r • K.element⟩ := by
      intro j
      have := (List.forall₂_iff_get.mp hbits).2 j (by simp [makeChoice]) (by simp)
      obtain ⟨r, h1, h2⟩ := this
      refine ⟨r, ?_⟩
      simp only [makeChoice, List.get_ofFn] at h1 h2
      rw [← hk] at h2
      exact Ciphertext.ext h1 h2
    choose rs hrs using hc
    obtain rfl : c = choiceCts B K votes rs := funext hrs
    refine ⟨(rs, p), ?_, by rw [hnew]; rfl⟩
    obtain ⟨-, -, -, -, -, -, h5⟩ := choicePoints_spec B hT ho H K (choiceCts B K votes rs) p
    exact h5.mp hv

/-- Ballots can be simulated for given ciphertexts. -/
theorem choice_simulation (B : Backend F E) (hB : B.Lawful) (hT : B.TotalSer) [Finite E] {kind : ChoiceKind} {o : ℕ}
    (ho : o ≠ 0) (K : PublicKey E) (k : F) (hk : K.element = k • B.gen) (hK : K.bytes = encOf B K.element)
    (D : Finset (List Entry)) (hD : (choiceData_finite B o).toFinset ⊆ D) (H₀ : List Entry → F)
    (votes : Fin o → Bool) (hone : kind = .single → (List.ofFn votes).count true = 1)
    (guess : (List Entry → F) → PublicKey E → Option (EncryptedChoice F E kind) → ℚ) :
    (meanHash D H₀ fun H => mean fun tape : Fin (choiceDraws o kind) → F =>
      guess H K ((EncryptedChoice.new (B.withHash H).withTape ⟨o, K⟩ (List.ofFn votes) (List.ofFn tape)).map Prod.fst)) =
    mean fun rs : Fin o → F => simulatedGuess B D H₀ guess K fun j =>
      ⟨rs j • B.gen, (if votes j then B.gen else 0) + rs j • K.element⟩ := by
  obtain ⟨hp, hnd⟩ := choicePoints_programmable B hT ho K hK
    (fun s : (Fin o → F) × ChoiceProofs F o kind => choiceCts B K votes s.1) (fun s => s.2) D hD
  obtain ⟨h1, h2, h3⟩ := choice_outputs B hB hT (kind := kind) ho K k hk votes hone
  rw [rom_simulation hp hnd H₀ _ _ h1 h2 h3 (card_choiceProofs o kind) (fun H => guess H K), mean_prod]
  rfl

end

end ElasticElgamal
