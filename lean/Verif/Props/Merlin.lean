import Verif.Lemmas.MerlinBound
import Verif.Spec.Transcript
import Verif.Toy

/-!
# Transcripts over STROBE (C77)

Merlin does what the rest of the model assumes about it: a transcript is determined by the log of operations, and
different logs lead to different states of the sponge unless the permutation has an inner collision which can be
read off from the two computations.
-/

set_option autoImplicit false
set_option linter.unusedSectionVars false

namespace ElasticElgamal

open Spec Toy Merlin

/-- Merlin panics exactly if a message has 4 GiB or more. Positions never leave the block, so that accesses to the
state are in bounds. -/
theorem C77_runs (f : KeccakState → KeccakState) {n : ℕ} (hn : n < 166) (log : List Entry) :
    ((runLog f n log).isSome ↔ ∀ e ∈ log, ShortEntry e) ∧
    ∀ s, runLog f n log = some s → s.pos < 166 ∧ s.posBegin ≤ 166 := by
  obtain ⟨h1, h2⟩ := runLog_eval f hn log
  refine ⟨⟨fun h => ?_, h1⟩, fun s hs => ?_⟩
  · obtain ⟨t, ht⟩ := Option.isSome_iff_exists.mp h
    exact (h2 t ht).1
  · obtain ⟨-, flags, rfl, hr, -⟩ := h2 s hs
    exact ⟨hr.pos, hr.pb_le⟩

/-- If two challenges are read from states with the same capacity, in particular from the same state, then the logs
and the labels of the challenges are the same, or the two computations contain an inner collision. -/
theorem C77_challenge_injective (f : KeccakState → KeccakState) {n : ℕ} (hn : n < 166) {log log' : List Entry}
    {label label' : String} (hlog : AsciiLog log) (hlog' : AsciiLog log') (hlabel : IsAscii label)
    (hlabel' : IsAscii label') {s s' : Strobe} (h : challengeState f n log label = some s)
    (h' : challengeState f n log' label' = some s') (hs : SameCapacity s.state s'.state) :
    (log = log' ∧ label = label') ∨ InnerCollision f (s.calls ++ s'.calls) := by
  obtain ⟨rfl, hu, hp⟩ := challengeState_eval f hn h
  obtain ⟨rfl, hv, hp'⟩ := challengeState_eval f hn h'
  generalize symChallenge n log label = u at hu hp hs
  generalize symChallenge n log' label' = v at hv hp' hs
  have e : ∀ w : Sym, Pending n w → (eval f w 7).state = (evalDone f w.done).1 := by
    intro w hw
    simp only [eval, hw.sq, hw.bytes, absorbed_nil]
  rw [e u hu, e v hv] at hs
  refine (done_unique f hu.good hv.good hs).imp_left fun hd => ?_
  have hw : u.history = v.history := by
    simp only [Sym.history, Sym.stream, hd, hu.sq, hv.sq, hu.bytes, hv.bytes, hu.pb, hv.pb]
  have := hp.unique hp' hw
  have h1 : log.flatMap (entryOps n) ++ [labelOp label n] = log'.flatMap (entryOps n) ++ [labelOp label' n] := by
    simp only [logOps, List.cons_append, List.cons.injEq, true_and] at this
    exact (List.append_inj' (s₁ := log.flatMap (entryOps n) ++ [labelOp label n])
      (s₂ := log'.flatMap (entryOps n) ++ [labelOp label' n]) (t₁ := [(7, [])]) (t₂ := [(7, [])])
      (by simpa using this) rfl).1
  obtain ⟨h2, h3⟩ := logOps_inj hlog hlog' (by simp) (by simp) h1
  exact ⟨h2, labelOp_inj hlabel hlabel' (by simpa using h3)⟩

/-- The same for transcripts between operations. -/
theorem C77_log_injective (f : KeccakState → KeccakState) {n : ℕ} (hn : n < 166) {log log' : List Entry}
    (hlog : AsciiLog log) (hlog' : AsciiLog log') {s s' : Strobe} (h : runLog f n log = some s)
    (h' : runLog f n log' = some s') (hstate : s.state = s'.state) (hpos : s.pos = s'.pos)
    (hbegin : s.posBegin = s'.posBegin) :
    log = log' ∨ InnerCollision f (s.calls ++ s'.calls) := by
  obtain ⟨-, a, rfl, hu, hp⟩ := (runLog_eval f hn log).2 s h
  obtain ⟨-, b, rfl, hv, hp'⟩ := (runLog_eval f hn log').2 s' h'
  generalize symLog n log = u at hu hp hstate hpos hbegin
  generalize symLog n log' = v at hv hp' hstate hpos hbegin
  have hcap : SameCapacity (evalDone f u.done).1 (evalDone f v.done).1 := by
    have h1 := absorbed_capacity (evalDone f u.done).1 u.sq u.bytes (by have := hu.pos; unfold Sym.pos at this; omega)
    have h2 := absorbed_capacity (evalDone f v.done).1 v.sq v.bytes (by have := hv.pos; unfold Sym.pos at this; omega)
    have h3 : absorbed (evalDone f u.done).1 u.sq u.bytes = absorbed (evalDone f v.done).1 v.sq v.bytes := hstate
    exact h1.symm.trans (h3 ▸ h2)
  refine (done_unique f hu.good hv.good hcap).imp_left fun hd => ?_
  have hsq : u.sq = v.sq := by rw [hu.sq, hv.sq, hd]
  have hp1 : u.sq + u.bytes.length = v.sq + v.bytes.length := hpos
  have hbytes : u.bytes = v.bytes := by
    have h3 : absorbed (evalDone f u.done).1 u.sq u.bytes = absorbed (evalDone f v.done).1 v.sq v.bytes := hstate
    rw [hd, hsq] at h3
    refine absorbed_inj (by omega) ?_ h3
    have := hu.pos
    unfold Sym.pos at this
    omega
  have hb : u.pb = v.pb := hbegin
  have := hp.unique hp' (by simp only [Sym.history, Sym.stream, hd, hsq, hbytes, hb])
  simp only [logOps, List.cons.injEq, true_and] at this
  exact (logOps_inj (n := n) hlog hlog' (x := []) (y := []) (by simp) (by simp) (by simpa using this)).1

theorem eval_calls (f : KeccakState → KeccakState) (u : Sym) (flags : UInt8) :
    (Merlin.eval f u flags).calls = (evalDone f u.done).2 := rfl

/-- An attacker that evaluates the permutation `q` times finds two transcripts with the same capacity before a
challenge with a negligible probability, if the permutation is modelled as a random function: the bound is
`N (N + 1) / 2` in `256 ^ 32`, where `N` is the number of evaluations by the attacker and for the transcripts. -/
theorem C77_collision_bound {n : ℕ} (hn : n < 166) (q m : ℕ)
    (adv : OracleAlg KeccakState KeccakState ((List Entry × String) × (List Entry × String))) (hadv : adv.AtMost q) :
    ProbLe (fun f => TranscriptsCollide f n m (adv.run f).1 (adv.run f).2)
      (((q + m) * (q + m + 1) / 2 : ℚ) / 256 ^ 32) := by
  let recompute : (List Entry × String) × (List Entry × String) → OracleAlg KeccakState KeccakState Unit := fun xy =>
    statesAlg m (symChallenge n xy.1.1 xy.1.2).done (symChallenge n xy.2.1 xy.2.2).done
  have hre : ∀ xy, (recompute xy).AtMost m := fun xy => statesAlg_atMost _ _ _
  have h := probLe_of_hitDep (P := fun f => TranscriptsCollide f n m (adv.run f).1 (adv.run f).2) collides
    (fun i => (i + 1) * 256 ^ 168) ncard_collides
    (fun H H' hist q hH => by
      ext a
      simp only [collides, Set.mem_ofPred_eq]
      refine or_congr_left ⟨?_, ?_⟩
      · rintro ⟨y, hy, h⟩; exact ⟨y, hy, hH y hy ▸ h⟩
      · rintro ⟨y, hy, h⟩; exact ⟨y, hy, (hH y hy).symm ▸ h⟩)
    (adv.bind recompute) (hadv.bind hre) (fun f hf => by
      obtain ⟨hne, h1, h2, h3, h4, s, s', hs, hs', hm, hcap⟩ := hf
      have hcol := (C77_challenge_injective f hn h1 h3 h2 h4 hs hs' hcap).resolve_left fun h =>
        hne (Prod.ext h.1 h.2)
      obtain ⟨rfl, -, -⟩ := challengeState_eval f hn hs
      obtain ⟨rfl, -, -⟩ := challengeState_eval f hn hs'
      have hq : (adv.bind recompute).queries f = adv.queries f ++
          ((evalDone f (symChallenge n (adv.run f).1.1 (adv.run f).1.2).done).2 ++
            (evalDone f (symChallenge n (adv.run f).2.1 (adv.run f).2.2).done).2) := by
        rw [eval_calls, eval_calls] at hm
        rw [OracleAlg.queries_bind, statesAlg_queries f hm]
      have hcol' : InnerCollision f ((adv.bind recompute).queries f) :=
        InnerCollision.mono hcol fun x hx => by
          rw [eval_calls, eval_calls] at hx
          rw [hq]
          exact List.mem_append_right _ hx
      refine hitDep_of_collision f _ ?_
      rcases hcol' with ⟨x, hx, y, hy, hxy, hc⟩ | ⟨x, hx, hc⟩
      · exact .inl ⟨x, y, .inl hx, .inl hy, by simp, hxy, hc⟩
      · exact .inr ⟨x, hx, by simp, hc⟩)
  refine h.mono (fun _ h => h) (le_of_eq ?_)
  have hcard : Fintype.card KeccakState = 256 ^ 200 := by
    rw [Fintype.card_fun, Fintype.card_fin, card_uint8]
  rw [hcard]
  have hsum : ∀ k : ℕ, ((∑ i ∈ Finset.range k, (i + 1) * 256 ^ 168 : ℕ) : ℚ) = (k * (k + 1) / 2 : ℚ) * 256 ^ 168 := by
    intro k
    induction k with
    | zero => simp
    | succ k ih =>
      rw [Finset.sum_range_succ, Nat.cast_add, ih]
      push_cast
      ring
  rw [hsum, Nat.cast_add, Nat.cast_pow, Nat.cast_ofNat]
  rw [show (256 : ℚ) ^ 200 = 256 ^ 32 * 256 ^ 168 by rw [← pow_add], mul_div_mul_right _ _ (by positivity)]

theorem runEntries_append (f : KeccakState → KeccakState) (n : ℕ) (s : Strobe) (log log' : List Entry) :
    runEntries f n s (log ++ log') = (runEntries f n s log).bind fun t => runEntries f n t log' := by
  induction log generalizing s with
  | nil => rfl
  | cons e log ih =>
    cases e with
    | msg label data =>
      simp only [List.cons_append, runEntries, Option.bind_eq_bind, ih, Option.bind_assoc]
    | chal label =>
      simp only [List.cons_append, runEntries, Option.bind_eq_bind, ih, Option.bind_assoc]

section

variable {F E : Type} [Field F] [AddCommGroup E] [Module F E]

/-- The log is a faithful model of the transcript: if `s` is the state of Merlin for the log of a transcript, then
appending a message and extracting a challenge correspond to the operations of Merlin on `s`, and the challenge is
computed from the bytes that Merlin returns. -/
theorem C77_simulates (f : KeccakState → KeccakState) (n : ℕ) (toScalar : Bytes → F) (B : Backend F E)
    (t : Transcript) {s : Strobe} (h : runLog f n t.log = some s) :
    (∀ label data, runLog f n (t.appendMessage label data).log = appendMessage f s (asciiBytes label) data) ∧
    ∀ label bytes s', challengeBytes f s (asciiBytes label) n = some (bytes, s') →
      ((B.withHash (challenge f n toScalar)).challengeScalar t label).1 = toScalar bytes ∧
      runLog f n ((B.withHash (challenge f n toScalar)).challengeScalar t label).2.log = some s' := by
  simp only [runLog, Option.bind_eq_bind, Option.bind_eq_some_iff] at h
  obtain ⟨s0, h0, h⟩ := h
  have key (e : Entry) : runLog f n (t.log ++ [e]) = runEntries f n s [e] := by
    simp only [runLog, h0, Option.bind_eq_bind, Option.bind_some, runEntries_append, h]
  refine ⟨fun label data => ?_, fun label bytes s' hc => ⟨?_, ?_⟩⟩
  · rw [Transcript.appendMessage, key]
    simp only [runEntries, Option.bind_eq_bind]
    cases appendMessage f s (asciiBytes label) data <;> rfl
  · have h1 : runLog f n t.log = some s := by simp only [runLog, h0, Option.bind_eq_bind, Option.bind_some, h]
    simp only [Backend.challengeScalar, challenge, List.getLast?_append, List.getLast?_singleton, Option.some_or,
      List.dropLast_concat, challengeState, h1, Option.bind_eq_bind, Option.bind_some]
    simp only [challengeBytes, Option.bind_eq_bind, Option.bind_eq_some_iff, Option.pure_def, Option.some.injEq] at hc
    obtain ⟨w, hw, hc⟩ := hc
    rw [hw]
    simp only [hc]
  · rw [Backend.challengeScalar, key]
    simp only [runEntries, hc, Option.bind_eq_bind, Option.bind_some]

end

/-! ## Examples -/

/-- A transcript with two messages and a challenge. -/
def exampleLog : List Entry := [.msg "dom-sep" (asciiBytes "test protocol"), .msg "some label" [1, 2, 3], .chal "c"]

example : (runLog id 64 exampleLog).isSome :=
  (C77_runs id (by norm_num) exampleLog).1.mpr (by simp [exampleLog, ShortEntry, asciiBytes])

theorem exampleLog_ascii : AsciiLog exampleLog := by
  intro e he
  simp only [exampleLog, List.mem_cons, List.not_mem_nil, or_false] at he
  rcases he with rfl | rfl | rfl <;> · simp only [IsAscii, entryLabel]; decide

/-- Two challenges for different labels: their states have different capacities unless the permutation has an inner
collision. -/
example (f : KeccakState → KeccakState) (s s' : Strobe) (h : challengeState f 64 exampleLog "c" = some s)
    (h' : challengeState f 64 exampleLog "d" = some s') (hf : ¬ InnerCollision f (s.calls ++ s'.calls)) :
    ¬ SameCapacity s.state s'.state := fun hs =>
  (C77_challenge_injective f (by norm_num) exampleLog_ascii exampleLog_ascii (by simp only [IsAscii]; decide)
    (by simp only [IsAscii]; decide) h h' hs).elim (fun h => absurd h.2 (by decide)) hf

/-- With a constant permutation all challenges are the same; it has inner collisions. -/
example : ∃ s s', challengeState (fun _ _ => 1) 64 [] "c" = some s ∧ challengeState (fun _ _ => 1) 64 [] "d" = some s' ∧
    InnerCollision (fun _ _ => 1) (s.calls ++ s'.calls) :=
  ⟨_, _, rfl, rfl, (C77_challenge_injective (fun _ _ => 1) (n := 64) (by norm_num) (log := []) (log' := [])
    (label := "c") (label' := "d") (by intro e he; cases he) (by intro e he; cases he) (by simp only [IsAscii]; decide)
    (by simp only [IsAscii]; decide) rfl rfl (fun i _ => rfl)).resolve_left fun h => absurd h.2 (by decide)⟩

/-- An attacker with `2 ^ 60` evaluations that outputs transcripts of less than `2 ^ 40` blocks. -/
example (adv : OracleAlg KeccakState KeccakState ((List Entry × String) × (List Entry × String)))
    (hadv : adv.AtMost (2 ^ 60)) :
    ProbLe (fun f => TranscriptsCollide f 64 (2 ^ 40) (adv.run f).1 (adv.run f).2) (1 / 2 ^ 130) :=
  (C77_collision_bound (by norm_num) (2 ^ 60) (2 ^ 40) adv hadv).mono (fun _ h => h) (by norm_num)

/-- Transcripts in the same state have the same log if there are no collisions. -/
example (f : KeccakState → KeccakState) (log : List Entry) (hlog : AsciiLog log) (s : Strobe)
    (h : runLog f 64 log = some s) (h' : runLog f 64 exampleLog = some s)
    (hf : ¬ InnerCollision f (s.calls ++ s.calls)) : log = exampleLog :=
  (C77_log_injective f (by norm_num) hlog exampleLog_ascii h h' rfl rfl rfl).resolve_right hf

example : ∃ s, runLog id 64 exampleLog = some s ∧
    ∀ label data, runLog id 64 ((⟨exampleLog⟩ : Transcript).appendMessage label data).log =
      appendMessage id s (asciiBytes label) data := by
  obtain ⟨s, hs⟩ := Option.isSome_iff_exists.mp ((C77_runs id (show 64 < 166 by norm_num) exampleLog).1.mpr
    (by simp [exampleLog, ShortEntry, asciiBytes]))
  exact ⟨s, hs, (C77_simulates id 64 (fun b => ((leValue b : ℕ) : ZMod 101)) B101 ⟨exampleLog⟩ hs).1⟩

end ElasticElgamal
