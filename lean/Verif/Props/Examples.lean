import Verif.Lemmas.Examples
import Verif.Toy

/-!
# The example programs (C76)
-/

set_option autoImplicit false
set_option linter.unusedSectionVars false

namespace ElasticElgamal

open Spec Toy Examples

variable {F E : Type} [Field F] [AddCommGroup E] [Module F E] [DecidableEq F] [DecidableEq E]

/-- C76: what `examples/voting.rs` prints for a single-choice poll is right: everybody makes one choice among the
options, and the decrypted tallies are the numbers of voters for each option. -/
theorem C76_vote_tallies (B : Backend F E) (hB : B.Lawful) (ext : RandExt B.Rng) (hR : LawfulRand ext) (args : Args)
    (hn : args.votesCount < 2 ^ 64) (rng : B.Rng) (choices tallies : List ℕ)
    (h : vote B ext args rng = some (choices, tallies)) :
    choices.length = args.votesCount ∧ (∀ c ∈ choices, c < args.optionsCount) ∧
    tallies = (List.range args.optionsCount).map fun j => choices.count j := by
  simp only [vote, tallyAll, Option.bind_eq_bind, Option.bind_eq_some_iff, Prod.exists, Option.pure_def, Option.some.injEq,
    Prod.mk.injEq] at h
  obtain ⟨ks, talliers, r1, hi, params, hp, ch, expected, encrypted, r2, hl, out, r3, ⟨table, ht, htl⟩, rfl, rfl⟩ := h
  obtain ⟨k, hk⟩ := hB.gen_spans params.receiver.element
  have hpar := ((C32_params _ _).2.2.1 params hp).1
  obtain ⟨h1, h2, h3, h4⟩ := voteLoop_spec hR hk args.optionsCount hpar args.votesCount
    (by simp) (by intro x hx; rw [List.eq_of_mem_replicate hx]; omega) (decrypts_zero B k _) hl
  refine ⟨h1, h2, ?_⟩
  have hz : expected = counts args.optionsCount ch := by
    rw [h3]
    apply List.ext_getElem
    · simp [counts]
    · intro i h1 h2; simp [counts]
  rw [tallyLoop_spec _ htl, List.map_snd_zip (by rw [h4.length_eq]), hz]
  rfl

/-- C76: with total encodings (Ristretto) the single-choice example runs without panicking exactly if there is an
option and the threshold is positive and at most the number of talliers; in particular none of its `unwrap`s and
assertions fails. (The parser of arguments does not check this, see `C76_parse_talliers`.) -/
theorem C76_vote_runs (B : Backend F E) (hB : B.Lawful) (hT : B.TotalSer) (hu : Backend.U64Inj F) (p : ℕ) [CharP F p]
    (ext : RandExt B.Rng) (hR : LawfulRand ext) (args : Args) (hn : args.votesCount < 2 ^ 64)
    (hs : args.talliers.shares < p) (rng : B.Rng) :
    (∃ out, vote B ext args rng = some out) ↔
      0 < args.optionsCount ∧ 0 < args.talliers.threshold ∧ args.talliers.threshold ≤ args.talliers.shares := by
  have hz : ∀ x ∈ List.replicate args.optionsCount 0, x + args.votesCount < 2 ^ 64 := by
    intro x hx; rw [List.eq_of_mem_replicate hx]; omega
  constructor
  · rintro ⟨out, h⟩
    simp only [vote, tallyAll, Option.bind_eq_bind, Option.bind_eq_some_iff, Prod.exists, Option.pure_def,
      Option.some.injEq] at h
    obtain ⟨ks, talliers, r1, hi, params, hp, ch, expected, encrypted, r2, hl, tallies, r3, ⟨table, ht, htl⟩, rfl⟩ := h
    have ht := initializeTalliers_spec hi
    have hopt := (C32_params ks.sharedKey args.optionsCount).1.mp ⟨params, hp⟩
    refine ⟨hopt, ht.positive, ?_⟩
    obtain ⟨k, hk⟩ := hB.gen_spans params.receiver.element
    have hpar := ((C32_params _ _).2.2.1 params hp).1
    obtain ⟨-, -, h3, h4⟩ := voteLoop_spec hR hk args.optionsCount hpar args.votesCount
      (by simp) hz (decrypts_zero B k _) hl
    have := tallyLoop_threshold hR _ (by
      intro h0
      have h1 := congrArg List.length h0
      have h2 := congrArg List.length h3
      simp only [List.length_zip, List.length_nil, h4.length_eq, List.length_zipWith, List.length_replicate, counts,
        List.length_map, List.length_range] at h1 h2
      omega) htl
    rwa [ht.same, ht.length] at this
  · rintro ⟨hopt, hv⟩
    obtain ⟨⟨⟨ks, talliers⟩, r1⟩, hi⟩ := initializeTalliers_total hB hT (args := args) hv rng
    have ht := initializeTalliers_spec hi
    obtain ⟨params, hp⟩ := (C32_params ks.sharedKey args.optionsCount).1.mpr hopt
    obtain ⟨hpar, hrec⟩ := (C32_params _ _).2.2.1 params hp
    obtain ⟨⟨⟨ch, expected, encrypted⟩, r2⟩, hl⟩ := voteLoop_total hB hT hR args.optionsCount hopt hpar
      args.votesCount (expected := List.replicate args.optionsCount 0)
      (encrypted := List.replicate args.optionsCount Ciphertext.zero) (rng := r1) (by simp) hz
    obtain ⟨k, hk⟩ := hB.gen_spans params.receiver.element
    obtain ⟨h1, h2, h3, h4⟩ := voteLoop_spec hR hk args.optionsCount hpar args.votesCount
      (by simp) hz (decrypts_zero B k _) hl
    obtain ⟨table, htab⟩ := C02_new_total B hB hu (List.range (args.votesCount + 1)) (by
      intro v hv; rw [List.mem_range] at hv; omega)
    obtain ⟨r3, htl⟩ := tallyLoop_total hB hT hu hR p hv hs ht k (by rw [← hk, hrec]) args.votesCount hn table htab
      (encrypted.zip expected) (by
        rintro ⟨ct, x⟩ hx
        obtain ⟨i, hi, he⟩ := List.mem_iff_getElem.mp hx
        simp only [List.length_zip, h4.length_eq, min_self] at hi
        simp only [List.getElem_zip, Prod.mk.injEq] at he
        obtain ⟨rfl, rfl⟩ := he
        refine ⟨List.Forall₂.get h4 (by rw [h4.length_eq]; exact hi) hi, ?_⟩
        have hin : i < args.optionsCount := by
          have := congrArg List.length h3
          simp only [List.length_zipWith, List.length_replicate, counts, List.length_map, List.length_range,
            min_self] at this
          omega
        simp only [h3, counts, List.getElem_zipWith, List.getElem_replicate, List.getElem_map, List.getElem_range,
          Nat.zero_add]
        rw [← h1]
        exact List.count_le_length) r2
    exact ⟨(ch, (encrypted.zip expected).map Prod.snd), by
      simp only [vote, tallyAll, hi, hp, hl, htab, htl, Option.bind_eq_bind, Option.bind_some, Option.pure_def]⟩

/-- C76: the loop in which a voter distributes their credits ends after at most `credit_amount + 1` iterations, whatever
the random generator returns: allowing more makes no difference. The votes respect the credits. -/
theorem C76_cast_terminates (dbg : Bool) {R : Type} (ext : RandExt R) (hR : LawfulRand ext) (options credits : ℕ)
    (ho : 0 < options) (hc : credits ≤ 2 ^ 64 - 2 ^ 33) (rng : R) :
    ∃ votes rng', (∀ fuel > credits,
        castLoop dbg ext credits fuel (List.replicate options 0) rng = some (votes, rng')) ∧
      votes.length = options ∧ cost votes ≤ credits := by
  obtain ⟨votes, r, h1, h2, h3, h4⟩ := castLoop_total hR dbg credits hc (credits + 1)
    (votes := List.replicate options 0) (by
      intro h0
      have := congrArg List.length h0
      simp at this
      omega) (by rw [cost_zero]; omega) (by omega) rng
  exact ⟨votes, r, fun fuel hf => h4 fuel hf, by simpa using h2, h3⟩

/-- C76: with total encodings the quadratic-voting example runs without panicking exactly if there are options and
credits and the threshold is positive and at most the number of talliers; and what it prints is right: everybody casts
votes within the credits, and the decrypted tallies are the sums of the votes for each option. -/
theorem C76_quadratic_runs (B : Backend F E) (hB : B.Lawful) (hT : B.TotalSer) (hu : Backend.U64Inj F) (p : ℕ)
    [CharP F p] (ext : RandExt B.Rng) (hR : LawfulRand ext) (est : ℕ → ℕ) (he : EstimateOk est) (args : Args)
    (hc : args.creditAmount ≤ 2 ^ 64 - 2 ^ 33) (hn : args.votesCount * Nat.sqrt args.creditAmount < 2 ^ 64)
    (hs : args.talliers.shares < p) (rng : B.Rng) :
    ((∃ out, quadraticVote B ext est args rng = some out) ↔ 0 < args.optionsCount ∧ 0 < args.creditAmount ∧
      0 < args.talliers.threshold ∧ args.talliers.threshold ≤ args.talliers.shares) ∧
    ∀ cast tallies, quadraticVote B ext est args rng = some (cast, tallies) →
      cast.length = args.votesCount ∧
      (∀ votes ∈ cast, votes.length = args.optionsCount ∧ cost votes ≤ args.creditAmount) ∧
      tallies = (List.range args.optionsCount).map fun j => (cast.map fun votes => (votes[j]?).getD 0).sum := by
  -- the run up to tallying, for parameters accepted by the constructor
  have hrun : ∀ (ks : PublicKeySet E) (r1 : B.Rng), 0 < args.optionsCount → 0 < args.creditAmount →
      ∃ params k cast expected encrypted r2,
        QuadraticVotingParams.new B est ks.sharedKey args.optionsCount args.creditAmount = some params ∧
        quadraticVoteLoop B ext params args.optionsCount args.creditAmount args.votesCount
          (List.replicate args.optionsCount 0) (List.replicate args.optionsCount Ciphertext.zero) r1 =
          some ((cast, expected, encrypted), r2) ∧
        params.maxVotes B.debug = some (Nat.sqrt args.creditAmount) ∧ ks.sharedKey.element = k • B.gen ∧
        cast.length = args.votesCount ∧
        (∀ votes ∈ cast, votes.length = args.optionsCount ∧ cost votes ≤ args.creditAmount) ∧
        expected = columnSums args.optionsCount cast ∧ Decrypts B k encrypted expected ∧
        ∀ x ∈ expected, x ≤ args.votesCount * Nat.sqrt args.creditAmount := by
    intro ks r1 ho hcr
    obtain ⟨params, m, h1, h2, h3, h4, h5, h6, h7⟩ := C35_params_new B est he ks.sharedKey args.optionsCount
      args.creditAmount ho hcr (by omega)
    have hm : m = Nat.sqrt args.creditAmount := by
      exact Nat.eq_sqrt.mpr ⟨h3, h4⟩
    obtain ⟨k, hk⟩ := hB.gen_spans ks.sharedKey.element
    obtain ⟨cast, e, c, r2, j1, j2, j3, j4, j5, j6⟩ := quadraticVoteLoop_total hT hR (k := k) (by rw [h2, hk])
      args.optionsCount args.creditAmount m ho hc h4 h5 args.votesCount 0
      (expected := List.replicate args.optionsCount 0)
      (encrypted := List.replicate args.optionsCount Ciphertext.zero) (rng := r1) (by simp)
      (by intro x hx; rw [List.eq_of_mem_replicate hx]) (by rw [hm]; omega) (decrypts_zero B k _)
    refine ⟨params, k, cast, e, c, r2, h1, j1, by rw [h7, hm], hk, j2, j3, ?_, j5, by
      intro x hx; have := j6 x hx; rw [hm] at this; omega⟩
    rw [j4]
    apply List.ext_getElem
    · simp [columnSums]
    · intro i h1 h2; simp [columnSums]
  have hmul : mulU64 B.debug args.votesCount (Nat.sqrt args.creditAmount) =
      some (args.votesCount * Nat.sqrt args.creditAmount) := mulU64_of_lt hn
  have hparams : ∀ K params, QuadraticVotingParams.new B est K args.optionsCount args.creditAmount = some params →
      0 < args.optionsCount ∧ 0 < args.creditAmount := by
    intro K params h
    simp only [QuadraticVotingParams.new, Option.bind_eq_bind, Option.bind_eq_some_iff, guard_eq_some'] at h
    obtain ⟨-, h1, -, h2, -⟩ := h
    exact ⟨h1, h2⟩
  refine ⟨⟨?_, ?_⟩, ?_⟩
  · rintro ⟨out, h⟩
    simp only [quadraticVote, tallyAll, Option.bind_eq_bind, Option.bind_eq_some_iff, Prod.exists, Option.pure_def,
      Option.some.injEq] at h
    obtain ⟨ks, talliers, r1, hi, params, hp, cast, expected, encrypted, r2, hl, mv, hmv, N, hN, tallies, r3,
      ⟨table, ht, htl⟩, rfl⟩ := h
    have ht := initializeTalliers_spec hi
    obtain ⟨ho, hcr⟩ := hparams _ _ hp
    obtain ⟨params', k, cast', e', c', r2', h1, h2, h3, h4, h5, h6, h7, h8, h9⟩ := hrun ks r1 ho hcr
    rw [hp] at h1
    cases h1
    rw [hl] at h2
    cases h2
    refine ⟨ho, hcr, ht.positive, ?_⟩
    have := tallyLoop_threshold hR _ (by
      intro h0
      have h1 := congrArg List.length h0
      have h2 := congrArg List.length h7
      simp only [List.length_zip, List.length_nil, h8.length_eq, columnSums,
        List.length_map, List.length_range] at h1 h2
      omega) htl
    rwa [ht.same, ht.length] at this
  · rintro ⟨ho, hcr, hv⟩
    obtain ⟨⟨⟨ks, talliers⟩, r1⟩, hi⟩ := initializeTalliers_total hB hT (args := args) hv rng
    have ht := initializeTalliers_spec hi
    obtain ⟨params, k, cast, expected, encrypted, r2, h1, h2, h3, h4, h5, h6, h7, h8, h9⟩ := hrun ks r1 ho hcr
    obtain ⟨table, htab⟩ := C02_new_total B hB hu
      (List.range (args.votesCount * Nat.sqrt args.creditAmount + 1)) (by
      intro v hv; rw [List.mem_range] at hv; omega)
    obtain ⟨r3, htl⟩ := tallyLoop_total hB hT hu hR p hv hs ht k h4 _ hn table htab
      (encrypted.zip expected) (by
        rintro ⟨ct, x⟩ hx
        refine ⟨?_, h9 x (List.of_mem_zip hx).2⟩
        obtain ⟨i, hi, he⟩ := List.mem_iff_getElem.mp hx
        simp only [List.length_zip, h8.length_eq, min_self] at hi
        simp only [List.getElem_zip, Prod.mk.injEq] at he
        obtain ⟨rfl, rfl⟩ := he
        exact List.Forall₂.get h8 (by rw [h8.length_eq]; exact hi) hi) r2
    exact ⟨(cast, (encrypted.zip expected).map Prod.snd), by
      simp only [quadraticVote, tallyAll, hi, h1, h2, h3, hmul, htab, htl, Option.bind_eq_bind,
      Option.bind_some, Option.pure_def]⟩
  · intro cast tallies h
    simp only [quadraticVote, tallyAll, Option.bind_eq_bind, Option.bind_eq_some_iff, Prod.exists, Option.pure_def,
      Option.some.injEq, Prod.mk.injEq] at h
    obtain ⟨ks, talliers, r1, hi, params, hp, cast, expected, encrypted, r2, hl, mv, hmv, N, hN, tallies, r3,
      ⟨table, ht, htl⟩, rfl, rfl⟩ := h
    obtain ⟨ho, hcr⟩ := hparams _ _ hp
    obtain ⟨params', k, cast', e', c', r2', h1, h2, h3, h4, h5, h6, h7, h8, h9⟩ := hrun ks r1 ho hcr
    rw [hp] at h1
    cases h1
    rw [hl] at h2
    cases h2
    refine ⟨h5, h6, ?_⟩
    rw [tallyLoop_spec _ htl, List.map_snd_zip (by rw [h8.length_eq]), h7]
    rfl

/-- C76, finding: in groups that cannot encode the identity element (the curve `K256`) both polls panic without
votes, since the totals are then zero ciphertexts. -/
theorem C76_no_votes (B : Backend F E) (hz : B.serElem 0 = none) (ext : RandExt B.Rng) (hR : LawfulRand ext)
    (est : ℕ → ℕ) (args : Args) (hn : args.votesCount = 0) (rng : B.Rng) :
    vote B ext args rng = none ∧ quadraticVote B ext est args rng = none := by
  have hloop : ∀ (ks : PublicKeySet E) (talliers : List (ActiveParticipant F E)) (table : DiscreteLogTable) (r : B.Rng),
      Talliers B args.talliers ks talliers → 0 < args.optionsCount →
      tallyLoop B ext ks talliers table ((List.replicate args.optionsCount Ciphertext.zero).zip
        (List.replicate args.optionsCount 0)) r = none := by
    intro ks talliers table r ht ho
    have hitems : (List.replicate args.optionsCount (Ciphertext.zero : Ciphertext E)).zip
        (List.replicate args.optionsCount 0) ≠ [] := by
      intro h0
      have := congrArg List.length h0
      simp at this
      omega
    cases h : tallyLoop B ext ks talliers table ((List.replicate args.optionsCount Ciphertext.zero).zip
        (List.replicate args.optionsCount 0)) r with
    | none => rfl
    | some out =>
      have hle := tallyLoop_threshold hR _ hitems h
      obtain ⟨n, hno⟩ : ∃ n, args.optionsCount = n + 1 := ⟨args.optionsCount - 1, by omega⟩
      rw [hno, List.replicate_succ, List.replicate_succ, List.zip_cons_cons] at h
      simp only [tallyLoop, Option.bind_eq_bind, Option.bind_eq_some_iff, Prod.exists] at h
      obtain ⟨shares, r1, hsh, -⟩ := h
      have hlen := hR.sample_length talliers.length ks.params.threshold r
      have hpos := ht.positive
      rw [← ht.same] at hpos
      generalize (ext.sample talliers.length ks.params.threshold r).1 = js at hsh hlen
      cases js with
      | nil => simp only [List.length_nil] at hlen; omega
      | cons j js =>
        simp only [decryptionShares, ActiveParticipant.decryptShare, Ciphertext.zero, PublicKey.fromElement, hz,
          Option.bind_eq_bind, Option.bind_none, Option.bind_eq_some_iff] at hsh
        simp at hsh
  constructor
  · cases h : vote B ext args rng with
    | none => rfl
    | some out =>
      simp only [vote, tallyAll, Option.bind_eq_bind, Option.bind_eq_some_iff, Prod.exists, hn, voteLoop,
        Option.some.injEq, Prod.mk.injEq] at h
      obtain ⟨ks, talliers, r1, hi, params, hp, ch, expected, encrypted, r2, ⟨⟨rfl, rfl, rfl⟩, rfl⟩, tallies, r3,
        ⟨table, ht, htl⟩, -⟩ := h
      rw [hloop ks talliers table _ (initializeTalliers_spec hi) ((C32_params _ _).1.mp ⟨params, hp⟩)] at htl
      cases htl
  · cases h : quadraticVote B ext est args rng with
    | none => rfl
    | some out =>
      simp only [quadraticVote, tallyAll, Option.bind_eq_bind, Option.bind_eq_some_iff, Prod.exists, hn,
        quadraticVoteLoop, Option.some.injEq, Prod.mk.injEq] at h
      obtain ⟨ks, talliers, r1, hi, params, hp, ch, expected, encrypted, r2, ⟨⟨rfl, rfl, rfl⟩, rfl⟩, mv, -, N, -,
        tallies, r3, ⟨table, ht, htl⟩, -⟩ := h
      simp only [QuadraticVotingParams.new, Option.bind_eq_bind, Option.bind_eq_some_iff, guard_eq_some'] at hp
      obtain ⟨-, ho, -⟩ := hp
      rw [hloop ks talliers table _ (initializeTalliers_spec hi) ho] at htl
      cases htl

/-- C76: `parse_talliers` accepts exactly two decimal numbers separated by a slash, first the threshold, then the number
of talliers; it does not check that they make sense. -/
theorem C76_parse_talliers (s : List Char) (params : Params) :
    parseTalliers s = some params ↔ ∃ a b, s = a ++ '/' :: b ∧ Numeral a params.threshold ∧
      Numeral b params.shares := by
  have hslash : ∀ a v, Numeral a v → '/' ∉ a := by
    rintro a v ⟨ds, h, -, hd, -⟩ hm
    have h1 : ('/' : Char).isDigit = false := by decide
    rcases h with rfl | rfl
    · rw [hd _ hm] at h1; cases h1
    · rcases List.mem_cons.mp hm with h2 | hm
      · exact absurd h2 (by decide)
      · rw [hd _ hm] at h1; cases h1
  simp only [parseTalliers, Option.bind_eq_bind, Option.bind_eq_some_iff, Prod.exists, splitOnce_eq, parseUsize_eq,
    Option.pure_def, Option.some.injEq]
  constructor
  · rintro ⟨a, b, ⟨rfl, -⟩, t, ht, n, hn, rfl⟩
    exact ⟨a, b, rfl, ht, hn⟩
  · rintro ⟨a, b, rfl, ht, hn⟩
    exact ⟨a, b, ⟨rfl, hslash _ _ ht⟩, _, ht, _, hn, rfl⟩

/-- C76: the usual decimal notation is parsed back. -/
theorem C76_parse_decimal (threshold shares : ℕ) (ht : threshold < 2 ^ 64) (hs : shares < 2 ^ 64) :
    parseTalliers (toString threshold ++ "/" ++ toString shares).toList = some ⟨shares, threshold⟩ := by
  have hnum : ∀ n : ℕ, n < 2 ^ 64 → Numeral (Nat.toDigits 10 n) n := by
    intro n hn
    refine ⟨_, .inl rfl, Nat.toDigits_ne_nil, fun c hc => Nat.isDigit_of_mem_toDigits (by norm_num) (by norm_num) hc,
      ?_, hn⟩
    have := Nat.ofDigitChars_ten_toDigits (n := n)
    rw [Nat.ofDigitChars_eq_foldl] at this
    exact this.symm
  rw [C76_parse_talliers]
  refine ⟨Nat.toDigits 10 threshold, Nat.toDigits 10 shares, ?_, hnum _ ht, hnum _ hs⟩
  simp [String.toList_append]

/-- C76: `examples/range.rs` runs without panicking: it encrypts five values below 100, and decrypts each of them. -/
theorem C76_range_runs (B : Backend F E) (hB : B.Lawful) (hT : B.TotalSer) (hu : Backend.U64Inj F)
    (ext : RandExt B.Rng) (hR : LawfulRand ext) (est : ℕ → ℕ) (he : EstimateOk est) (rng : B.Rng) :
    ∃ values, rangeMain B ext est rng = some values ∧ values.length = 5 ∧ ∀ v ∈ values, v.1 < 100 ∧ v.2 = v.1 := by
  obtain ⟨d, range, h1, h2, h3, -⟩ := C26_prepared_total B est he upperBound (by decide) (by decide)
  obtain ⟨d', h4, h5, -⟩ := C25_covers B.debug est he upperBound (by decide) (by decide)
  rw [h1] at h4
  cases h4
  have hk : ∃ out, Keypair.generate B rng = some out := by
    obtain ⟨b, hb⟩ := hT (B.mulGen (B.genScalar rng).1)
    exact ⟨(⟨(B.genScalar rng).1, ⟨b, B.mulGen (B.genScalar rng).1⟩⟩, (B.genScalar rng).2), by
      simp only [Keypair.generate, SecretKey.generate, PublicKey.ofSecret, PublicKey.fromElement, hb,
        Option.bind_eq_bind, Option.bind_some, Option.pure_def]⟩
  obtain ⟨⟨receiver, r1⟩, hk⟩ := hk
  obtain ⟨table, ht⟩ := C02_new_total B hB hu (List.range upperBound) (by
    intro v hv; rw [List.mem_range, upperBound] at hv; omega)
  obtain ⟨values, r2, h6, h7, h8⟩ := rangeLoop_total hB hT hu hR (C04_keypair_new B _ _ 0 _ (.inl hk)).1 h3 ht 5 r1
  exact ⟨values, by simp [rangeMain, h1, h5, hk, h2, ht, h6], h7, h8⟩

/-! ## Examples -/

/-- A generator that counts. -/
def exampleRand : RandExt ℕ where
  randomRange n r := (r % n, r + 1)
  randomBool r := (decide (r % 3 ≠ 0), r + 1)
  chooseIndex n r := (r % n, r + 1)
  sample n k r := (((List.range n).rotate r).take k, r + 1)

theorem exampleRand_lawful : LawfulRand exampleRand where
  range_lt n r hn := Nat.mod_lt _ hn
  choose_lt n r hn := Nat.mod_lt _ hn
  sample_lt n k r i hi := by
    have := List.mem_of_mem_take hi
    rwa [List.mem_rotate, List.mem_range] at this
  sample_nodup n k r := by
    refine List.Nodup.sublist (List.take_sublist _ _) ?_
    rw [List.nodup_rotate]
    exact List.nodup_range
  sample_length n k r := by simp [exampleRand]

/-- The default arguments, with 30 voters, 3 options and 3 of 5 talliers. -/
def defaultArgs : Args := ⟨3, 30, ⟨5, 3⟩, 10⟩

/-- The single-choice example runs with the default arguments, and its tallies add up to the number of votes. -/
example : ∃ choices tallies, vote BBig exampleRand defaultArgs (7 : ℕ) = some (choices, tallies) ∧
    choices.length = 30 ∧ tallies = [choices.count 0, choices.count 1, choices.count 2] := by
  obtain ⟨⟨choices, tallies⟩, h⟩ := (C76_vote_runs BBig BBig_lawful BBig_total bigPrime_u64 bigPrime exampleRand
    exampleRand_lawful defaultArgs (by decide) (by norm_num [defaultArgs, bigPrime, mersenne]) (7 : ℕ)).mpr (by decide)
  obtain ⟨h1, -, h3⟩ := C76_vote_tallies BBig BBig_lawful exampleRand exampleRand_lawful defaultArgs (by decide) _ _ _ h
  exact ⟨choices, tallies, h, h1, h3⟩

/-- "6/5" talliers are accepted by the parser, and make the example panic. -/
example : ∃ params, parseTalliers "6/5".toList = some params ∧
    vote BBig exampleRand { defaultArgs with talliers := params } (7 : ℕ) = none := by
  refine ⟨⟨5, 6⟩, C76_parse_decimal 6 5 (by norm_num) (by norm_num), ?_⟩
  cases h : vote BBig exampleRand { defaultArgs with talliers := ⟨5, 6⟩ } (7 : ℕ) with
  | none => rfl
  | some out =>
    have := (C76_vote_runs BBig BBig_lawful BBig_total bigPrime_u64 bigPrime exampleRand
      exampleRand_lawful { defaultArgs with talliers := ⟨5, 6⟩ } (by decide)
      (by norm_num [bigPrime, mersenne]) (7 : ℕ)).mp ⟨out, h⟩
    exact absurd this (by decide)

/-- Three options and ten credits. -/
example : ∃ votes rng', (∀ fuel > 10, castLoop true exampleRand 10 fuel [0, 0, 0] 4 = some (votes, rng')) ∧
    votes.length = 3 ∧ cost votes ≤ 10 :=
  C76_cast_terminates true exampleRand exampleRand_lawful 3 10 (by norm_num) (by norm_num) 4

/-- The quadratic-voting example runs with the default arguments. -/
example : ∃ cast tallies, quadraticVote BBig exampleRand RangeDecomposition.exactLowerLenEstimate defaultArgs (7 : ℕ) =
    some (cast, tallies) ∧ cast.length = 30 ∧ tallies.length = 3 := by
  obtain ⟨h1, h2⟩ := C76_quadratic_runs BBig BBig_lawful BBig_total bigPrime_u64 bigPrime exampleRand
    exampleRand_lawful _ C27_estimate_exact defaultArgs (by decide)
    (by
      have : Nat.sqrt defaultArgs.creditAmount ≤ 10 := Nat.sqrt_le_self 10
      have := Nat.mul_le_mul (le_refl defaultArgs.votesCount) this
      exact lt_of_le_of_lt this (by decide))
    (by norm_num [defaultArgs, bigPrime, mersenne]) (7 : ℕ)
  obtain ⟨⟨cast, tallies⟩, h⟩ := h1.mpr (by decide)
  obtain ⟨h3, -, h4⟩ := h2 cast tallies h
  exact ⟨cast, tallies, h, h3, by rw [h4]; rfl⟩

example : vote S101 exampleRand { defaultArgs with votesCount := 0 } (7 : ℕ) = none :=
  (C76_no_votes S101 (by decide) exampleRand exampleRand_lawful RangeDecomposition.exactLowerLenEstimate _ rfl (7 : ℕ)).1

/-- A plus sign and leading zeros are accepted. -/
example : parseTalliers "+03/5".toList = some ⟨5, 3⟩ :=
  (C76_parse_talliers _ _).mpr ⟨"+03".toList, "5".toList, by decide,
    ⟨['0', '3'], .inr (by decide), by decide, by decide, by decide, by decide⟩,
    ⟨['5'], .inl (by decide), by decide, by decide, by decide, by decide⟩⟩

example : ∃ values, rangeMain BBig exampleRand RangeDecomposition.exactLowerLenEstimate (7 : ℕ) = some values ∧ values.length = 5 := by
  obtain ⟨values, h1, h2, -⟩ := C76_range_runs BBig BBig_lawful BBig_total bigPrime_u64 exampleRand exampleRand_lawful
    RangeDecomposition.exactLowerLenEstimate
    C27_estimate_exact (7 : ℕ)
  exact ⟨values, h1, h2⟩

end ElasticElgamal
