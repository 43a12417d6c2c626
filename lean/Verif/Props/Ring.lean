import Verif.Lemmas.RingTape
import Verif.Lemmas.Chunks
import Verif.Toy

/-!
# C22, C23, C24 and the ring parts of C13, C16, C50, C51
-/

set_option autoImplicit false
set_option linter.unusedSectionVars false

namespace ElasticElgamal

open Spec Toy

variable {F E : Type} [Field F] [AddCommGroup E] [Module F E] [DecidableEq F] [DecidableEq E]

/-- C22: any sequence of `add_value` / `add_precomputed_value` calls on a new `RingProofBuilder`
followed by `build` yields a proof accepted by `verify` for the same admissible values and the resulting
ciphertexts, in the same context. The response buffer must have one slot per admissible value. -/
theorem C22_ring_complete (B : Backend F E) (K : PublicKey E) (steps : List (RingStep F E))
    (hs : ∀ s ∈ steps, s.Honest B K.element) (buffer : List F)
    (hbuf : buffer.length = (steps.map (·.values.length)).sum) (t t' : Transcript)
    (rng rng' : B.Rng) (cts : List (Ciphertext E)) (builder : RingProofBuilder B)
    (hrun : runRingSteps B steps (RingProofBuilder.new B K buffer t rng) = some (cts, builder))
    (c : F) (rs : List F) (hbuild : builder.build B = some (c, rs, t', rng')) :
    (⟨c, rs⟩ : RingProof F).verify B K (steps.map (·.values)) cts t = some (.ok (), t') := by
  have h0 : RingProofBuilder.Good B K t buffer.length [] (RingProofBuilder.new B K buffer t rng) :=
    ⟨rfl, rfl, trivial, rfl, rfl⟩
  obtain ⟨hl, hg⟩ := RingProofBuilder.runRingSteps_good steps h0 hs hrun
  rw [List.nil_append] at hg
  have hz1 : ((steps.map (·.values)).zip cts).map (·.1) = steps.map (·.values) :=
    List.map_fst_zip (by simp [hl])
  have hz2 : ((steps.map (·.values)).zip cts).map (·.2) = cts :=
    List.map_snd_zip (by simp [hl])
  have hfull : builder.ringResponses = [] := by
    have h5 := hg.2.2.2.2
    have : (((steps.map (·.values)).zip cts).map (·.1.length)).sum =
        (steps.map (·.values.length)).sum := by
      have := congrArg (fun l => (l.map List.length).sum) hz1
      simpa [List.map_map, Function.comp_def] using this
    rw [← List.length_eq_zero_iff]
    omega
  have := RingProofBuilder.build_verify hg hfull hbuild
  rwa [hz1, hz2] at this

/-- C22: with total encodings and a zeroed buffer of the right size none of these calls panics, provided
the selected indexes are in range. -/
theorem C22_ring_total (B : Backend F E) (hT : B.TotalSer) (K : PublicKey E)
    (steps : List (RingStep F E)) (hi : ∀ s ∈ steps, s.index < s.values.length)
    (hs : ∀ s ∈ steps, s.Honest B K.element) (t : Transcript) (rng : B.Rng) :
    ∃ cts builder out, runRingSteps B steps (RingProofBuilder.new B K
        (List.replicate (steps.map (·.values.length)).sum 0) t rng) = some (cts, builder) ∧
      builder.build B = some out := by
  have h0 : RingProofBuilder.Good B K t (steps.map (·.values.length)).sum []
      (RingProofBuilder.new B K (List.replicate (steps.map (·.values.length)).sum 0) t rng) :=
    ⟨rfl, rfl, trivial, rfl, by simp [RingProofBuilder.new]⟩
  have hz : (RingProofBuilder.new B K
      (List.replicate (steps.map (·.values.length)).sum 0) t rng).Zeroed :=
    ⟨fun s h => (List.mem_replicate.mp h).2, by simp [RingProofBuilder.new]⟩
  obtain ⟨cts, b, hrun, hz'⟩ := RingProofBuilder.runRingSteps_total hT steps h0 hz
    (by simp [RingProofBuilder.new]) hi hs
  obtain ⟨hl, hg⟩ := RingProofBuilder.runRingSteps_good steps h0 hs hrun
  rw [List.nil_append] at hg
  have hfull : b.ringResponses = [] := by
    have h5 := hg.2.2.2.2
    have : (((steps.map (·.values)).zip cts).map (·.1.length)).sum =
        (steps.map (·.values.length)).sum := by
      have := congrArg (fun l => (l.map List.length).sum)
        (List.map_fst_zip (l₁ := steps.map (·.values)) (l₂ := cts) (by simp [hl]))
      simpa [List.map_map, Function.comp_def] using this
    rw [← List.length_eq_zero_iff]
    omega
  obtain ⟨out, hout⟩ := RingProofBuilder.build_total hT hg hz' hfull
  exact ⟨cts, b, out, hrun, hout⟩

/-- Three rings of sizes 1, 3 and 2, one of them with a precomputed ciphertext. -/
example : ∃ cts builder c rs t' rng',
    runRingSteps B101 [⟨none, [5], 0⟩, ⟨none, [1, 2, 9], 1⟩, ⟨some ⟨⟨10, 429⟩, 10⟩, [7, 9], 1⟩]
      (RingProofBuilder.new B101 ⟨[42], 42⟩ (List.replicate 6 0) (Transcript.new "x") (3 : ℕ)) =
        some (cts, builder) ∧
    builder.build B101 = some (c, rs, t', rng') ∧
    (⟨c, rs⟩ : RingProof (ZMod 101)).verify B101 ⟨[42], 42⟩ [[5], [1, 2, 9], [7, 9]] cts
      (Transcript.new "x") = some (.ok (), t') := by
  have hs : ∀ s ∈ ([⟨none, [5], 0⟩, ⟨none, [1, 2, 9], 1⟩, ⟨some ⟨⟨10, 429⟩, 10⟩, [7, 9], 1⟩] :
      List (RingStep (ZMod 101) (ZMod 101))), s.Honest B101 42 := by
    intro s h ct hct
    simp only [List.mem_cons, List.not_mem_nil, or_false] at h
    rcases h with rfl | rfl | rfl
    · cases hct
    · cases hct
    · cases hct
      exact ⟨9, by decide, by decide, by decide⟩
  obtain ⟨cts, b, ⟨c, rs, t', rng'⟩, h1, h2⟩ := C22_ring_total B101 B101_total ⟨[42], 42⟩ _
    (by simp) hs (Transcript.new "x") (3 : ℕ)
  exact ⟨cts, b, c, rs, t', rng', h1, h2,
    C22_ring_complete B101 _ _ hs _ (by simp) _ _ _ _ _ _ h1 _ _ h2⟩

/-- C22 for booleans: the output of `encrypt_bool` is accepted by `verify_bool`, and the ciphertext
encrypts the value. -/
theorem C22_bool_complete (B : Backend F E) (K : PublicKey E) (k : F)
    (hK : K.element = k • B.gen) (value : Bool) (rng rng' : B.Rng) (ct : Ciphertext E)
    (proof : RingProof F) (h : K.encryptBool B value rng = some ((ct, proof), rng')) :
    K.verifyBool B ct proof = some (.ok ()) ∧
      SecretKey.decryptToElement k ct = (if value then B.gen else 0) := by
  simp only [PublicKey.encryptBool, Option.bind_eq_bind, Option.bind_eq_some_iff, Option.pure_def,
    Option.some.injEq, Prod.mk.injEq, Prod.exists] at h
  obtain ⟨ext, b, hadd, c, rs, t', rng1, hbuild, ⟨rfl, rfl⟩, rfl⟩ := h
  constructor
  · have := C22_ring_complete B K [⟨none, [0, B.gen], if value then 1 else 0⟩]
      (by intro s hs ct hct; simp only [List.mem_singleton] at hs; subst hs; cases hct)
      (List.replicate 2 0) (by simp) (Transcript.new "bool_encryption") t' rng rng1 [ext.inner] b
      (by simp only [runRingSteps, runRingStep, hadd, Option.bind_eq_bind, Option.bind_some,
        Option.pure_def]) c rs hbuild
    simp only [List.map_cons, List.map_nil] at this
    simp [PublicKey.verifyBool, this]
  · simp only [RingProofBuilder.addValue, Option.bind_eq_bind, Option.bind_eq_some_iff,
      Option.pure_def, Option.some.injEq, Prod.mk.injEq] at hadd
    obtain ⟨v, hv, -, -, rfl, -⟩ := hadd
    have hv : v = if value then B.gen else 0 := by
      cases value <;> simp_all
    simp only [SecretKey.decryptToElement, ExtendedCiphertext.new, RingProofBuilder.new, hK,
      Backend.mulGen, ← hv]
    module

/-- C22 for booleans: with total encodings `encrypt_bool` never panics. -/
theorem C22_bool_total (B : Backend F E) (hT : B.TotalSer) (K : PublicKey E) (value : Bool)
    (rng : B.Rng) : ∃ out, K.encryptBool B value rng = some out := by
  obtain ⟨cts, b, ⟨c, rs, t', rng'⟩, h1, h2⟩ := C22_ring_total B hT K
    [⟨none, [0, B.gen], if value then 1 else 0⟩]
    (by intro s hs; simp only [List.mem_singleton] at hs; subst hs; cases value <;> simp)
    (by intro s hs ct hct; simp only [List.mem_singleton] at hs; subst hs; cases hct)
    (Transcript.new "bool_encryption") rng
  simp only [runRingSteps, runRingStep, Option.bind_eq_bind, Option.bind_eq_some_iff,
    Option.pure_def, Option.some.injEq, Prod.mk.injEq, Prod.exists] at h1
  obtain ⟨ct, b1, hadd, _, _, ⟨rfl, rfl⟩, rfl, rfl⟩ := h1
  refine ⟨((ct.inner, ⟨c, rs⟩), rng'), ?_⟩
  simp only [PublicKey.encryptBool]
  simp only [List.map_cons, List.map_nil, List.sum_cons, List.sum_nil, List.length_cons,
    List.length_nil, Nat.add_zero, Nat.zero_add, Nat.reduceAdd] at hadd
  simp only [hadd, h2, Option.bind_eq_bind, Option.bind_some, Option.pure_def]

example : ∃ ct proof rng', (⟨[42], 42⟩ : PublicKey (ZMod 101)).encryptBool B101 true (5 : ℕ) =
    some ((ct, proof), rng') ∧
    (⟨[42], 42⟩ : PublicKey (ZMod 101)).verifyBool B101 ct proof = some (.ok ()) ∧
    SecretKey.decryptToElement (42 : ZMod 101) ct = (1 : ZMod 101) := by
  obtain ⟨⟨⟨ct, proof⟩, rng'⟩, h⟩ := C22_bool_total B101 B101_total ⟨[42], 42⟩ true (5 : ℕ)
  obtain ⟨h1, h2⟩ := C22_bool_complete B101 ⟨[42], 42⟩ 42 (by decide) true _ _ _ _ h
  exact ⟨ct, proof, rng', h, h1, h2⟩

/-- C23: in an accepted ring proof every ciphertext with a non-empty list of admissible values encrypts
one of them - or the challenges around its ring are a `RingForged` cycle: each of them is an output of
the hash function on data containing the commitments of the previous equation, and is equal to the only
challenge that can be answered for the commitments of its own equation. -/
theorem C23_ring_sound (B : Backend F E) (K : PublicKey E) (k : F) (hK : K.element = k • B.gen)
    (proof : RingProof F) (values : List (List E)) (cts : List (Ciphertext E)) (t t' : Transcript)
    (h : proof.verify B K values cts t = some (.ok (), t')) (i : ℕ) (vs : List E) (ct : Ciphertext E)
    (hvs : values[i]? = some vs) (hct : cts[i]? = some ct) (hne : vs ≠ []) :
    (∃ v ∈ vs, Encrypts B k ct v) ∨
    ∃ enc terms last, ct.toBytes B = some enc ∧ t'.log = commonQuery t.log K.bytes terms ∧
      terms[i]? = some last ∧
      RingForged B K.element (ringBase t.log K.bytes enc i) vs
        (responsesOf values proof.ringResponses i vs.length) ct (B.challenge t'.log) last := by
  have hl := RingProof.verify_ok_length h
  obtain ⟨t1, hloop, hlog, hc⟩ := (RingProof.verify_eq_some hl).mp h
  have hc := checkChallenge_ok.mp hc.symm
  obtain ⟨terms, hlt, hlog1, hk⟩ := RingProof.verifyLoop_spec _ hloop
  have hzip : (values.zip cts)[i]? = some (vs, ct) := by
    rw [List.getElem?_zip_eq_some]; exact ⟨hvs, hct⟩
  obtain ⟨enc, m, last, henc, hterm, hm1, hm2, hver⟩ := hk i vs ct hzip
  rw [or_iff_not_imp_left]
  intro hno
  refine ⟨enc, terms, last, henc, ?_, hterm, ?_⟩
  · rw [hlog, hlog1, RingProof.initializeTranscript_log, commonQuery]
  -- the responses available to this ring
  set off := 0 + (((values.zip cts).take i).map (·.1.length)).sum with hoff
  have hoff' : off = ((values.take i).map List.length).sum := by
    have h2 : (((values.zip cts).take i).map (·.1.length)) =
        ((values.take i).map List.length) := by
      have hil : i < cts.length := (List.getElem?_eq_some_iff.mp hct).1
      have hiv : i < values.length := (List.getElem?_eq_some_iff.mp hvs).1
      rw [List.zip, List.take_zipWith, ← List.zip, show (fun x : List E × Ciphertext E => x.1.length) =
        List.length ∘ Prod.fst from rfl, ← List.map_map, List.map_fst_zip (by simp; omega)]
    rw [hoff, h2, Nat.zero_add]
  have hle : off + vs.length ≤ proof.ringResponses.length := by
    have h1 := sum_take_le List.length values i vs hvs
    rw [hoff']; omega
  have hlen : (vs.zip (proof.ringResponses.drop off)).length = vs.length := by
    simp; omega
  obtain ⟨comms, cs, hlc, hls, hhead, hlast, heq, hch⟩ :=
    RingProof.verifyRingLoop_chain _ (by
      intro h0; rw [h0] at hlen; simp at hlen; exact hne (List.length_eq_zero_iff.mp hlen.symm))
      (by rw [hlen]; simp) hver
  rw [hlen] at hlc hls
  refine ⟨comms, cs, by rw [responsesOf, ← hoff']; simp; omega, hlc, hls, ?_, ?_, ?_, m, hlast, hm1, hm2⟩
  · intro j v s' m' c' hv hs' hm' hc'
    have hj : j < vs.length := (List.getElem?_eq_some_iff.mp hv).1
    have hj2 : j < (proof.ringResponses.drop off).length := by simp; omega
    have hs := heq j v _ m' c' (List.getElem?_zip_eq_some.mpr
      ⟨hv, List.getElem?_eq_getElem hj2⟩) hm' hc'
    refine ⟨⟨?_, (proof.ringResponses.drop off)[j], ?_⟩, ?_⟩
    · rintro ⟨r, hr1, hr2⟩
      refine hno ⟨v, List.mem_of_getElem? hv, r, hr1, ?_⟩
      rw [sub_eq_iff_eq_add] at hr2
      rw [hr2, hK, add_comm]
    · rw [hs]; exact ⟨rfl, rfl⟩
    · rw [responsesOf, ← hoff', List.getElem?_take_of_lt hj, List.getElem?_eq_getElem hj2] at hs'
      rw [hs, Option.some.inj hs']
      rfl
  · rw [hhead, hc]
  · intro j m' c' hm' hc'
    have := hch j m' c' hm' hc'
    rw [RingProof.ringTranscript_log] at this
    simp only [Nat.zero_add] at this
    exact ringChal_eq_some.mp this

/-- Two rings; the second ciphertext encrypts 5, which is not admissible, and a constant hash function is a forged
cycle. -/
example : ∃ (enc : Bytes) (terms : List (Bytes × Bytes)) (last : Bytes × Bytes),
    (⟨1, 47⟩ : Ciphertext (ZMod 101)).toBytes B101 = some enc ∧ terms[1]? = some last ∧
    RingForged (B101.withHash fun _ => 7) 42 (ringBase (Transcript.new "x").log [42] enc 1) [0, 1]
      (responsesOf [[0, 1, 2], [0, 1]] [1, 2, 3, 4, 5] 1 2) ⟨1, 47⟩ 7 last := by
  rcases C23_ring_sound (B101.withHash fun _ => 7) ⟨[42], 42⟩ 42 (by decide) ⟨7, [1, 2, 3, 4, 5]⟩
    [[0, 1, 2], [0, 1]] [⟨1, 43⟩, ⟨1, 47⟩] (Transcript.new "x") _ rfl 1 [0, 1] ⟨1, 47⟩ rfl rfl (by decide) with
    ⟨v, hv, r, h1, h2⟩ | ⟨enc, terms, last, h1, -, h2, h3⟩
  · obtain rfl : r = 1 := by simpa [Backend.withHash, B101, toy] using h1.symm
    simp only [List.mem_cons, List.not_mem_nil, or_false] at hv
    rcases hv with rfl | rfl <;> exact absurd h2 (by decide)
  · exact ⟨enc, terms, last, h1, h2, h3⟩

/-- C23: for given (false) statement and commitments only one challenge is forgeable, whatever the hash
function. So in a `RingForged` cycle every hash output is forced by the data hashed next. -/
theorem C23_forgeable_unique (B : Backend F E) (K : E) (powers commitments : E × E) (c c' : F)
    (h : Forgeable B K powers commitments c) (h' : Forgeable B K powers commitments c') : c = c' :=
  h.unique h'

/-- The commitments `(3, 47)` for the false statement `(1, 47)` can be answered for the challenge 36 only. -/
example (c : ZMod 101) : Forgeable B101 42 (1, 47) (3, 47) c ↔ c = 36 := by
  have h : Forgeable B101 42 (1, 47) (3, 47) (36 : ZMod 101) := by
    refine ⟨?_, 39, by decide, by decide⟩
    rintro ⟨r, h1, h2⟩
    obtain rfl : r = 1 := by simpa [B101, toy] using h1.symm
    exact absurd h2 (by decide)
  exact ⟨fun h' => C23_forgeable_unique B101 42 (1, 47) (3, 47) c 36 h' h, fun h' => h' ▸ h⟩

/-- C23 for booleans: an accepted bool proof means that the plaintext is 0 or 1, or exhibits a forged
cycle of length two. -/
theorem C23_bool_sound (B : Backend F E) (K : PublicKey E) (k : F) (hK : K.element = k • B.gen)
    (proof : RingProof F) (ct : Ciphertext E) (h : K.verifyBool B ct proof = some (.ok ())) :
    (SecretKey.decryptToElement k ct = 0 ∨ SecretKey.decryptToElement k ct = B.gen) ∨
    ∃ enc last common, ct.toBytes B = some enc ∧
      common = commonQuery (Transcript.new "bool_encryption").log K.bytes [last] ∧
      RingForged B K.element (ringBase (Transcript.new "bool_encryption").log K.bytes enc 0)
        [0, B.gen] proof.ringResponses ct (B.challenge common) last := by
  simp only [PublicKey.verifyBool, Option.bind_eq_bind, Option.bind_eq_some_iff, Option.pure_def,
    Option.some.injEq, Prod.exists] at h
  obtain ⟨r, t', hv, rfl⟩ := h
  rcases C23_ring_sound B K k hK proof _ _ _ _ hv 0 [0, B.gen] ct rfl rfl (by simp) with
    ⟨v, hv, r, h1, h2⟩ | ⟨enc, terms, last, henc, hlog, hterm, hf⟩
  · left
    have hd : SecretKey.decryptToElement k ct = v := by
      simp only [SecretKey.decryptToElement, h1, h2]; module
    rw [hd]
    simpa using hv
  · right
    have hl := RingProof.verify_ok_length hv
    rw [show responsesOf [[0, B.gen]] proof.ringResponses 0 [0, B.gen].length = proof.ringResponses from by
      simp only [responsesOf, List.take_zero, List.map_nil, List.sum_nil, List.drop_zero]
      exact List.take_of_length_le (by rw [hl]; simp)] at hf
    obtain ⟨t1, hloop, hlog', -⟩ := (RingProof.verify_eq_some hl).mp hv
    obtain ⟨terms', hlt, hlog1, -⟩ := RingProof.verifyLoop_spec _ hloop
    have hterms : terms = [last] := by
      have he : commonQuery (Transcript.new "bool_encryption").log K.bytes terms =
          commonQuery (Transcript.new "bool_encryption").log K.bytes terms' := by
        rw [← hlog, hlog', hlog1, RingProof.initializeTranscript_log, commonQuery]
      simp only [commonQuery, List.append_cancel_right_eq, List.append_cancel_left_eq] at he
      have hlen : terms.length = 1 := by
        have := congrArg List.length he
        simp [List.length_flatMap] at this hlt
        omega
      obtain ⟨a, rfl⟩ := List.length_eq_one_iff.mp hlen
      simpa using hterm
    exact ⟨enc, last, t'.log, henc, by rw [hlog, hterms], hf⟩

/-- A ciphertext of 5 is accepted as an encrypted bool with a constant hash function: a forged cycle. -/
example : ∃ enc last common, RingForged (B101.withHash fun _ => 7) 42
    (ringBase (Transcript.new "bool_encryption").log [42] enc 0) [0, 1] [3, 4] ⟨1, 47⟩
      ((B101.withHash fun _ => 7).challenge common) last := by
  obtain ⟨enc, last, common, -, -, h⟩ := (C23_bool_sound (B101.withHash fun _ => 7) ⟨[42], 42⟩ 42 (by decide)
    ⟨7, [3, 4]⟩ ⟨1, 47⟩ rfl).resolve_left (by decide)
  exact ⟨enc, last, common, h⟩

/-- C16 for ring proofs: the number of responses is compared with the total number of admissible values
before anything else, and `LenMismatch` is returned in no other case. -/
theorem C16_ring_len_mismatch (B : Backend F E) (proof : RingProof F) (K : PublicKey E)
    (values : List (List E)) (cts : List (Ciphertext E)) (t : Transcript) :
    (proof.ringResponses.length ≠ (values.map List.length).sum → ∃ t', proof.verify B K values cts t =
      some (.error (.LenMismatch "items in all rings" proof.ringResponses.length
        (values.map List.length).sum), t')) ∧
    (∀ s a b t', proof.verify B K values cts t = some (.error (.LenMismatch s a b), t') →
      s = "items in all rings" ∧ a = proof.ringResponses.length ∧ b = (values.map List.length).sum ∧
        a ≠ b) := by
  constructor
  · intro h
    simp [RingProof.verify, RingProof.totalRingsSize, checkLengths_ne h]
  · intro s a b t' h
    by_cases hl : proof.ringResponses.length = (values.map List.length).sum
    · obtain ⟨t1, -, -, hr⟩ := (RingProof.verify_eq_some hl).mp h
      have := checkChallenge_err.mp hr.symm
      simp at this
    · simp only [RingProof.verify, RingProof.totalRingsSize, checkLengths_ne hl, Option.some.injEq,
        Prod.mk.injEq, Except.error.injEq, VerificationError.LenMismatch.injEq] at h
      obtain ⟨⟨rfl, rfl, rfl⟩, -⟩ := h
      exact ⟨rfl, rfl, rfl, hl⟩

example : ∃ t', (⟨1, [2, 3, 4]⟩ : RingProof (ZMod 101)).verify B101 ⟨[42], 42⟩ [[0, 1]] [⟨3, 4⟩]
    (Transcript.new "x") = some (.error (.LenMismatch "items in all rings" 3 2), t') :=
  (C16_ring_len_mismatch B101 _ _ _ _ _).1 (by decide)

/-- C50 for ring proofs: with total encodings the verifier returns for all inputs, including lists of
admissible values and ciphertexts of different lengths and empty rings. -/
theorem C50_ring_verify_total (B : Backend F E) (hT : B.TotalSer) (proof : RingProof F)
    (K : PublicKey E) (values : List (List E)) (cts : List (Ciphertext E)) (t : Transcript) :
    ∃ out, proof.verify B K values cts t = some out := by
  by_cases hl : proof.ringResponses.length = (values.map List.length).sum
  · have hle : 0 + ((values.zip cts).map (·.1.length)).sum ≤ proof.ringResponses.length := by
      rw [hl, Nat.zero_add]
      have key : ∀ (values : List (List E)) (cts : List (Ciphertext E)),
          ((values.zip cts).map (·.1.length)).sum ≤ (values.map List.length).sum := by
        intro values
        induction values with
        | nil => intro cts; simp
        | cons v vs ih =>
          intro cts
          cases cts with
          | nil => simp
          | cons c cs => have := ih cs; simp; omega
      exact key values cts
    obtain ⟨t1, h1⟩ := RingProof.verifyLoop_total hT proof K
      (RingProof.initializeTranscript t K) (values.zip cts) 0 0 (RingProof.initializeTranscript t K) hle
    exact ⟨(_, ⟨t1.log ++ [.chal "c"]⟩),
      (RingProof.verify_eq_some hl).mpr ⟨t1, h1, rfl, rfl⟩⟩
  · simp [RingProof.verify, RingProof.totalRingsSize, checkLengths_ne hl]

/-- C50 for `verify_bool`. -/
theorem C50_bool_verify_total (B : Backend F E) (hT : B.TotalSer) (proof : RingProof F)
    (K : PublicKey E) (ct : Ciphertext E) : ∃ out, K.verifyBool B ct proof = some out := by
  obtain ⟨⟨r, t'⟩, h⟩ := C50_ring_verify_total B hT proof K [[0, B.gen]] [ct]
    (Transcript.new "bool_encryption")
  exact ⟨r, by simp [PublicKey.verifyBool, h]⟩

example : ∃ out, (⟨[0], 0⟩ : PublicKey (ZMod 101)).verifyBool B101 ⟨0, 0⟩ ⟨0, [0]⟩ = some out :=
  C50_bool_verify_total B101 B101_total ⟨0, [0]⟩ ⟨[0], 0⟩ ⟨0, 0⟩

/-- C50, finding: for SEC1 backends an all-zero bool proof makes the verifier panic. -/
theorem C50_bool_verify_panics_sec1 (B : Backend F E) (hS : B.Sec1Ser) (K : PublicKey E)
    (ct : Ciphertext E) : K.verifyBool B ct ⟨0, [0, 0]⟩ = none := by
  cases h : K.verifyBool B ct (⟨0, [0, 0]⟩ : RingProof F) with
  | none => rfl
  | some out =>
    exfalso
    simp only [PublicKey.verifyBool, Option.bind_eq_bind, Option.bind_eq_some_iff, Prod.exists] at h
    obtain ⟨r, t', hv, -⟩ := h
    obtain ⟨t1, hloop, -, -⟩ := (RingProof.verify_eq_some (by simp)).mp hv
    obtain ⟨terms, -, -, hk⟩ := RingProof.verifyLoop_spec _ hloop
    obtain ⟨enc, m, term, -, -, -, -, hver⟩ := hk 0 [0, B.gen] ct rfl
    simp only [List.take_zero, List.map_nil, List.sum_nil, Nat.add_zero, List.drop_zero,
      List.zip_cons_cons, List.length_cons, List.length_nil] at hver
    rw [RingProof.verifyRingLoop_cons_lt (by omega), Option.bind_eq_some_iff] at hver
    obtain ⟨c, hc, -⟩ := hver
    obtain ⟨x, y, hx, -, -⟩ := ringChal_eq_some.mp hc
    simp only [ringComm, zero_smul, sub_zero] at hx
    rw [(hS 0).mpr rfl] at hx
    cases hx

example : (⟨[2, 42], 42⟩ : PublicKey (ZMod 101)).verifyBool S101 ⟨1, 43⟩ ⟨0, [0, 0]⟩ = none :=
  C50_bool_verify_panics_sec1 S101 S101_sec1 ⟨[2, 42], 42⟩ ⟨1, 43⟩

/-- The exceptional case of C23 is real: for a hash function that always answers 7, a proof that a
ciphertext of 5 encrypts a bool is accepted. -/
example : (⟨[42], 42⟩ : PublicKey (ZMod 101)).verifyBool (B101.withHash fun _ => 7)
      ⟨1, 47⟩ ⟨7, [3, 4]⟩ = some (.ok ()) ∧
    SecretKey.decryptToElement (42 : ZMod 101) (⟨1, 47⟩ : Ciphertext (ZMod 101)) = 5 := by
  refine ⟨?_, by decide⟩
  obtain ⟨⟨r, t'⟩, h⟩ := C50_ring_verify_total (B101.withHash fun _ => 7) B101_total
    (⟨7, [3, 4]⟩ : RingProof (ZMod 101)) ⟨[42], 42⟩ [[0, B101.gen]] [⟨1, 47⟩]
    (Transcript.new "bool_encryption")
  obtain ⟨t1, -, -, hr⟩ := (RingProof.verify_eq_some (by rfl)).mp h
  rw [checkChallenge_self] at hr
  subst hr
  simp [PublicKey.verifyBool, h]

/-- C23, caveat (`RingProof::verify` is crate-internal, and never called this way): for a ciphertext without admissible values an accepted
proof says nothing; with no rings at all, the proof whose challenge is the hash of the context is
accepted for any extra ciphertexts. -/
theorem C23_ring_sound_no_values (B : Backend F E) (K : PublicKey E) (cts : List (Ciphertext E))
    (t : Transcript) :
    ∃ t', (⟨B.challenge (commonQuery t.log K.bytes []), []⟩ : RingProof F).verify B K [] cts t =
      some (.ok (), t') := by
  refine ⟨⟨commonQuery t.log K.bytes []⟩, (RingProof.verify_eq_some (by rfl)).mpr
    ⟨RingProof.initializeTranscript t K, by simp [RingProof.verifyLoop], ?_, ?_⟩⟩
  · rw [RingProof.initializeTranscript_log]; simp [commonQuery]
  · rw [checkChallenge_self]

example : ∃ c t', (⟨c, []⟩ : RingProof (ZMod 101)).verify B101 ⟨[42], 42⟩ [] [⟨1, 47⟩] (Transcript.new "x") =
    some (.ok (), t') :=
  ⟨_, C23_ring_sound_no_values B101 ⟨[42], 42⟩ [⟨1, 47⟩] (Transcript.new "x")⟩

/-- C23, caveat: for a single admissible value the ciphertext is not hashed, so the attacker may choose
it after the challenge. For any secret key `k ≠ 0`, any "admissible" value `v`, and any `a ≠ b`, the
challenge for the commitments `[a]G`, `[b]K` (if not zero, and if elements can be encoded) yields a
ciphertext and a proof that are accepted, although the ciphertext does not encrypt `v`. (A log equality
proof, to which this case reduces according to `src/proofs/ring.rs`, hashes its statement.) -/
theorem C23_single_value_unsound (B : Backend F E) (hB : B.Lawful) (hT : B.TotalSer) (K : PublicKey E)
    (k : F) (hK : K.element = k • B.gen) (hk : k ≠ 0) (v : E) (s a b : F) (hab : a ≠ b)
    (t : Transcript) (x y : Bytes) (hx : B.serElem (a • B.gen) = some x)
    (hy : B.serElem (b • K.element) = some y) (c : F)
    (hc : B.challenge (commonQuery t.log K.bytes [(x, y)]) = c) (hc0 : c ≠ 0) :
    ∃ (ct : Ciphertext E) (t' : Transcript),
      (⟨c, [s]⟩ : RingProof F).verify B K [[v]] [ct] t = some (.ok (), t') ∧ ¬ Encrypts B k ct v := by
  refine ⟨⟨((s - a) / c) • B.gen, v + ((s - b) / c) • K.element⟩,
    ⟨commonQuery t.log K.bytes [(x, y)]⟩, ?_, ?_⟩
  · rw [RingProof.verify_eq_some (by rfl)]
    obtain ⟨enc, henc⟩ := Ciphertext.toBytes_total hT
      ⟨((s - a) / c) • B.gen, v + ((s - b) / c) • K.element⟩
    have e1 : s • B.gen - c • ((s - a) / c) • B.gen = a • B.gen := by
      rw [smul_smul, mul_div_cancel₀ _ hc0]; module
    have e2 : s • K.element - c • (v + ((s - b) / c) • K.element - v) = b • K.element := by
      rw [add_sub_cancel_left, smul_smul, mul_div_cancel₀ _ hc0]; module
    refine ⟨⟨t.log ++ [.msg "dom-sep" (asciiBytes "multi_ring_enc"), .msg "K" K.bytes,
      .msg "R_G" x, .msg "R_K" y]⟩, ?_, by simp [commonQuery], ?_⟩
    · simp only [List.zip_cons_cons, List.zip_nil_right, RingProof.verifyLoop, henc,
        Option.bind_eq_bind, Option.bind_some, List.length_cons, List.length_nil, zero_add,
        List.drop_zero, zero_le, guard_true, Option.pure_def,
        RingProof.verifyRingLoop_cons_last (show ¬ 0 + 1 < 1 by omega), RingProof.verifyRingLoop,
        ringComm, e1, e2, Backend.appendElement, hx, hy]
      simp [RingProof.initializeTranscript, Transcript.startProof, Transcript.appendElementBytes,
        Transcript.appendMessage]
    · rw [hc, checkChallenge_self]
  · rintro ⟨r, h1, h2⟩
    have h1 := hB.smul_gen_inj h1
    have h2 := add_left_cancel h2
    rw [hK, smul_smul, smul_smul] at h2
    have h2 := mul_right_cancel₀ hk (hB.smul_gen_inj h2)
    rw [← h1] at h2
    have := (div_left_inj' hc0).mp h2
    exact hab (by linear_combination this)

/-- For a hash that always answers 7, a ciphertext that does not encrypt 5 is accepted as one of 5. -/
example : ∃ (ct : Ciphertext (ZMod 101)) (t' : Transcript),
    (⟨7, [3]⟩ : RingProof (ZMod 101)).verify (B101.withHash fun _ => 7) ⟨[42], 42⟩ [[5]] [ct]
      (Transcript.new "test") = some (.ok (), t') ∧
    ¬ Encrypts (B101.withHash fun _ => 7) (42 : ZMod 101) ct 5 :=
  C23_single_value_unsound (B101.withHash fun _ => 7) (B101_lawful.withHash _) B101_total _ 42
    (by decide) (by decide) 5 3 1 2 (by decide) _ _ _ rfl rfl 7 rfl (by decide)

/-- C13 for ring proofs: one proof accepted in two different contexts, or for two different receivers,
with the same number of rings, yields a hash collision. -/
theorem C13_ring_binding (B : Backend F E) (proof : RingProof F) (K₁ K₂ : PublicKey E)
    (hK₁ : WellFormedKey B K₁) (hK₂ : WellFormedKey B K₂)
    (values₁ values₂ : List (List E)) (cts₁ cts₂ : List (Ciphertext E)) (t₁ t₂ t₁' t₂' : Transcript)
    (h₁ : proof.verify B K₁ values₁ cts₁ t₁ = some (.ok (), t₁'))
    (h₂ : proof.verify B K₂ values₂ cts₂ t₂ = some (.ok (), t₂'))
    (hlen : (values₁.zip cts₁).length = (values₂.zip cts₂).length)
    (hne : t₁ ≠ t₂ ∨ K₁.element ≠ K₂.element) :
    t₁'.log ≠ t₂'.log ∧ B.challenge t₁'.log = B.challenge t₂'.log := by
  obtain ⟨s₁, hl₁, hlog₁, hc₁⟩ := (RingProof.verify_eq_some (RingProof.verify_ok_length h₁)).mp h₁
  obtain ⟨s₂, hl₂, hlog₂, hc₂⟩ := (RingProof.verify_eq_some (RingProof.verify_ok_length h₂)).mp h₂
  have hc₁ := checkChallenge_ok.mp hc₁.symm
  have hc₂ := checkChallenge_ok.mp hc₂.symm
  refine ⟨fun heq => ?_, hc₁.trans hc₂.symm⟩
  obtain ⟨terms₁, n₁, e₁, -⟩ := RingProof.verifyLoop_spec _ hl₁
  obtain ⟨terms₂, n₂, e₂, -⟩ := RingProof.verifyLoop_spec _ hl₂
  rw [hlog₁, hlog₂, e₁, e₂, List.append_cancel_right_eq] at heq
  have hfl : ∀ l : List (Bytes × Bytes), (l.flatMap (fun p =>
      [Entry.msg "R_G" p.1, Entry.msg "R_K" p.2])).length = 2 * l.length := by
    intro l
    induction l with
    | nil => rfl
    | cons a l ih => simp [ih]; omega
  have h := (List.append_inj' heq (by rw [hfl, hfl]; omega)).1
  rw [RingProof.initializeTranscript_log, RingProof.initializeTranscript_log] at h
  obtain ⟨ht, hk⟩ := List.append_inj' h rfl
  simp only [List.cons.injEq, Entry.msg.injEq, true_and, and_true] at hk
  rcases hne with h | h
  · exact h (transcript_ext ht)
  · apply h
    have h1 : B.deElem K₁.bytes = some K₁.element := hK₁
    have h2 : B.deElem K₂.bytes = some K₂.element := hK₂
    rw [hk, h2] at h1
    exact (Option.some.inj h1).symm

/-- With a constant hash function a proof is accepted for another receiver: a hash collision. -/
example : ∃ t₁ t₂ : Transcript, t₁.log ≠ t₂.log :=
  ⟨_, _, (C13_ring_binding (B101.withHash fun _ => 7) ⟨7, [3, 4]⟩ ⟨[42], 42⟩ ⟨[43], 43⟩
    (by unfold WellFormedKey; decide) (by unfold WellFormedKey; decide) [[0, 1]] [[0, 1]] [⟨1, 43⟩] [⟨1, 43⟩]
    (Transcript.new "x") (Transcript.new "x") _ _ rfl rfl rfl (.inr (by decide))).1⟩

/-- C24: `from_bytes` never panics. -/
theorem C24_from_bytes_total (B : Backend F E) (hB : B.Lawful) (b : Bytes) :
    ∃ r, RingProof.fromBytes B b = some r := by
  unfold RingProof.fromBytes
  split
  · exact ⟨_, rfl⟩
  · rename_i h
    simp only [not_or, not_not, not_lt] at h
    split
    · exact ⟨_, rfl⟩
    · split
      · exact ⟨_, rfl⟩
      · rename_i c hc _ rs hrs
        obtain ⟨k, hk⟩ := Nat.dvd_of_mod_eq_zero h.1
        have hpos := hB.scalarSize_pos
        have hk1 : 3 ≤ k := by
          have : 3 * B.scalarSize ≤ k * B.scalarSize := by rw [Nat.mul_comm k]; omega
          exact Nat.le_of_mul_le_mul_right this hpos
        obtain ⟨-, hlen⟩ := flatMap_of_mapM_chunks hpos B.serScalar B.deScalar
          hB.serScalar_deScalar (k - 1) _ _ (by
            rw [List.length_drop, hk, Nat.mul_comm, Nat.sub_mul, Nat.one_mul]) hrs
        rw [Backend.debugAssert_of (by omega)]
        exact ⟨_, rfl⟩

example : ∃ r, RingProof.fromBytes B101 [1, 200, 3] = some r := C24_from_bytes_total B101 B101_lawful [1, 200, 3]

/-- C24: exact description of `from_bytes`: it accepts precisely the encodings of proofs with at least
two responses, and returns the encoded proof. In particular encoding and decoding round-trip, accepted
bytes are canonical, and everything else gives `None` (`C24_from_bytes_total`). -/
theorem C24_from_bytes_iff (B : Backend F E) (hB : B.Lawful) (b : Bytes) (proof : RingProof F) :
    RingProof.fromBytes B b = some (some proof) ↔
      2 ≤ proof.ringResponses.length ∧ proof.toBytes B = b := by
  have hpos := hB.scalarSize_pos
  constructor
  · intro h
    unfold RingProof.fromBytes at h
    split at h
    · cases h
    · rename_i hb
      simp only [not_or, not_not, not_lt] at hb
      split at h
      · cases h
      · split at h
        · cases h
        · rename_i c hc _ rs hrs
          simp only [Option.bind_eq_bind, Option.bind_eq_some_iff, Option.pure_def,
            Option.some.injEq] at h
          obtain ⟨-, -, rfl⟩ := h
          obtain ⟨k, hk⟩ := Nat.dvd_of_mod_eq_zero hb.1
          have hk1 : 3 ≤ k := by
            have : 3 * B.scalarSize ≤ k * B.scalarSize := by rw [Nat.mul_comm k]; omega
            exact Nat.le_of_mul_le_mul_right this hpos
          obtain ⟨hfl, hlen⟩ := flatMap_of_mapM_chunks hpos B.serScalar B.deScalar
            hB.serScalar_deScalar (k - 1) _ _ (by
              rw [List.length_drop, hk, Nat.mul_comm, Nat.sub_mul, Nat.one_mul]) hrs
          refine ⟨by simp only; omega, ?_⟩
          have hc' := hB.serScalar_deScalar _ _ (by rw [List.length_take]; omega) hc
          simp only [RingProof.toBytes, hfl, hc', List.take_append_drop]
  · rintro ⟨h2, rfl⟩
    have hfl : (proof.ringResponses.flatMap B.serScalar).length =
        proof.ringResponses.length * B.scalarSize := by
      rw [List.length_flatMap]
      simp [hB.serScalar_length]
    have hlen : (proof.toBytes B).length = (1 + proof.ringResponses.length) * B.scalarSize := by
      simp only [RingProof.toBytes, List.length_append, hfl, hB.serScalar_length]
      ring
    have htake : (proof.toBytes B).take B.scalarSize = B.serScalar proof.commonChallenge := by
      rw [RingProof.toBytes, ← hB.serScalar_length proof.commonChallenge, List.take_left]
    have hdrop : (proof.toBytes B).drop B.scalarSize = proof.ringResponses.flatMap B.serScalar := by
      rw [RingProof.toBytes, ← hB.serScalar_length proof.commonChallenge, List.drop_left]
    unfold RingProof.fromBytes
    rw [if_neg]
    · rw [htake, hB.deScalar_serScalar, hdrop, mapM_chunks_flatMap hpos _ _ hB.serScalar_length
        hB.deScalar_serScalar]
      simp [Backend.debugAssert_of h2]
    · rw [hlen]
      simp only [not_or, not_not, not_lt]
      exact ⟨Nat.mul_mod_left _ _, Nat.mul_le_mul_right _ (by omega)⟩

/-- C24: byte strings of a wrong length are rejected. -/
theorem C24_bad_length (B : Backend F E) (b : Bytes)
    (h : b.length % B.scalarSize ≠ 0 ∨ b.length < 3 * B.scalarSize) :
    RingProof.fromBytes B b = some none := by
  simp [RingProof.fromBytes, h]

example : RingProof.fromBytes B101 [1, 2] = some none := C24_bad_length B101 [1, 2] (.inr (by decide))

/-- C24: byte strings containing a non-canonical (or out of range) scalar are rejected. -/
theorem C24_bad_scalar (B : Backend F E) (hB : B.Lawful) (b : Bytes) (i : ℕ) (x : Bytes)
    (hx : (chunks B.scalarSize b)[i]? = some x) (hbad : B.deScalar x = none) :
    RingProof.fromBytes B b = some none := by
  obtain ⟨r, hr⟩ := C24_from_bytes_total B hB b
  cases r with
  | none => exact hr
  | some proof =>
    exfalso
    obtain ⟨-, rfl⟩ := (C24_from_bytes_iff B hB b proof).mp hr
    have : proof.toBytes B = (proof.commonChallenge :: proof.ringResponses).flatMap B.serScalar := rfl
    rw [this] at hx
    have hm := mapM_chunks_flatMap hB.scalarSize_pos _ _ hB.serScalar_length
        hB.deScalar_serScalar (proof.commonChallenge :: proof.ringResponses)
    rw [mapM_option_eq_some] at hm
    have hi := List.getElem?_eq_some_iff.mp hx
    rw [List.forall₂_iff_get] at hm
    have := hm.2 i hi.1 (by rw [← hm.1]; exact hi.1)
    rw [List.get_eq_getElem, hi.2, hbad] at this
    cases this

example : RingProof.fromBytes B101 [1, 2, 3] = some (some ⟨1, [2, 3]⟩) :=
  (C24_from_bytes_iff B101 B101_lawful _ _).mpr (by decide)

example : RingProof.fromBytes B101 [1, 2, 101] = some none :=
  C24_bad_scalar B101 B101_lawful [1, 2, 101] 2 [101] (by decide +kernel) (by decide)

/-! ## C51: zero knowledge -/

/-- The prover's output determines the scalars it has read. -/
theorem proveRings_tape_inv (B : Backend F E) (hgen : B.gen ≠ 0) (K : PublicKey E)
    (rings : List (RingInput F E)) (hs : ∀ r ∈ rings, r.Honest B K.element) (c : F) (rs : List F)
    (t t' : Transcript) (tape rest : List F) (htl : (rings.map (·.draws)).sum ≤ tape.length)
    (hp : proveRings B.withTape K rings t tape = some ((rings.map (·.ct.inner), ⟨c, rs⟩), t', rest)) :
    tape = ringTape₁ B K (RingProof.initializeTranscript t K) c 0 rings rs ++ ringTape₂ rings rs ++ rest := by
  simp only [proveRings, RingProofBuilder.build, Ring.aggregate, Option.bind_eq_bind,
    Option.bind_eq_some_iff, Option.pure_def, Option.some.injEq, Prod.mk.injEq, Prod.exists,
    RingProof.mk.injEq] at hp
  obtain ⟨cts, b, hrun, c0, rs0, t0, rng0, ⟨-, -, c1, rs1, t2, rng1, ⟨-, -, t3, ht3, rs3, rng3,
    hf, rfl, rfl, rfl, rfl⟩, rfl, rfl, rfl, rfl⟩, ⟨rfl, hcc, hrr⟩, -, hrng⟩ := hp
  have hsum : (rings.map preDraws).sum ≤ tape.length := by
    refine le_trans (List.sum_le_sum ?_) htl
    intro r _
    rw [preDraws, RingInput.draws]
    omega
  obtain ⟨l1, l2, l3, l4, -, rings', l5, l6⟩ := runRingSteps_tape_inv hgen (K := K)
    (t := RingProof.initializeTranscript t K) (tape := tape) rings hs rfl hrun rfl rfl (by
      simp [RingProofBuilder.new]) hsum
  simp only [RingProofBuilder.new, List.nil_append] at l5
  rw [l4, l5, hcc] at hf
  rw [l3, List.append_nil] at hrr
  subst hrr
  obtain ⟨e1, e2⟩ := l6 c _ _ _ (by omega) hf
  rw [e2, e1]
  simp only [RingProofBuilder.new, List.length_nil, List.append_assoc]
  congr 2

/-- Every accepted proof is the prover's output for suitable scalars; `rest` are scalars it does not read. -/
theorem proveRings_tape (B : Backend F E) (K : PublicKey E)
    (rings : List (RingInput F E)) (hs : ∀ r ∈ rings, r.Honest B K.element) (c : F) (rs : List F)
    (t t' : Transcript)
    (h : (⟨c, rs⟩ : RingProof F).verify B K (rings.map (·.values)) (rings.map (·.ct.inner)) t = some (.ok (), t')) :
    (ringTape₁ B K (RingProof.initializeTranscript t K) c 0 rings rs ++ ringTape₂ rings rs).length =
      (rings.map (·.draws)).sum ∧
    ∀ rest : List F, proveRings B.withTape K rings t
      (ringTape₁ B K (RingProof.initializeTranscript t K) c 0 rings rs ++ ringTape₂ rings rs ++ rest) =
        some ((rings.map (·.ct.inner), ⟨c, rs⟩), t', rest) := by
  have hl := RingProof.verify_ok_length h
  obtain ⟨t1, hloop, hlog, hc⟩ := (RingProof.verify_eq_some hl).mp h
  have hc := checkChallenge_ok.mp hc.symm
  have hzip : (rings.map (·.values)).zip (rings.map (·.ct.inner)) =
      rings.map fun r => (r.values, r.ct.inner) := by
    simp [List.zip_map']
  rw [hzip] at hloop
  obtain ⟨ms, hv, ha⟩ := RingProof.verifyLoop_verified rings (by
    rw [hl]; simp [List.map_map, Function.comp_def]) hloop
  rw [List.drop_zero] at hv
  simp only at hv hl hc
  have hi : ∀ r ∈ rings, r.index < r.values.length := by
    intro r hr
    obtain ⟨v, hv, -⟩ := hs r hr
    exact (List.getElem?_eq_some_iff.mp hv).1
  refine ⟨?_, fun rest => ?_⟩
  · rw [List.length_append]
    exact ringTape_length B K _ c rings hi (by rw [hl]; simp [List.map_map, Function.comp_def])
  obtain ⟨rings', hrun, hms, hind, hfin⟩ := runRingSteps_tape (B := B) (K := K)
    (t := RingProof.initializeTranscript t K) (c := c) rings (rest := ringTape₂ rings rs ++ rest)
    (b := RingProofBuilder.new B.withTape K
      (List.replicate (rings.map (·.values.length)).sum 0) t
      (ringTape₁ B K (RingProof.initializeTranscript t K) c 0 rings rs ++ (ringTape₂ rings rs ++ rest)))
    hs hv rfl rfl rfl rfl
  have hfin := hfin rest
  have ht1 : Ring.appendTerminal B.withTape rings' (RingProof.initializeTranscript t K) = some t1 := by
    rw [appendTerminal_eq, hms, appendComms_withTape]; exact ha
  have hch : B.withTape.challengeScalar t1 "c" = (c, t') := by
    refine Prod.ext ?_ (transcript_ext hlog.symm)
    show B.challenge (t1.log ++ [.chal "c"]) = c
    rw [← hlog]; exact hc
  have hlen : rings'.length = rings.length := by
    have := congrArg List.length hind
    simpa using this
  rw [List.append_assoc]
  simp only [proveRings, hrun, Option.bind_eq_bind, Option.bind_some, RingProofBuilder.build,
    Ring.aggregate]
  rw [Backend.debugAssert_of trivial, Option.bind_some, Backend.debugAssert_of (by
    simp only [RingProofBuilder.new, List.nil_append, hind, hlen, List.length_nil]
    rw [List.range_eq_range'])]
  simp only [Option.bind_some, RingProofBuilder.new, List.nil_append, ht1, hch, hfin,
    Option.pure_def, List.append_nil]

/-- C51 for ring proofs: for ciphertexts that encrypt the admissible values they are added with (either
created by the builder or precomputed) and any hash function, every accepted proof is the prover's output
for exactly one choice of its randomness (one scalar per admissible value, one per created ciphertext),
with the transcript the verifier computes. So with uniform randomness, given the ciphertexts, the prover's
output is uniform among accepted proofs: it does not depend on which value is encrypted. -/
theorem C51_ring_zk (B : Backend F E) (hgen : B.gen ≠ 0) (K : PublicKey E)
    (rings : List (RingInput F E)) (hs : ∀ r ∈ rings, r.Honest B K.element) (proof : RingProof F)
    (t t' : Transcript)
    (h : proof.verify B K (rings.map (·.values)) (rings.map (·.ct.inner)) t = some (.ok (), t')) :
    ∃! tape : List F, tape.length = (rings.map (·.draws)).sum ∧
      proveRings B.withTape K rings t tape = some ((rings.map (·.ct.inner), proof), t', []) := by
  obtain ⟨c, rs⟩ := proof
  obtain ⟨h1, h2⟩ := proveRings_tape B K rings hs c rs t t' h
  refine ⟨ringTape₁ B K (RingProof.initializeTranscript t K) c 0 rings rs ++ ringTape₂ rings rs, ⟨h1, ?_⟩, ?_⟩
  · simpa using h2 []
  · rintro tape ⟨hl, hp⟩
    simpa using proveRings_tape_inv B hgen K rings hs c rs t t' tape [] (by rw [hl]) hp

/-- Two rings of sizes 2 and 3, the second one with a ciphertext created by the builder: there are
accepted proofs, and each has exactly one tape. -/
example : ∃ (rings : List (RingInput (ZMod 101) (ZMod 101))) (proof : RingProof (ZMod 101))
    (t t' : Transcript), rings.map (·.draws) = [2, 4] ∧
    proof.verify B101 ⟨[42], 42⟩ (rings.map (·.values)) (rings.map (·.ct.inner)) t
      = some (.ok (), t') ∧
    ∃! tape : List (ZMod 101), tape.length = 6 ∧
      proveRings B101.withTape ⟨[42], 42⟩ rings t tape =
        some ((rings.map (·.ct.inner), proof), t', []) := by
  let rings : List (RingInput (ZMod 101) (ZMod 101)) :=
    [⟨⟨⟨10, 429⟩, 10⟩, [7, 9], 1, false⟩, ⟨⟨⟨3, 127⟩, 3⟩, [1, 5, 7], 0, true⟩]
  have hs : ∀ r ∈ rings, r.Honest B101 42 := by
    intro r h
    simp only [rings, List.mem_cons, List.not_mem_nil, or_false] at h
    rcases h with rfl | rfl
    · exact ⟨9, by decide, by decide, by decide⟩
    · exact ⟨1, by decide, by decide, by decide⟩
  let steps : List (RingStep (ZMod 101) (ZMod 101)) := rings.map fun r => ⟨some r.ct, r.values, r.index⟩
  have hs' : ∀ s ∈ steps, s.Honest B101 42 := by
    intro s h ct hct
    obtain ⟨r, hr, rfl⟩ := List.mem_map.mp h
    cases hct
    exact hs r hr
  obtain ⟨cts, b, ⟨c, rs, t', rng'⟩, h1, h2⟩ := C22_ring_total B101 B101_total ⟨[42], 42⟩
    steps (by simp [steps, rings]) hs' (Transcript.new "x") (3 : ℕ)
  have hv := C22_ring_complete B101 _ _ hs' _ (by simp) _ _ _ _ _ _ h1 _ _ h2
  have hcts : cts = rings.map (·.ct.inner) := by
    simp only [steps, rings, List.map_cons, List.map_nil, runRingSteps, runRingStep,
      Option.bind_eq_bind, Option.bind_eq_some_iff, Option.pure_def, Option.map_eq_some_iff,
      Option.some.injEq, Prod.mk.injEq, Prod.exists] at h1
    obtain ⟨_, _, ⟨_, _, rfl, _⟩, _, _, ⟨_, _, ⟨_, _, rfl, _⟩, _, _, ⟨rfl, _⟩, rfl, _⟩, rfl, _⟩ := h1
    rfl
  subst hcts
  exact ⟨rings, ⟨c, rs⟩, Transcript.new "x", t', rfl, hv,
    C51_ring_zk B101 (by decide) ⟨[42], 42⟩ rings hs _ _ _ hv⟩

end ElasticElgamal
