import Verif.Lemmas.Possession
import Verif.Toy

/-!
# C14, C15, C16, C13, C50, C51 for proofs of possession
-/

set_option autoImplicit false
set_option linter.unusedSectionVars false

namespace ElasticElgamal

open Spec Toy

variable {F E : Type} [Field F] [AddCommGroup E] [Module F E] [DecidableEq F]

/-- C14: a proof of possession for any number of consistent key pairs verifies in the same context for
the corresponding public keys. -/
theorem C14_pop_complete (B : Backend F E) (keypairs : List (Keypair F E))
    (hk : ∀ kp ∈ keypairs, kp.publicKey.element = kp.secret • B.gen) (t t' : Transcript)
    (rng rng' : B.Rng) (proof : ProofOfPossession F)
    (h : ProofOfPossession.new B keypairs t rng = some (proof, t', rng')) :
    proof.verify B (keypairs.map (·.publicKey)) t = some (.ok (), t') := by
  obtain ⟨xs, rs, hlen, hrs, rfl, hc, hr⟩ := ProofOfPossession.fromKeys_eq_some h
  have hlx : xs.length = keypairs.length := by simpa using hlen
  have hl : proof.responses.length = (keypairs.map (·.publicKey)).length := by
    rw [hr]; simp [hlx]
  refine (ProofOfPossession.verify_eq_some hl).mpr ⟨rs, ?_, rfl, ?_⟩
  · rw [List.forall₂_iff_get] at hrs
    rw [forall₂_zip hl.symm]
    refine ⟨by rw [← hrs.1]; simpa using hlx, fun i h1 h2 h3 => ?_⟩
    have h4 : i < keypairs.length := by simpa using h1
    have h5 : i < xs.length := by omega
    have := hrs.2 i h5 h3
    simp only [List.get_eq_getElem] at this
    rw [← this]
    congr 1
    simp only [hr, List.getElem_map, List.getElem_zip, hk _ (List.getElem_mem h4)]
    module
  · rw [← hc, checkChallenge_self]

/-- C14: with total encodings the prover never panics. -/
theorem C14_pop_new_total (B : Backend F E) (hT : B.TotalSer) (keypairs : List (Keypair F E))
    (t : Transcript) (rng : B.Rng) : ∃ out, ProofOfPossession.new B keypairs t rng = some out := by
  obtain ⟨⟨xs, t', rng'⟩, h⟩ := ProofOfPossession.drawRandomScalars_total hT
    (keypairs.map (·.publicKey)).length (ProofOfPossession.appendKeys (t.startProof "multi_pop")
    (keypairs.map (·.publicKey))) rng
  unfold ProofOfPossession.new ProofOfPossession.fromKeys
  simp only [h, Option.bind_eq_bind, Option.bind_some, Option.pure_def]
  exact ⟨_, rfl⟩

example :
    let kps : List (Keypair (ZMod 101) (ZMod 101)) := [⟨42, ⟨[42], 42⟩⟩, ⟨7, ⟨[7], 7⟩⟩]
    ∃ proof t' rng', ProofOfPossession.new B101 kps (Transcript.new "x") (3 : ℕ)
      = some (proof, t', rng') ∧
      proof.verify B101 [⟨[42], 42⟩, ⟨[7], 7⟩] (Transcript.new "x") = some (.ok (), t') := by
  intro kps
  obtain ⟨⟨proof, t', rng'⟩, h⟩ := C14_pop_new_total B101 B101_total kps (Transcript.new "x") (3 : ℕ)
  exact ⟨proof, t', rng', h, C14_pop_complete B101 kps (by decide) _ _ _ _ _ h⟩

/-- C15: two accepting proofs of possession for the same keys, context and hashed data but different
challenges reveal all secret keys, by an explicit formula. -/
theorem C15_pop_extract (B : Backend F E) (hB : B.Lawful) (H₁ H₂ : List Entry → F)
    (p₁ p₂ : ProofOfPossession F) (pks : List (PublicKey E)) (t t' : Transcript)
    (h₁ : p₁.verify (B.withHash H₁) pks t = some (.ok (), t'))
    (h₂ : p₂.verify (B.withHash H₂) pks t = some (.ok (), t'))
    (hne : p₁.challenge ≠ p₂.challenge) (i : ℕ) (hi : i < pks.length)
    (hi₁ : i < p₁.responses.length) (hi₂ : i < p₂.responses.length) :
    pks[i].element =
      ((p₁.responses[i] - p₂.responses[i]) / (p₁.challenge - p₂.challenge)) • B.gen := by
  have hl₁ := ProofOfPossession.verify_ok h₁
  have hl₂ := ProofOfPossession.verify_ok h₂
  obtain ⟨rs, hrs, ht, -⟩ := (ProofOfPossession.verify_eq_some hl₁).mp h₁
  obtain ⟨rs', hrs', ht', -⟩ := (ProofOfPossession.verify_eq_some hl₂).mp h₂
  rw [forall₂_zip hl₁.symm] at hrs
  rw [forall₂_zip hl₂.symm] at hrs'
  rw [ht, Transcript.mk.injEq] at ht'
  obtain ⟨-, -, rfl⟩ := popQuery_inj rfl (by rw [hrs.1, hrs'.1]) ht'
  have hi3 : i < rs.length := by rw [hrs.1]; exact hi
  have e : p₁.responses[i] • B.gen - p₁.challenge • pks[i].element =
      p₂.responses[i] • B.gen - p₂.challenge • pks[i].element :=
    hB.serElem_inj (hrs.2 i hi hi₁ hi3) (hrs'.2 i hi hi₂ hi3)
  have hne' : p₁.challenge - p₂.challenge ≠ 0 := sub_ne_zero.mpr hne
  have e2 : (p₁.challenge - p₂.challenge) • pks[i].element =
      (p₁.responses[i] - p₂.responses[i]) • B.gen := by
    linear_combination (norm := module) -e
  rw [div_eq_inv_mul, mul_smul, ← e2, smul_smul, inv_mul_cancel₀ hne', one_smul]

/-- Secrets 42 and 7 with nonces 1 and 2, challenges 3 and 4. -/
example : (7 : ZMod 101) = ((23 - 30) / (3 - 4) : ZMod 101) • B101.gen :=
  C15_pop_extract B101 B101_lawful (fun _ => 3) (fun _ => 4) ⟨3, [26, 23]⟩ ⟨4, [68, 30]⟩ [⟨[42], 42⟩, ⟨[7], 7⟩]
    (Transcript.new "x") _ rfl rfl (by decide) 1 (by decide) (by decide) (by decide)

/-- Non-vacuity of C15: the prover run on the same tape with two hash functions. -/
example : ∃ (p₁ p₂ : ProofOfPossession (ZMod 101)) (t' : Transcript),
    p₁.verify (B101.withHash fun _ => 1) [⟨[42], 42⟩] (Transcript.new "x") = some (.ok (), t') ∧
    p₂.verify (B101.withHash fun _ => 2) [⟨[42], 42⟩] (Transcript.new "x") = some (.ok (), t') ∧
    p₁.challenge ≠ p₂.challenge := by
  refine ⟨⟨1, [43]⟩, ⟨2, [85]⟩, ⟨popQuery (Transcript.new "x").log [[42]] [[1]]⟩, ?_, ?_, by decide⟩
  · exact (ProofOfPossession.verify_eq_some (by rfl)).mpr ⟨[[1]], .cons (by decide) .nil, rfl, by decide⟩
  · exact (ProofOfPossession.verify_eq_some (by rfl)).mpr ⟨[[1]], .cons (by decide) .nil, rfl, by decide⟩

/-- C16 for proofs of possession: a proof with a wrong number of responses is rejected with
`LenMismatch` carrying both lengths, in any context, and this is the only way to get that error. -/
theorem C16_pop_len_mismatch (B : Backend F E) (proof : ProofOfPossession F)
    (pks : List (PublicKey E)) (t : Transcript) :
    (proof.responses.length ≠ pks.length → ∃ t', proof.verify B pks t =
      some (.error (.LenMismatch "public keys" proof.responses.length pks.length), t')) ∧
    (∀ s a b t', proof.verify B pks t = some (.error (.LenMismatch s a b), t') →
      s = "public keys" ∧ a = proof.responses.length ∧ b = pks.length ∧ a ≠ b) := by
  constructor
  · intro h
    simp [ProofOfPossession.verify, checkLengths_ne h]
  · intro s a b t' h
    by_cases hl : proof.responses.length = pks.length
    · obtain ⟨rs, -, -, hr⟩ := (ProofOfPossession.verify_eq_some hl).mp h
      have := checkChallenge_err.mp hr.symm
      simp at this
    · simp only [ProofOfPossession.verify, checkLengths_ne hl, Option.some.injEq, Prod.mk.injEq,
        Except.error.injEq, VerificationError.LenMismatch.injEq] at h
      obtain ⟨⟨rfl, rfl, rfl⟩, -⟩ := h
      exact ⟨rfl, rfl, rfl, hl⟩

example : ∃ t', (⟨1, [2, 3]⟩ : ProofOfPossession (ZMod 101)).verify B101 [⟨[42], 42⟩]
    (Transcript.new "x") = some (.error (.LenMismatch "public keys" 2 1), t') :=
  (C16_pop_len_mismatch B101 _ _ _).1 (by decide)

/-- C13 for proofs of possession: acceptance of one proof in two different settings (context or list of
key elements) is a hash collision. -/
theorem C13_pop_binding (B : Backend F E) (proof : ProofOfPossession F)
    (pks₁ pks₂ : List (PublicKey E)) (t₁ t₂ t₁' t₂' : Transcript)
    (hK₁ : ∀ pk ∈ pks₁, WellFormedKey B pk) (hK₂ : ∀ pk ∈ pks₂, WellFormedKey B pk)
    (h₁ : proof.verify B pks₁ t₁ = some (.ok (), t₁'))
    (h₂ : proof.verify B pks₂ t₂ = some (.ok (), t₂'))
    (hne : t₁ ≠ t₂ ∨ pks₁.map (·.element) ≠ pks₂.map (·.element)) :
    t₁'.log ≠ t₂'.log ∧ B.challenge t₁'.log = B.challenge t₂'.log := by
  have hl₁ := ProofOfPossession.verify_ok h₁
  have hl₂ := ProofOfPossession.verify_ok h₂
  obtain ⟨rs, hrs, rfl, hc⟩ := (ProofOfPossession.verify_eq_some hl₁).mp h₁
  obtain ⟨rs', hrs', rfl, hc'⟩ := (ProofOfPossession.verify_eq_some hl₂).mp h₂
  have hc := checkChallenge_ok.mp hc.symm
  have hc' := checkChallenge_ok.mp hc'.symm
  refine ⟨fun heq => ?_, hc.trans hc'.symm⟩
  rw [forall₂_zip hl₁.symm] at hrs
  rw [forall₂_zip hl₂.symm] at hrs'
  obtain ⟨e1, e2, -⟩ := popQuery_inj (by simp; omega) (by omega) heq
  rcases hne with h | h
  · exact h (transcript_ext e1)
  · apply h
    have hmap : ∀ pks : List (PublicKey E), (∀ pk ∈ pks, WellFormedKey B pk) →
        (pks.map (·.element)).map some = (pks.map (·.bytes)).map B.deElem := by
      intro pks hpks
      simp only [List.map_map]
      refine List.map_congr_left fun pk hpk => ?_
      exact (hpks pk hpk).symm
    have h1 := hmap pks₁ hK₁
    rw [e2, ← hmap pks₂ hK₂] at h1
    exact List.map_injective_iff.mpr (Option.some_injective _) h1

/-- With a constant hash function a proof is accepted for other keys: a hash collision. -/
example : ∃ t₁ t₂ : Transcript, t₁.log ≠ t₂.log :=
  ⟨_, _, (C13_pop_binding (B101.withHash fun _ => 3) ⟨3, [26, 23]⟩ [⟨[42], 42⟩, ⟨[7], 7⟩] [⟨[42], 42⟩, ⟨[8], 8⟩]
    (Transcript.new "x") (Transcript.new "x") _ _ (by unfold WellFormedKey; decide) (by unfold WellFormedKey; decide)
    rfl rfl (.inr (by decide))).1⟩

/-- C50 for proofs of possession. -/
theorem C50_pop_verify_total (B : Backend F E) (hT : B.TotalSer) (proof : ProofOfPossession F)
    (pks : List (PublicKey E)) (t : Transcript) : ∃ out, proof.verify B pks t = some out := by
  by_cases hl : proof.responses.length = pks.length
  · obtain ⟨rs, hrs⟩ := mapM_option_exists (l := pks.zip proof.responses)
      (f := fun p => B.serElem (p.2 • B.gen - proof.challenge • p.1.element)) (fun a _ => hT _)
    rw [mapM_option_eq_some] at hrs
    exact ⟨(_, _), (ProofOfPossession.verify_eq_some hl).mpr ⟨rs, hrs, rfl, rfl⟩⟩
  · simp [ProofOfPossession.verify, checkLengths_ne hl]

example : ∃ out, (⟨0, [0, 0]⟩ : ProofOfPossession (ZMod 101)).verify B101 [⟨[0], 0⟩] (Transcript.new "x") = some out :=
  C50_pop_verify_total B101 B101_total ⟨0, [0, 0]⟩ [⟨[0], 0⟩] (Transcript.new "x")

/-- C50, finding: for SEC1 backends an all-zero proof of possession makes the verifier panic. -/
theorem C50_pop_verify_panics_sec1 (B : Backend F E) (hS : B.Sec1Ser) (pk : PublicKey E)
    (pks : List (PublicKey E)) (rs : List F) (hl : rs.length = pks.length) (t : Transcript) :
    (⟨0, 0 :: rs⟩ : ProofOfPossession F).verify B (pk :: pks) t = none := by
  cases h : (⟨0, 0 :: rs⟩ : ProofOfPossession F).verify B (pk :: pks) t with
  | none => rfl
  | some out =>
    exfalso
    obtain ⟨r, t'⟩ := out
    obtain ⟨bs, hbs, -, -⟩ := (ProofOfPossession.verify_eq_some (by simp [hl])).mp h
    simp only [List.zip_cons_cons] at hbs
    cases hbs with
    | cons hb _ =>
      simp only [zero_smul, sub_zero] at hb
      rw [(hS 0).mpr rfl] at hb
      cases hb

example : (⟨0, [0, 5]⟩ : ProofOfPossession (ZMod 101)).verify S101 [⟨[2, 42], 42⟩, ⟨[2, 7], 7⟩] (Transcript.new "x") =
    none :=
  C50_pop_verify_panics_sec1 S101 S101_sec1 ⟨[2, 42], 42⟩ [⟨[2, 7], 7⟩] [5] rfl (Transcript.new "x")

/-- C51 for proofs of possession: every accepted proof is the prover's output for exactly one list of
nonces, for any hash function. -/
theorem C51_pop_zk (B : Backend F E) (keypairs : List (Keypair F E))
    (hk : ∀ kp ∈ keypairs, kp.publicKey.element = kp.secret • B.gen) (c : F) (ss : List F)
    (t t' : Transcript)
    (ht' : (⟨c, ss⟩ : ProofOfPossession F).verify B
      (keypairs.map (·.publicKey)) t = some (.ok (), t')) :
    ∃! xs : List F, xs.length = keypairs.length ∧
      ProofOfPossession.new B.withTape keypairs t xs = some (⟨c, ss⟩, t', []) := by
  have hl := ProofOfPossession.verify_ok ht'
  have hss : ss.length = keypairs.length := by simpa using hl
  obtain ⟨rs, hrs, rfl, hc⟩ := (ProofOfPossession.verify_eq_some hl).mp ht'
  have hc := checkChallenge_ok.mp hc.symm
  rw [forall₂_zip hl.symm] at hrs
  obtain ⟨hlr, hrs⟩ := hrs
  have hlr : rs.length = keypairs.length := by simpa using hlr
  let xs := List.zipWith (fun kp s => s - c * kp.secret) keypairs ss
  have hlx : xs.length = keypairs.length := by simp [xs, hss]
  have hx : List.Forall₂ (fun x b => B.serElem
      (x • B.gen) = some b) xs rs := by
    rw [List.forall₂_iff_get]
    refine ⟨by omega, fun i h1 h2 => ?_⟩
    have h3 : i < keypairs.length := by omega
    have := hrs i (by simpa using h3) (by simp; omega) h2
    simp only [List.getElem_map, hk _ (List.getElem_mem h3)] at this
    simp only [List.get_eq_getElem, xs, List.getElem_zipWith]
    rw [← this]
    show B.serElem _ = B.serElem _
    congr 1
    module
  have hd := ProofOfPossession.drawRandomScalars_tape xs rs hx
    (ProofOfPossession.appendKeys (t.startProof "multi_pop") (keypairs.map (·.publicKey)))
  refine ⟨xs, ⟨hlx, ?_⟩, ?_⟩
  · simp only [ProofOfPossession.new, ProofOfPossession.fromKeys, List.length_map]
    rw [hlx] at hd
    rw [hd]
    simp only [Option.bind_eq_bind, Option.bind_some, Option.pure_def, Option.some.injEq,
      Prod.mk.injEq, ProofOfPossession.mk.injEq, true_and, Backend.challengeScalar, and_true,
      ProofOfPossession.appendKeys_log, Transcript.startProof, Transcript.appendMessage, popQuery]
    have hc' : B.challenge (popQuery t.log ((keypairs.map (·.publicKey)).map (·.bytes)) rs) = c := hc
    simp only [popQuery] at hc'
    refine ⟨hc', ?_⟩
    rw [hc']
    refine List.ext_getElem (by simp [hlx, hss]) fun i h1 h2 => ?_
    simp [xs, SecretKey.add, SecretKey.mul, mul_comm]
  · rintro ys ⟨hly, h⟩
    simp only [ProofOfPossession.new, ProofOfPossession.fromKeys, Option.bind_eq_bind,
      Option.bind_eq_some_iff, Prod.exists, Option.pure_def, Option.some.injEq, Prod.mk.injEq,
      ProofOfPossession.mk.injEq, List.length_map, ← hly] at h
    obtain ⟨zs, t1, u, h1, ⟨hc1, hr⟩, -, -⟩ := h
    rw [hc1] at hr
    have := ProofOfPossession.drawRandomScalars_tape_inv h1
    subst this
    refine List.ext_getElem (by omega) fun i h1 h2 => ?_
    have hi : i < keypairs.length := by omega
    have : ss[i]'(by omega) = zs[i] + keypairs[i].secret * c := by
      simp only [← hr, List.getElem_map, List.getElem_zip, SecretKey.add, SecretKey.mul,
        Backend.challengeScalar]
    simp only [xs, List.getElem_zipWith, this]
    ring

example : ∃ t', ∃! xs : List (ZMod 101), xs.length = 2 ∧ ProofOfPossession.new (B101.withHash fun _ => 3).withTape
    [⟨42, ⟨[42], 42⟩⟩, ⟨7, ⟨[7], 7⟩⟩] (Transcript.new "x") xs = some (⟨3, [26, 23]⟩, t', []) :=
  ⟨_, C51_pop_zk (B101.withHash fun _ => 3) [⟨42, ⟨[42], 42⟩⟩, ⟨7, ⟨[7], 7⟩⟩] (by decide) 3 [26, 23]
    (Transcript.new "x") _ rfl⟩

end ElasticElgamal
