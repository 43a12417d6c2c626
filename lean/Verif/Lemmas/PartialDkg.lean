import Verif.Lemmas.PartialThreshold
import Verif.Spec.PartialDkg

/-!
# Lemmas: elections with distributed key generation in groups that cannot encode all elements
-/

set_option autoImplicit false
set_option linter.unusedSectionVars false

namespace ElasticElgamal

open Spec

variable {F E : Type} [Field F] [AddCommGroup E] [Module F E] [DecidableEq F] [DecidableEq E]

/-! ## Completing key generation -/

theorem accumulate_totalize (B : Backend F E) (spare : Bytes) : ∀ (rest : List (PublicPolynomial E)) (acc : PublicPolynomial E),
    ExchangingSecrets.accumulate (totalize B spare) acc rest = ExchangingSecrets.accumulate B acc rest
  | [], _ => rfl
  | poly :: rest, acc => by
    have h : PublicPolynomial.addAssign (totalize B spare) acc poly = PublicPolynomial.addAssign B acc poly := rfl
    simp only [ExchangingSecrets.accumulate, h, accumulate_totalize B spare rest]

theorem fromElement_of_encoded {B : Backend F E} {spare : Bytes} {e : E} {K : PublicKey E}
    (h : PublicKey.fromElement (totalize B spare) e = some K) (hK : (B.serElem K.element).isSome) :
    PublicKey.fromElement B e = some K := by
  have he : K.element = e := by
    simp only [PublicKey.fromElement, Option.bind_eq_bind, Option.bind_eq_some_iff, Option.pure_def, Option.some.injEq] at h
    obtain ⟨b, -, rfl⟩ := h
    rfl
  rw [he] at hK
  obtain ⟨b, hb⟩ := Option.isSome_iff_exists.mp hK
  have h' : PublicKey.fromElement B e = some ⟨b, e⟩ := by simp [PublicKey.fromElement, hb]
  rw [h', ← totalize_fromElement (spare := spare) h', h]

theorem encoded_of_fromElement {B : Backend F E} {e : E} {K : PublicKey E} (h : PublicKey.fromElement B e = some K) :
    (B.serElem K.element).isSome := by
  simp only [PublicKey.fromElement, Option.bind_eq_bind, Option.bind_eq_some_iff, Option.pure_def, Option.some.injEq] at h
  obtain ⟨b, hb, rfl⟩ := h
  rw [hb]
  rfl

theorem mapM_of_encoded {α : Type} {B : Backend F E} {spare : Bytes} {f : α → E} :
    ∀ {l : List α} {r : List (PublicKey E)}, (l.mapM fun a => PublicKey.fromElement (totalize B spare) (f a)) = some r →
      (∀ K ∈ r, (B.serElem K.element).isSome) → (l.mapM fun a => PublicKey.fromElement B (f a)) = some r
  | [], r, hr, _ => by simpa using hr
  | a :: l, r, hr, hK => by
    simp only [List.mapM_cons, Option.bind_eq_bind, Option.bind_eq_some_iff, Option.pure_def, Option.some.injEq] at hr ⊢
    obtain ⟨b, hb, bs, hbs, rfl⟩ := hr
    exact ⟨b, fromElement_of_encoded hb (hK b (by simp)), bs, mapM_of_encoded hbs fun K h => hK K (by simp [h]), rfl⟩

theorem encoded_of_mapM {α : Type} {B : Backend F E} {f : α → E} :
    ∀ {l : List α} {r : List (PublicKey E)}, (l.mapM fun a => PublicKey.fromElement B (f a)) = some r →
      ∀ K ∈ r, (B.serElem K.element).isSome
  | [], r, hr, K, hK => by
    simp only [List.mapM_nil, Option.pure_def, Option.some.injEq] at hr
    subst hr
    cases hK
  | a :: l, r, hr, K, hK => by
    simp only [List.mapM_cons, Option.bind_eq_bind, Option.bind_eq_some_iff, Option.pure_def, Option.some.injEq] at hr
    obtain ⟨b, hb, bs, hbs, rfl⟩ := hr
    rcases List.mem_cons.mp hK with rfl | hK
    · exact encoded_of_fromElement hb
    · exact encoded_of_mapM hbs K hK

theorem fromParticipants_iff {B : Backend F E} {params : Params} {keys : List (PublicKey E)} {ks : PublicKeySet E} :
    PublicKeySet.fromParticipants B params keys = some (.ok ks) ↔ params.shares = keys.length ∧
      ∃ ds scale, lagrangeCoefficients F (List.range params.threshold) = some (ds, scale) ∧
      ∃ K, PublicKey.fromElement B (scale • Backend.multiMul ds ((keys.map (·.element)).take params.threshold)) = some K ∧
      ∃ inverses, Backend.invertScalars ((List.range' 1 params.shares).map fun (i : Nat) => (i : F)) = some inverses ∧
      PublicKeySet.checkKeys params ds inverses ((keys.map (·.element)).take params.threshold) params.threshold
        (keys.drop params.threshold) = some (.ok ()) ∧
      ks = { params, sharedKey := K, participantKeys := keys } := by
  rw [PublicKeySet.fromParticipants]
  split_ifs with hl
  · simp only [Option.some.injEq, reduceCtorEq, false_iff, not_and]
    exact fun h => absurd h hl
  · simp only [not_not] at hl
    simp only [Option.bind_eq_bind, Option.bind_eq_some_iff, Prod.exists, hl, true_and]
    refine exists_congr fun ds => exists_congr fun scale => and_congr_right fun _ => exists_congr fun K =>
      and_congr_right fun _ => exists_congr fun inverses => and_congr_right fun _ => ?_
    constructor
    · rintro ⟨r, hr, h⟩
      cases r with
      | error e => simp at h
      | ok u => simpa [hr, hl, eq_comm] using h
    · rintro ⟨hr, rfl⟩
      exact ⟨.ok (), hr, by simp⟩

theorem dkgParticipant_iff {B : Backend F E} {params : Params} {dealer : Dealer F E} {polys : List (List E)} {i : ℕ} {s : F}
    {p : ActiveParticipant F E} :
    dkgParticipant B params dealer polys i s = some p ↔
      ∃ first rest, polys = first :: rest ∧ ∃ acc, ExchangingSecrets.accumulate B first rest = some acc ∧
      ∃ keys, ((List.range params.shares).mapM fun idx =>
        PublicKey.fromElement B (PublicPolynomial.valueAt acc ((idx + 1 : Nat) : F))) = some keys ∧
      ∃ ks, PublicKeySet.fromParticipants B params keys = some (.ok ks) ∧
      ∃ key, ks.participantKeys[i]? = some key ∧ s • B.gen = key.element ∧ p = ⟨ks, i, s⟩ := by
  have hm : (⟨params, i, dealer, polys, s, List.replicate params.shares true⟩ : ExchangingSecrets F E).missingShares = [] := by
    rw [ExchangingSecrets.missingShares, missingIndexes_eq_nil]
    intro x hx
    rw [List.eq_of_mem_replicate hx]
    rfl
  have hx : dkgParticipant B params dealer polys i s = some p ↔ ExchangingSecrets.complete B
      ⟨params, i, dealer, polys, s, List.replicate params.shares true⟩ = some (.ok p) := by
    rw [dkgParticipant]
    rcases ExchangingSecrets.complete B ⟨params, i, dealer, polys, s, List.replicate params.shares true⟩ with _ | _ | q <;>
      simp
  rw [hx, ExchangingSecrets.complete]
  simp only [hm, guard_true, Option.pure_def, Option.bind_eq_bind, Option.bind_some]
  cases polys with
  | nil => simp
  | cons first rest =>
    simp only [List.cons.injEq, Option.bind_eq_some_iff]
    constructor
    · rintro ⟨acc, hacc, keys, hkeys, r, hr, h⟩
      cases r with
      | error e => simp at h
      | ok ks =>
        simp only [ActiveParticipant.new, Option.bind_eq_bind, Option.bind_eq_some_iff] at h
        obtain ⟨q, ⟨key, hkey, hq⟩, h⟩ := h
        split_ifs at hq with he
        · cases hq
          cases h
          exact ⟨first, rest, ⟨rfl, rfl⟩, acc, hacc, keys, hkeys, ks, hr, key, hkey, he, rfl⟩
        · cases hq
          cases h
    · rintro ⟨_, _, ⟨rfl, rfl⟩, acc, hacc, keys, hkeys, ks, hr, key, hkey, he, rfl⟩
      refine ⟨acc, hacc, keys, hkeys, .ok ks, hr, ?_⟩
      have h1 : ActiveParticipant.new B ks i s = some (.ok ⟨ks, i, s⟩) := by
        have he : B.mulGen s = key.element := he
        simp [ActiveParticipant.new, hkey, he]
      simp [h1]

theorem dkgParticipant_partial (B : Backend F E) (spare : Bytes) (params : Params) (dealer : Dealer F E)
    (polys : List (List E)) (i : ℕ) (s : F) :
    dkgParticipant B params dealer polys i s =
      (dkgParticipant (totalize B spare) params dealer polys i s).filter fun p => keysEncoded B p.keySet := by
  ext p
  rw [Option.filter_eq_some_iff, dkgParticipant_iff, dkgParticipant_iff]
  constructor
  · rintro ⟨first, rest, rfl, acc, hacc, keys, hkeys, ks, hks, key, hkey, he, rfl⟩
    obtain ⟨hl, ds, scale, hd, K, hK, inverses, hinv, hc, rfl⟩ := fromParticipants_iff.mp hks
    refine ⟨⟨first, rest, rfl, acc, by rw [accumulate_totalize, hacc], keys,
      mapM_mono (fun _ _ => totalize_fromElement) hkeys, _, fromParticipants_iff.mpr
        ⟨hl, ds, scale, hd, K, totalize_fromElement hK, inverses, hinv, hc, rfl⟩, key, hkey, he, rfl⟩, ?_⟩
    simp only [keysEncoded, List.all_cons, Bool.and_eq_true, List.all_eq_true]
    exact ⟨encoded_of_fromElement hK, encoded_of_mapM hkeys⟩
  · rintro ⟨⟨first, rest, rfl, acc, hacc, keys, hkeys, ks, hks, key, hkey, he, rfl⟩, henc⟩
    obtain ⟨hl, ds, scale, hd, K, hK, inverses, hinv, hc, rfl⟩ := fromParticipants_iff.mp hks
    simp only [keysEncoded, List.all_cons, Bool.and_eq_true, List.all_eq_true] at henc
    exact ⟨first, rest, rfl, acc, by rw [← hacc, accumulate_totalize], keys, mapM_of_encoded hkeys henc.2, _,
      fromParticipants_iff.mpr ⟨hl, ds, scale, hd, K, fromElement_of_encoded hK henc.1, inverses, hinv, hc, rfl⟩,
      key, hkey, he, rfl⟩

/-! ## Proofs of participants -/

/-- The participant has the given key set and index, and its secret matches its key. -/
def ParticipantOf (B : Backend F E) (ks : PublicKeySet E) (i : ℕ) (p : ActiveParticipant F E) : Prop :=
  ∃ s key, p = ⟨ks, i, s⟩ ∧ ks.participantKeys[i]? = some key ∧ key.element = s • B.gen

/-- The proof of possession of a participant. -/
def possessionBy (B : Backend F E) (q : Option (ActiveParticipant F E)) (y : F) : Option (ProofOfPossession F) := do
  let (proof, _) ← (← q).proofOfPossession B.withTape [y]
  return proof

/-- The share of a decryption of a participant. -/
def shareBy (B : Backend F E) (q : Option (ActiveParticipant F E)) (ct : Ciphertext E) (x : F) :
    Option (VerifiableDecryption E × LogEqualityProof F) := do
  let (share, _) ← (← q).decryptShare B.withTape ct [x]
  return share

theorem possessionBy_partial [Fintype F] (B : Backend F E) (spare : Bytes) (q : Option (ActiveParticipant F E))
    (ks : PublicKeySet E) (i : ℕ) (hq : ∀ p, q = some p → ParticipantOf B ks i p) :
    ∃ σ : Equiv.Perm F, ∀ y, possessionBy B q y =
      (possessionBy (totalize B spare) q (σ y)).filter fun proof => (ks.verifyParticipant B i proof).isSome := by
  cases q with
  | none => exact ⟨Equiv.refl _, fun y => rfl⟩
  | some p =>
    obtain ⟨s, key, rfl, hkey, hel⟩ := hq p rfl
    have e : ∀ (B' : Backend F E) y, possessionBy B' (some ⟨ks, i, s⟩) y =
        (ProofOfPossession.new B'.withTape [⟨s, key⟩] (ks.popTranscript i) [y]).map Prod.fst := by
      intro B' y
      simp only [possessionBy, Option.bind_eq_bind, Option.bind_some, ActiveParticipant.proofOfPossession,
        ActiveParticipant.publicKeyShare, hkey, ProofOfPossession.new, List.map_cons, List.map_nil]
      cases ProofOfPossession.fromKeys B'.withTape [s] [key] (ks.popTranscript i) [y] <;> rfl
    obtain ⟨σ, hσ⟩ := pop_partial B spare (n := 1) [⟨s, key⟩] rfl (by simpa using hel) (ks.popTranscript i)
    refine ⟨(Equiv.funUnique (Fin 1) F).permCongr σ, fun y => ?_⟩
    rw [e B, e (totalize B spare)]
    have h := hσ fun _ => y
    have e1 : List.ofFn (fun _ : Fin 1 => y) = [y] := rfl
    have e2 : List.ofFn (σ fun _ : Fin 1 => y) = [(Equiv.funUnique (Fin 1) F).permCongr σ y] := by
      simp only [List.ofFn_succ, List.ofFn_zero, Equiv.permCongr_apply]
      rfl
    rw [e1, e2] at h
    rw [h]
    congr 1
    funext proof
    simp only [PublicKeySet.verifyParticipant, PublicKeySet.participantKey, hkey, Option.bind_eq_bind, Option.bind_some,
      List.map_cons, List.map_nil]
    cases proof.verify B [key] (ks.popTranscript i) <;> rfl

theorem shareBy_partial [Fintype F] (B : Backend F E) (spare : Bytes) (q : Option (ActiveParticipant F E))
    (ks : PublicKeySet E) (i : ℕ) (hq : ∀ p, q = some p → ParticipantOf B ks i p) (ct : Ciphertext E) :
    ∃ σ : Equiv.Perm F, ∀ x, shareBy B q ct x =
      (shareBy (totalize B spare) q ct (σ x)).filter fun share =>
        (ks.verifyShare B (CandidateDecryption.ofVerifiable share.1) ct i share.2).isSome := by
  cases q with
  | none => exact ⟨Equiv.refl _, fun y => rfl⟩
  | some p =>
    obtain ⟨s, key, rfl, hkey, hel⟩ := hq p rfl
    have e : ∀ (B' : Backend F E) x,
        shareBy B' (some ⟨ks, i, s⟩) ct x = (PublicKey.fromElement B' ct.random).bind fun base =>
        ((LogEqualityProof.new B'.withTape base s (s • B.gen, s • ct.random) (ks.shareTranscript i) [x]).map
          Prod.fst).map fun proof => (⟨s • ct.random⟩, proof) := by
      intro B' x
      have h1 : PublicKey.fromElement B'.withTape ct.random = PublicKey.fromElement B' ct.random := rfl
      simp only [shareBy, Option.bind_eq_bind, Option.bind_some, ActiveParticipant.decryptShare,
        ActiveParticipant.publicKeyShare, hkey, hel, h1]
      cases PublicKey.fromElement B' ct.random with
      | none => rfl
      | some base =>
        simp only [Option.bind_some]
        cases LogEqualityProof.new B'.withTape base s (s • B.gen, s • ct.random) (ks.shareTranscript i) [x] <;> rfl
    cases hb : PublicKey.fromElement B ct.random with
    | none =>
      refine ⟨Equiv.refl _, fun x => ?_⟩
      rw [e B, hb, Option.bind_none]
      symm
      rw [Option.filter_eq_none_iff]
      intro share _
      simp [PublicKeySet.verifyShare, hkey, hb]
    | some base =>
      have hb' : PublicKey.fromElement (totalize B spare) ct.random = some base := totalize_fromElement hb
      have hbase : base.element = ct.random := by
        simp only [PublicKey.fromElement, Option.bind_eq_bind, Option.bind_eq_some_iff, Option.pure_def,
          Option.some.injEq] at hb
        obtain ⟨b, -, rfl⟩ := hb
        rfl
      obtain ⟨σ, hσ⟩ := logEq_partial B spare base s (ks.shareTranscript i)
      refine ⟨σ, fun x => ?_⟩
      rw [e B, e (totalize B spare), hb, hb', Option.bind_some, Option.bind_some, ← hbase, hσ]
      cases (LogEqualityProof.new (totalize B spare).withTape base s (s • B.gen, s • base.element)
        (ks.shareTranscript i) [σ x]).map Prod.fst with
      | none => rfl
      | some proof =>
        simp only [Option.map_some, Option.filter_some, PublicKeySet.verifyShare, hkey, hb, Option.bind_eq_bind,
          Option.bind_some, CandidateDecryption.ofVerifiable, hel]
        cases proof.verify B base (s • B.gen, s • base.element) (ks.shareTranscript i) <;> rfl

theorem dkgParticipant_of {B : Backend F E} {params : Params} {dealer : Dealer F E} {polys : List (List E)} {i j : ℕ}
    {s s' : F} {p p' : ActiveParticipant F E} (h : dkgParticipant B params dealer polys i s = some p)
    (h' : dkgParticipant B params dealer polys j s' = some p') : ParticipantOf B p'.keySet i p := by
  obtain ⟨first, rest, rfl, acc, hacc, keys, hkeys, ks, hks, key, hkey, he, rfl⟩ := dkgParticipant_iff.mp h
  obtain ⟨first', rest', hp, acc', hacc', keys', hkeys', ks', hks', key', hkey', he', rfl⟩ := dkgParticipant_iff.mp h'
  obtain ⟨rfl, rfl⟩ := List.cons.inj hp
  rw [hacc] at hacc'
  obtain rfl := Option.some.inj hacc'
  rw [hkeys] at hkeys'
  obtain rfl := Option.some.inj hkeys'
  rw [hks] at hks'
  obtain rfl := Except.ok.inj (Option.some.inj hks')
  exact ⟨s, key, rfl, hkey, he.symm⟩

/-! ## The game -/

section
variable [Fintype F] {β : Type} {n o d c : ℕ} {params : Params}

/-- The election after key generation. -/
noncomputable def fullElectionOf (B : Backend F E) (poll : Poll F E β n o d)
    (guess : (List Entry → F) → ThresholdView F E β n o c params.shares → ℚ) (H : List Entry → F)
    (info : List E × ProofOfPossession F) (corrupted : Fin c → F) (q : ℕ → Option (ActiveParticipant F E))
    (ks : PublicKeySet E) : ℚ :=
  mean fun tapes : Fin n → Fin d → F => mean fun ys : Fin params.shares → F =>
  mean fun xs : Fin params.shares → Fin o → F =>
    guess H
      { publicInfo := info
        keySet := ks
        corrupted := corrupted
        ballots := poll.ballots (B.withHash H) ks.sharedKey tapes
        possession := fun i => possessionBy (B.withHash H) (q i) (ys i)
        decryptions := fun i j => do
          guard (∀ v, (poll.ballots (B.withHash H) ks.sharedKey tapes v).isSome)
          shareBy (B.withHash H) (q i) (poll.totals (poll.ballots (B.withHash H) ks.sharedKey tapes) j) (xs i j) }

/-- The same, with all results. -/
noncomputable def electionOf (B : Backend F E) (poll : Poll F E β n o d)
    (guess : (List Entry → F) → ThresholdView F E β n o c params.shares → ℚ) (H : List Entry → F)
    (info : List E × ProofOfPossession F) (corrupted : Fin c → F) (q : ℕ → Option (ActiveParticipant F E))
    (ks : PublicKeySet E) : ℚ :=
  mean fun tapes : Fin n → Fin d → F => mean fun ys : Fin params.shares → F =>
  mean fun xs : Fin params.shares → Fin o → F =>
    guess H
      { publicInfo := info
        keySet := ks
        corrupted := corrupted
        ballots := poll.ballots (B.withHash H) ks.sharedKey tapes
        possession := fun i => possessionBy (B.withHash H) (q i) (ys i)
        decryptions := fun i j =>
          shareBy (B.withHash H) (q i) (poll.totals (poll.ballots (B.withHash H) ks.sharedKey tapes) j) (xs i j) }

theorem electionOf_partial (B : Backend F E) {spare : Bytes} (poll : Poll F E β n o d)
    (ok : (List Entry → F) → PublicKey E → β → Bool)
    (hpoll : ∀ (H : List Entry → F) (K : PublicKey E), ∃ g g' : Fin n → (Fin d → F) → Option β,
      (∀ tapes, poll.ballots (B.withHash H) K tapes = fun v => g v (tapes v)) ∧
      (∀ tapes, poll.ballots ((totalize B spare).withHash H) K tapes = fun v => g' v (tapes v)) ∧
      ∀ v, ∃ σ : Equiv.Perm (Fin d → F), ∀ tape, g v tape = (g' v (σ tape)).filter (ok H K))
    (guess : (List Entry → F) → ThresholdView F E β n o c params.shares → ℚ) (H : List Entry → F)
    (info : List E × ProofOfPossession F) (corrupted : Fin c → F) (q : ℕ → Option (ActiveParticipant F E))
    (ks : PublicKeySet E) (hq : ∀ i p, q i = some p → ParticipantOf B ks i p)
    (hv : (PublicKeySet.validate (B.withHash H) params info.1 info.2).isSome) (hks : keysEncoded B ks) :
    fullElectionOf B poll guess H info corrupted q ks =
      electionOf (totalize B spare) poll (dkgShownIf B params poll.totals ok guess) H info corrupted q ks := by
  obtain ⟨g, g', hg, hg', hσ⟩ := hpoll H ks.sharedKey
  rw [fullElectionOf, electionOf]
  simp only [hg, hg', dkgShownIf, hv, hks, and_self, if_true]
  rw [means_partial hσ fun ballots => mean fun ys : Fin params.shares → F =>
    mean fun xs : Fin params.shares → Fin o → F =>
    guess H
    { publicInfo := info
      keySet := ks
      corrupted := corrupted
      ballots := ballots
      possession := fun i => possessionBy (B.withHash H) (q i) (ys i)
      decryptions := fun i j => do
        guard (∀ v, (ballots v).isSome)
        shareBy (B.withHash H) (q i) (poll.totals ballots j) (xs i j) }]
  refine congrArg mean (funext fun tapes => ?_)
  choose τ hτ using fun i : Fin params.shares => possessionBy_partial (B.withHash H) spare (q i) ks i (hq i)
  simp only [hτ]
  refine (mean_equiv (Equiv.piCongrRight τ) fun ys : Fin params.shares → F =>
    mean fun xs : Fin params.shares → Fin o → F => guess H
    { publicInfo := info
      keySet := ks
      corrupted := corrupted
      ballots := fun v => (g' v (tapes v)).filter (ok H ks.sharedKey)
      possession := fun i => (possessionBy (totalize (B.withHash H) spare) (q i) (ys i)).filter fun proof =>
        (ks.verifyParticipant (B.withHash H) i proof).isSome
      decryptions := fun i j => do
        guard (∀ v, ((g' v (tapes v)).filter (ok H ks.sharedKey)).isSome)
        shareBy (B.withHash H) (q i) (poll.totals (fun v => (g' v (tapes v)).filter (ok H ks.sharedKey)) j)
          (xs i j) }).trans ?_
  refine congrArg mean (funext fun ys => ?_)
  by_cases hall : ∀ v, ((g' v (tapes v)).filter (ok H ks.sharedKey)).isSome
  · simp only [hall, implies_true, guard_true, Option.pure_def, Option.bind_eq_bind, Option.bind_some]
    have heq : (fun v => (g' v (tapes v)).filter (ok H ks.sharedKey)) = fun v => g' v (tapes v) := by
      funext v
      obtain ⟨x, hx⟩ := Option.isSome_iff_exists.mp (hall v)
      rw [hx, (Option.filter_eq_some_iff.mp hx).1]
    simp only [heq]
    choose ρ hρ using fun (i : Fin params.shares) (j : Fin o) => shareBy_partial (B.withHash H) spare (q i) ks i (hq i)
      (poll.totals (fun v => g' v (tapes v)) j)
    simp only [hρ]
    exact mean_equiv (Equiv.piCongrRight fun i => Equiv.piCongrRight (ρ i))
      fun xs : Fin params.shares → Fin o → F => guess H
      { publicInfo := info
        keySet := ks
        corrupted := corrupted
        ballots := fun v => g' v (tapes v)
        possession := fun i => (possessionBy (totalize (B.withHash H) spare) (q i) (ys i)).filter fun proof =>
          (ks.verifyParticipant (B.withHash H) i proof).isSome
        decryptions := fun i j => (shareBy (totalize (B.withHash H) spare) (q i)
          (poll.totals (fun v => g' v (tapes v)) j) (xs i j)).filter fun share => (ks.verifyShare (B.withHash H)
            (CandidateDecryption.ofVerifiable share.1) (poll.totals (fun v => g' v (tapes v)) j) i share.2).isSome }
  · simp only [hall, guard_false, Option.bind_eq_bind]
    rfl

/-- The participants after key generation. -/
def participantsOf (B : Backend F E) (honest : Fin params.shares) (bad : Fin c → ℕ) (others : DkgStrategy F E params c)
    (H : List Entry → F) (dealer : Dealer F E) (i : ℕ) : Option (ActiveParticipant F E) :=
  let secrets := others H dealer.publicInfo fun a => (dealer.secretShareForParticipant (bad a)).getD 0
  dkgParticipant (B.withHash H) params dealer (List.ofFn fun j : Fin params.shares =>
      if j = honest then dealer.publicInfo.1 else List.ofFn fun m => secrets j m • B.gen) i
    (∑ j : Fin params.shares, if j = honest then (dealer.secretShareForParticipant i).getD 0 else
      polyAt ((i : F) + 1) (List.ofFn (secrets j)))

theorem fullDkgRun_eq (B : Backend F E) (honest : Fin params.shares) (bad : Fin c → ℕ) (others : DkgStrategy F E params c)
    (poll : Poll F E β n o d) (guess : (List Entry → F) → ThresholdView F E β n o c params.shares → ℚ)
    (H : List Entry → F) (tape : List F) :
    fullDkgRun B params honest bad others poll guess H tape =
      ((Dealer.new (B.withHash H).withTape params tape).map Prod.fst).elim 0 fun dealer =>
        (participantsOf B honest bad others H dealer honest).elim 0 fun target =>
          fullElectionOf B poll guess H dealer.publicInfo (fun a => (dealer.secretShareForParticipant (bad a)).getD 0)
            (participantsOf B honest bad others H dealer) target.keySet := by
  rw [fullDkgRun]
  cases Dealer.new (B.withHash H).withTape params tape with
  | none => rfl
  | some r =>
    obtain ⟨dealer, r⟩ := r
    rw [Option.map_some, Option.elim_some]
    dsimp only
    split
    · rename_i h
      have h : participantsOf B honest bad others H dealer honest = none := h
      rw [h, Option.elim_none]
    · rename_i target h
      have h : participantsOf B honest bad others H dealer honest = some target := h
      rw [h, Option.elim_some]
      rfl

theorem dkgRun_elim (B : Backend F E) (honest : Fin params.shares) (bad : Fin c → ℕ) (others : DkgStrategy F E params c)
    (poll : Poll F E β n o d) (guess : (List Entry → F) → ThresholdView F E β n o c params.shares → ℚ)
    (H : List Entry → F) (tape : List F) :
    dkgRun B params honest bad others poll guess H tape =
      ((Dealer.new (B.withHash H).withTape params tape).map Prod.fst).elim 0 fun dealer =>
        (participantsOf B honest bad others H dealer honest).elim 0 fun target =>
          electionOf B poll guess H dealer.publicInfo (fun a => (dealer.secretShareForParticipant (bad a)).getD 0)
            (participantsOf B honest bad others H dealer) target.keySet := by
  rw [dkgRun]
  cases Dealer.new (B.withHash H).withTape params tape with
  | none => rfl
  | some r =>
    obtain ⟨dealer, r⟩ := r
    rw [Option.map_some, Option.elim_some]
    dsimp only
    split
    · rename_i h
      have h : participantsOf B honest bad others H dealer honest = none := h
      rw [h, Option.elim_none]
    · rename_i target h
      have h : participantsOf B honest bad others H dealer honest = some target := h
      rw [h, Option.elim_some]
      rfl

theorem electionOf_hidden (B : Backend F E) {spare : Bytes} (poll : Poll F E β n o d)
    (ok : (List Entry → F) → PublicKey E → β → Bool)
    (guess : (List Entry → F) → ThresholdView F E β n o c params.shares → ℚ) (H : List Entry → F)
    (info : List E × ProofOfPossession F) (corrupted : Fin c → F) (q : ℕ → Option (ActiveParticipant F E))
    (ks : PublicKeySet E)
    (h : ¬ ((PublicKeySet.validate (B.withHash H) params info.1 info.2).isSome ∧ keysEncoded B ks)) :
    electionOf (totalize B spare) poll (dkgShownIf B params poll.totals ok guess) H info corrupted q ks = 0 := by
  rw [electionOf]
  simp only [dkgShownIf, h, if_false, mean_const]

/-- Elections whose ballots exist in both groups. -/
theorem fullDkgGame_partial (B : Backend F E) {spare : Bytes} (D : Finset (List Entry))
    (H₀ : List Entry → F) (honest : Fin params.shares) (bad : Fin c → ℕ) (others : DkgStrategy F E params c)
    (poll : Poll F E β n o d) (ok : (List Entry → F) → PublicKey E → β → Bool)
    (hpoll : ∀ (H : List Entry → F) (K : PublicKey E), ∃ g g' : Fin n → (Fin d → F) → Option β,
      (∀ tapes, poll.ballots (B.withHash H) K tapes = fun v => g v (tapes v)) ∧
      (∀ tapes, poll.ballots ((totalize B spare).withHash H) K tapes = fun v => g' v (tapes v)) ∧
      ∀ v, ∃ σ : Equiv.Perm (Fin d → F), ∀ tape, g v tape = (g' v (σ tape)).filter (ok H K))
    (guess : (List Entry → F) → ThresholdView F E β n o c params.shares → ℚ) :
    fullDkgGame B D H₀ params honest bad others poll guess =
      dkgGame (totalize B spare) D H₀ params honest bad others poll (dkgShownIf B params poll.totals ok guess) := by
  rw [fullDkgGame, dkgGame]
  refine congrArg (meanHash D H₀) (funext fun H => congrArg mean (funext fun cs => ?_))
  obtain ⟨σ, hσ⟩ := dealer_partial (B.withHash H) spare params cs
  refine Eq.trans ?_ (mean_equiv σ _)
  refine congrArg mean (funext fun ns => ?_)
  rw [fullDkgRun_eq, dkgRun_elim, hσ]
  have hT : Dealer.new ((totalize B spare).withHash H).withTape params (List.ofFn cs ++ List.ofFn (σ ns)) =
    Dealer.new (totalize (B.withHash H) spare).withTape params (List.ofFn cs ++ List.ofFn (σ ns)) := rfl
  rw [hT]
  cases (Dealer.new (totalize (B.withHash H) spare).withTape params (List.ofFn cs ++ List.ofFn (σ ns))).map Prod.fst with
  | none => rw [Option.filter_none, Option.elim_none, Option.elim_none]
  | some dealer =>
    rw [Option.elim_some]
    have hpart : ∀ i, participantsOf B honest bad others H dealer i =
        (participantsOf (totalize B spare) honest bad others H dealer i).filter fun p => keysEncoded B p.keySet := fun i =>
      dkgParticipant_partial (B.withHash H) spare params dealer _ i _
    cases hv : (PublicKeySet.validate (B.withHash H) params dealer.publicInfo.1 dealer.publicInfo.2).isSome with
    | false =>
      rw [Option.filter_some, if_neg (by rw [hv]; simp), Option.elim_none]
      cases participantsOf (totalize B spare) honest bad others H dealer honest with
      | none => rw [Option.elim_none]
      | some target =>
        rw [Option.elim_some, electionOf_hidden]
        rw [hv]
        simp
    | true =>
      rw [Option.filter_some, if_pos (by rw [hv]), Option.elim_some, hpart]
      cases htarget : participantsOf (totalize B spare) honest bad others H dealer honest with
      | none => rw [Option.filter_none, Option.elim_none, Option.elim_none]
      | some target =>
        cases henc : keysEncoded B target.keySet with
        | false =>
          rw [Option.filter_some, if_neg (by rw [henc]; simp), Option.elim_none, Option.elim_some, electionOf_hidden]
          rw [henc]
          simp
        | true =>
          rw [Option.filter_some, if_pos (by rw [henc]), Option.elim_some, Option.elim_some]
          have hof : ∀ i p, participantsOf (totalize B spare) honest bad others H dealer i = some p →
              ParticipantOf B target.keySet i p := fun i p hp =>
            dkgParticipant_of (B := (totalize B spare).withHash H) hp htarget
          have hq : participantsOf B honest bad others H dealer =
              participantsOf (totalize B spare) honest bad others H dealer := by
            funext i
            rw [hpart i]
            cases hp : participantsOf (totalize B spare) honest bad others H dealer i with
            | none => rw [Option.filter_none]
            | some p =>
              obtain ⟨s, key, rfl, -, -⟩ := hof i p hp
              rw [Option.filter_some, if_pos henc]
          rw [hq]
          exact electionOf_partial B poll ok hpoll guess H _ _ _ _ hof hv henc

end

end ElasticElgamal
