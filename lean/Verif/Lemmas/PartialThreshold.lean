import Verif.Lemmas.PartialPrivacy
import Verif.Lemmas.ThresholdPrivacy
import Verif.Spec.PartialThreshold

/-!
# Lemmas: elections with a shared key in groups that cannot encode all elements
-/

set_option autoImplicit false
set_option linter.unusedSectionVars false

namespace ElasticElgamal

open Spec

variable {F E : Type} [Field F] [AddCommGroup E] [Module F E] [DecidableEq F] [DecidableEq E]

/-! ## Proofs of possession -/

theorem totalize_pop {B : Backend F E} {spare : Bytes} {proof : ProofOfPossession F} {keys : List (PublicKey E)}
    {t : Transcript} {out} (h : proof.verify B keys t = some out) :
    proof.verify (totalize B spare) keys t = some out := by
  obtain ⟨r, t'⟩ := out
  by_cases hl : proof.responses.length = keys.length
  · rw [ProofOfPossession.verify_eq_some hl] at h ⊢
    obtain ⟨rs, h1, h2, h3⟩ := h
    exact ⟨rs, h1.imp fun _ _ => totalize_ser, h2, h3⟩
  · simp only [ProofOfPossession.verify, checkLengths_ne hl] at h ⊢
    exact h

/-- Provers with a tape of the right length. -/
theorem pop_new_tape {B : Backend F E} {kps : List (Keypair F E)}
    (hk : ∀ kp ∈ kps, kp.publicKey.element = kp.secret • B.gen) {t : Transcript} {xs : List F}
    (hl : xs.length = kps.length) {proof : ProofOfPossession F}
    (h : (ProofOfPossession.new B.withTape kps t xs).map Prod.fst = some proof) :
    ∃ t', ProofOfPossession.new B.withTape kps t xs = some (proof, t', []) ∧
      proof.verify B (kps.map (·.publicKey)) t = some (.ok (), t') := by
  obtain ⟨⟨p, t', r⟩, hnew, rfl⟩ := Option.map_eq_some_iff.mp h
  have hv := C14_pop_complete B.withTape kps hk t t' _ _ p hnew
  have hr : r = [] := by
    simp only [ProofOfPossession.new, ProofOfPossession.fromKeys, Option.bind_eq_bind, Option.bind_eq_some_iff,
      Option.pure_def, Option.some.injEq, Prod.mk.injEq, Prod.exists] at hnew
    obtain ⟨ys, t1, r1, hd, -, -, rfl⟩ := hnew
    rw [List.length_map, ← hl] at hd
    have e := ProofOfPossession.drawRandomScalars_tape_inv hd
    subst e
    obtain ⟨-, rs, hrs, -⟩ := ProofOfPossession.drawRandomScalars_eq_some hd
    have hd' := ProofOfPossession.drawRandomScalars_tape (B := B) ys rs hrs
      (ProofOfPossession.appendKeys (t.startProof "multi_pop") (kps.map (·.publicKey)))
    rw [hd'] at hd
    simp only [Option.some.injEq, Prod.mk.injEq] at hd
    exact hd.2.2.symm
  subst hr
  refine ⟨t', hnew, ?_⟩
  have hl' := ProofOfPossession.verify_ok hv
  rw [ProofOfPossession.verify_eq_some hl'] at hv ⊢
  exact hv

theorem pop_partial [Fintype F] (B : Backend F E) (spare : Bytes) {n : ℕ} (kps : List (Keypair F E)) (hn : kps.length = n)
    (hk : ∀ kp ∈ kps, kp.publicKey.element = kp.secret • B.gen) (t : Transcript) :
    ∃ σ : Equiv.Perm (Fin n → F), ∀ xs, (ProofOfPossession.new B.withTape kps t (List.ofFn xs)).map Prod.fst =
      ((ProofOfPossession.new (totalize B spare).withTape kps t (List.ofFn (σ xs))).map Prod.fst).filter fun proof =>
        (proof.verify B (kps.map (·.publicKey)) t).isSome := by
  subst hn
  have huniq : ∀ (B : Backend F E), (∀ kp ∈ kps, kp.publicKey.element = kp.secret • B.gen) →
      ∀ (xs ys : Fin kps.length → F) (p : ProofOfPossession F),
      (ProofOfPossession.new B.withTape kps t (List.ofFn xs)).map Prod.fst = some p →
      (ProofOfPossession.new B.withTape kps t (List.ofFn ys)).map Prod.fst = some p → xs = ys := by
    intro B hk xs ys p hx hy
    obtain ⟨t1, h1, hv1⟩ := pop_new_tape hk (by simp) hx
    obtain ⟨t2, h2, hv2⟩ := pop_new_tape hk (by simp) hy
    rw [hv1] at hv2
    simp only [Option.some.injEq, Prod.mk.injEq, true_and] at hv2
    subst hv2
    exact List.ofFn_injective ((C51_pop_zk B kps hk p.challenge p.responses t t1 hv1).unique
      ⟨by simp, h1⟩ ⟨by simp, h2⟩)
  have hex : ∀ (B : Backend F E), (∀ kp ∈ kps, kp.publicKey.element = kp.secret • B.gen) →
      ∀ (p : ProofOfPossession F) (t' : Transcript), p.verify B (kps.map (·.publicKey)) t = some (.ok (), t') →
      ∃ xs : Fin kps.length → F, (ProofOfPossession.new B.withTape kps t (List.ofFn xs)).map Prod.fst = some p := by
    intro B hk p t' hv
    obtain ⟨xs, ⟨hl, hx⟩, -⟩ := C51_pop_zk B kps hk p.challenge p.responses t t' hv
    refine ⟨fun i => xs[i]'(by rw [hl]; exact i.2), ?_⟩
    have e : (List.ofFn fun i : Fin kps.length => xs[i]'(by rw [hl]; exact i.2)) = xs :=
      List.ext_getElem (by simp [hl]) (by simp)
    rw [e, hx]
    rfl
  refine exists_perm_filter
    (fun xs : Fin kps.length → F => (ProofOfPossession.new B.withTape kps t (List.ofFn xs)).map Prod.fst)
    (fun xs => (ProofOfPossession.new (totalize B spare).withTape kps t (List.ofFn xs)).map Prod.fst) _ ?_ (huniq B hk)
    (huniq (totalize B spare) hk) ?_ ?_
  · intro xs p h
    obtain ⟨t', -, hv⟩ := pop_new_tape hk (by simp) h
    rw [hv]
    rfl
  · intro xs p h
    obtain ⟨t', -, hv⟩ := pop_new_tape hk (by simp) h
    exact hex (totalize B spare) hk p t' (totalize_pop hv)
  · intro xs p h hA
    obtain ⟨t', -, hv⟩ := pop_new_tape (B := totalize B spare) hk (by simp) h
    obtain ⟨out, hout⟩ := Option.isSome_iff_exists.mp hA
    have e := totalize_pop (spare := spare) hout
    rw [hv] at e
    rw [← Option.some.inj e] at hout
    exact hex B hk p t' hout

/-! ## Log equality proofs -/

theorem logEq_partial [Fintype F] (B : Backend F E) (spare : Bytes) (K : PublicKey E) (k : F) (t : Transcript) :
    ∃ σ : Equiv.Perm F, ∀ x,
      (LogEqualityProof.new B.withTape K k (k • B.gen, k • K.element) t [x]).map Prod.fst =
      ((LogEqualityProof.new (totalize B spare).withTape K k (k • B.gen, k • K.element) t [σ x]).map Prod.fst).filter
        fun proof => (proof.verify B K (k • B.gen, k • K.element) t).isSome := by
  have hout : ∀ (B : Backend F E) (x : F) (p : LogEqualityProof F),
      (LogEqualityProof.new B.withTape K k (k • B.gen, k • K.element) t [x]).map Prod.fst = some p →
      ∃ t', p.verify B K (k • B.gen, k • K.element) t = some (.ok (), t') := by
    intro B x p h
    obtain ⟨⟨p, t', r⟩, hnew, rfl⟩ := Option.map_eq_some_iff.mp h
    exact ⟨t', C11_log_eq_complete B.withTape K k t t' _ _ p hnew⟩
  have hin : ∀ (B : Backend F E) (p : LogEqualityProof F) (t' : Transcript),
      p.verify B K (k • B.gen, k • K.element) t = some (.ok (), t') →
      ∃! x : F, (LogEqualityProof.new B.withTape K k (k • B.gen, k • K.element) t [x]).map Prod.fst = some p := by
    intro B p t' hv
    obtain ⟨x, hx, -⟩ := C51_log_eq_zk B K k p _ t' hv
    have hx : LogEqualityProof.new B.withTape K k (k • B.gen, k • K.element) t [x] = some (p, t', []) := hx
    refine ⟨x, by simp only [hx, Option.map_some], fun y hy => ?_⟩
    obtain ⟨⟨p', t2, r⟩, hy', rfl⟩ := Option.map_eq_some_iff.mp hy
    obtain ⟨-, -, -, -, -, -, -, -, -, -, e1, -⟩ := LogEqualityProof.new_eq_some.mp hx
    obtain ⟨-, -, -, -, -, -, -, -, -, -, e2, -⟩ := LogEqualityProof.new_eq_some.mp hy'
    rw [e1] at e2
    simpa using e2.symm
  refine exists_perm_filter (fun x => (LogEqualityProof.new B.withTape K k (k • B.gen, k • K.element) t [x]).map Prod.fst)
    (fun x => (LogEqualityProof.new (totalize B spare).withTape K k (k • B.gen, k • K.element) t [x]).map Prod.fst) _
    ?_ ?_ ?_ ?_ ?_
  · intro x p h
    obtain ⟨t', hv⟩ := hout B x p h
    rw [hv]
    rfl
  · intro x y p hx hy
    obtain ⟨t', hv⟩ := hout B x p hx
    exact (hin B p t' hv).unique hx hy
  · intro x y p hx hy
    obtain ⟨t', hv⟩ := hout (totalize B spare) x p hx
    exact (hin (totalize B spare) p t' hv).unique hx hy
  · intro x p h
    obtain ⟨t', hv⟩ := hout B x p h
    exact (hin (totalize B spare) p t' (totalize_logEq hv)).exists
  · intro x p h hA
    obtain ⟨t', hv⟩ := hout (totalize B spare) x p h
    obtain ⟨out, hout⟩ := Option.isSome_iff_exists.mp hA
    have e := totalize_logEq (spare := spare) hout
    rw [show p.verify (totalize B spare) K (k • B.gen, k • K.element) t = some (.ok (), t') from hv] at e
    rw [← Option.some.inj e] at hout
    exact (hin B p t' hout).exists

/-! ## The dealer -/

/-- Coefficients of the polynomial with their keys. -/
def dealtKeypairs (B : Backend F E) (cs : List F) : List (Keypair F E) := cs.map fun x => ⟨x, keyOf B (x • B.gen)⟩

theorem generate_partial (B : Backend F E) (spare : Bytes) (ns : List F) : ∀ (cs : List F),
    match ((dealtKeypairs (totalize B spare) cs).map (·.publicKey.element)).mapM (PublicKey.fromElement B) with
      | none => Dealer.generateKeypairs B.withTape cs.length (cs ++ ns) = none
      | some keys => keys = (dealtKeypairs (totalize B spare) cs).map (·.publicKey) ∧
        Dealer.generateKeypairs B.withTape cs.length (cs ++ ns) = some (dealtKeypairs (totalize B spare) cs, ns)
  | [] => by simp [dealtKeypairs, Dealer.generateKeypairs]
  | c :: cs => by
    have h4 := generate_partial B spare ns cs
    have hk : dealtKeypairs (totalize B spare) (c :: cs) =
      ⟨c, ⟨(B.serElem (c • B.gen)).getD spare, c • B.gen⟩⟩ :: dealtKeypairs (totalize B spare) cs := rfl
    rw [hk]
    cases he : B.serElem (c • B.gen) with
    | none =>
      have e1 : PublicKey.fromElement B (c • B.gen) = none := by simp [PublicKey.fromElement, he]
      have e2 : Keypair.generate B.withTape (c :: (cs ++ ns)) = none := by
        have : PublicKey.ofSecret B.withTape c = none := e1
        simp [Keypair.generate, SecretKey.generate, this]
      simp only [List.map_cons, List.mapM_cons, e1, Option.bind_eq_bind, Option.bind_none, List.length_cons,
        List.cons_append, Dealer.generateKeypairs, e2]
    | some b =>
      have e1 : PublicKey.fromElement B (c • B.gen) = some ⟨b, c • B.gen⟩ := by simp [PublicKey.fromElement, he]
      have e2 : Keypair.generate B.withTape (c :: (cs ++ ns)) = some (⟨c, ⟨b, c • B.gen⟩⟩, cs ++ ns) := by
        have : PublicKey.ofSecret B.withTape c = some ⟨b, c • B.gen⟩ := e1
        simp [Keypair.generate, SecretKey.generate, this]
      simp only [List.map_cons, List.mapM_cons, e1, Option.bind_eq_bind, Option.bind_some, List.length_cons,
        List.cons_append, Dealer.generateKeypairs, e2, Option.getD_some]
      cases hm : ((dealtKeypairs (totalize B spare) cs).map (·.publicKey.element)).mapM (PublicKey.fromElement B) with
      | none =>
        rw [hm] at h4
        simp only [Option.bind_none, h4]
      | some keys =>
        rw [hm] at h4
        simp only [Option.bind_some, Option.pure_def, h4.1, h4.2, and_self]

theorem dealer_new_eq {B : Backend F E} {params : Params} {cs ns : List F} {kps : List (Keypair F E)}
    (h : Dealer.generateKeypairs B.withTape params.threshold (cs ++ ns) = some (kps, ns)) :
    (Dealer.new B.withTape params (cs ++ ns)).map Prod.fst =
      ((ProofOfPossession.new B.withTape kps (sharePolyTranscript params) ns).map Prod.fst).map fun proof =>
        ⟨params, kps, proof⟩ := by
  simp only [Dealer.new, h, Option.bind_eq_bind, Option.bind_some]
  cases ProofOfPossession.new B.withTape kps (sharePolyTranscript params) ns <;> rfl

theorem dealer_partial [Fintype F] (B : Backend F E) (spare : Bytes) (params : Params) (cs : Fin params.threshold → F) :
    ∃ σ : Equiv.Perm (Fin params.threshold → F), ∀ ns,
      (Dealer.new B.withTape params (List.ofFn cs ++ List.ofFn ns)).map Prod.fst =
        ((Dealer.new (totalize B spare).withTape params (List.ofFn cs ++ List.ofFn (σ ns))).map Prod.fst).filter
          fun dealer => (PublicKeySet.validate B params dealer.publicInfo.1 dealer.publicInfo.2).isSome := by
  have hT : ∀ ns : List F, Dealer.generateKeypairs (totalize B spare).withTape params.threshold
      (List.ofFn cs ++ ns) = some (dealtKeypairs (totalize B spare) (List.ofFn cs), ns) := fun ns => by
    have := generateKeypairs_tape (totalize_total B spare) ns (List.ofFn cs)
    rwa [List.length_ofFn] at this
  have hG := fun ns => generate_partial B spare ns (List.ofFn cs)
  simp only [List.length_ofFn] at hG
  have hlen : (dealtKeypairs (totalize B spare) (List.ofFn cs)).length = params.threshold := by simp [dealtKeypairs]
  have hval : ∀ proof : ProofOfPossession F, PublicKeySet.validate B params
      ((dealtKeypairs (totalize B spare) (List.ofFn cs)).map (·.publicKey.element)) proof =
      (((dealtKeypairs (totalize B spare) (List.ofFn cs)).map (·.publicKey.element)).mapM (PublicKey.fromElement B)).bind
        fun keys => (proof.verify B keys (sharePolyTranscript params)).bind fun r =>
          some (r.1.mapError .InvalidDealerProof) := fun proof => by
    rw [PublicKeySet.validate, if_neg (by simp [hlen])]
    rfl
  cases hm : ((dealtKeypairs (totalize B spare) (List.ofFn cs)).map (·.publicKey.element)).mapM
      (PublicKey.fromElement B) with
  | none =>
    rw [hm] at hG hval
    refine ⟨Equiv.refl _, fun ns => ?_⟩
    rw [dealer_new_eq (hT _)]
    have : Dealer.new B.withTape params (List.ofFn cs ++ List.ofFn ns) = none := by
      simp [Dealer.new, hG (List.ofFn ns)]
    rw [this]
    symm
    rw [Option.map_none, Option.filter_eq_none_iff]
    intro dealer hd
    obtain ⟨proof, -, rfl⟩ := Option.map_eq_some_iff.mp hd
    simp [Dealer.publicInfo, hval]
  | some keys =>
    rw [hm] at hG hval
    obtain ⟨σ, hσ⟩ := pop_partial B spare (dealtKeypairs (totalize B spare) (List.ofFn cs)) hlen
      (fun kp hkp => by
        obtain ⟨x, -, rfl⟩ := List.mem_map.mp hkp
        exact keyOf_element (totalize_total B spare) _) (sharePolyTranscript params)
    refine ⟨σ, fun ns => ?_⟩
    rw [dealer_new_eq (hT _), dealer_new_eq (hG (List.ofFn ns)).2, hσ]
    cases (ProofOfPossession.new (totalize B spare).withTape (dealtKeypairs (totalize B spare) (List.ofFn cs))
      (sharePolyTranscript params) (List.ofFn (σ ns))).map Prod.fst with
    | none => rfl
    | some proof =>
      simp only [Option.map_some, Option.filter_some, Dealer.publicInfo, hval, Option.bind_some, (hG []).1]
      cases proof.verify B ((dealtKeypairs (totalize B spare) (List.ofFn cs)).map (·.publicKey))
        (sharePolyTranscript params) <;> rfl

/-! ## Key sets and participants -/

theorem totalize_fromElement {B : Backend F E} {spare : Bytes} {e : E} {K : PublicKey E}
    (h : PublicKey.fromElement B e = some K) : PublicKey.fromElement (totalize B spare) e = some K := by
  simp only [PublicKey.fromElement, Option.bind_eq_bind, Option.bind_eq_some_iff] at h ⊢
  obtain ⟨b, hb, h⟩ := h
  exact ⟨b, totalize_ser hb, h⟩

theorem mapM_mono {α β : Type} {f f' : α → Option β} (h : ∀ a b, f a = some b → f' a = some b) :
    ∀ {l : List α} {r : List β}, l.mapM f = some r → l.mapM f' = some r
  | [], r, hr => by simpa using hr
  | a :: l, r, hr => by
    simp only [List.mapM_cons, Option.bind_eq_bind, Option.bind_eq_some_iff, Option.pure_def, Option.some.injEq] at hr ⊢
    obtain ⟨b, hb, bs, hbs, rfl⟩ := hr
    exact ⟨b, h a b hb, bs, mapM_mono h hbs, rfl⟩

theorem totalize_keySet {B : Backend F E} {spare : Bytes} {params : Params} {poly : List E}
    {proof : ProofOfPossession F} {ks : PublicKeySet E}
    (h : PublicKeySet.new B params poly proof = some (.ok ks)) :
    PublicKeySet.new (totalize B spare) params poly proof = some (.ok ks) := by
  simp only [PublicKeySet.new, Option.bind_eq_bind, Option.bind_eq_some_iff] at h ⊢
  obtain ⟨r, hv, h⟩ := h
  refine ⟨r, ?_, ?_⟩
  · rw [PublicKeySet.validate] at hv ⊢
    split_ifs at hv ⊢ with hl
    · exact hv
    · simp only [Option.bind_eq_bind, Option.bind_eq_some_iff] at hv ⊢
      obtain ⟨keys, hk, r', hr', hv⟩ := hv
      exact ⟨keys, mapM_mono (fun _ _ => totalize_fromElement) hk, r', totalize_pop hr', hv⟩
  · cases r with
    | error e => simp at h
    | ok u =>
      simp only [Option.bind_eq_some_iff] at h ⊢
      obtain ⟨z, hz, K, hK, keys, hkeys, h⟩ := h
      exact ⟨z, hz, K, totalize_fromElement hK, keys, mapM_mono (fun _ _ => totalize_fromElement) hkeys, h⟩

theorem dealtParticipant_some {B : Backend F E} {dealer : Dealer F E} {ks : PublicKeySet E} {i : ℕ}
    {p : ActiveParticipant F E} (h : dealtParticipant B dealer ks i = some p) :
    ∃ s key, p = ⟨ks, i, s⟩ ∧ ks.participantKeys[i]? = some key ∧ key.element = s • B.gen := by
  rw [dealtParticipant] at h
  split at h
  · rename_i q hq
    cases h
    simp only [Option.bind_eq_some_iff, ActiveParticipant.new, Option.bind_eq_bind] at hq
    obtain ⟨s, -, key, hkey, hq⟩ := hq
    split_ifs at hq with he
    · cases hq
      exact ⟨s, key, rfl, hkey, he.symm⟩
    · cases hq
  · cases h

/-- The proof of possession of a participant. -/
def possessionOf (B : Backend F E) (dealer : Dealer F E) (ks : PublicKeySet E) (i : ℕ) (y : F) :
    Option (ProofOfPossession F) := do
  let participant ← dealtParticipant B dealer ks i
  let (proof, _) ← participant.proofOfPossession B.withTape [y]
  return proof

/-- The share of a decryption of a participant. -/
def shareOf (B : Backend F E) (dealer : Dealer F E) (ks : PublicKeySet E) (i : ℕ) (ct : Ciphertext E) (x : F) :
    Option (VerifiableDecryption E × LogEqualityProof F) := do
  let participant ← dealtParticipant B dealer ks i
  let (share, _) ← participant.decryptShare B.withTape ct [x]
  return share

theorem possession_partial [Fintype F] (B : Backend F E) (spare : Bytes) (dealer : Dealer F E) (ks : PublicKeySet E) (i : ℕ) :
    ∃ σ : Equiv.Perm F, ∀ y, possessionOf B dealer ks i y =
      (possessionOf (totalize B spare) dealer ks i (σ y)).filter fun proof => (ks.verifyParticipant B i proof).isSome := by
  have hT : dealtParticipant (totalize B spare) dealer ks i = dealtParticipant B dealer ks i := rfl
  cases hp : dealtParticipant B dealer ks i with
  | none => exact ⟨Equiv.refl _, fun y => by simp [possessionOf, hT, hp]⟩
  | some p =>
    obtain ⟨s, key, rfl, hkey, hel⟩ := dealtParticipant_some hp
    have e : ∀ (B' : Backend F E), dealtParticipant B' dealer ks i = some ⟨ks, i, s⟩ → ∀ y,
        possessionOf B' dealer ks i y =
        (ProofOfPossession.new B'.withTape [⟨s, key⟩] (ks.popTranscript i) [y]).map Prod.fst := by
      intro B' hB' y
      simp only [possessionOf, hB', Option.bind_eq_bind, Option.bind_some, ActiveParticipant.proofOfPossession,
        ActiveParticipant.publicKeyShare, hkey, ProofOfPossession.new, List.map_cons, List.map_nil]
      cases ProofOfPossession.fromKeys B'.withTape [s] [key] (ks.popTranscript i) [y] <;> rfl
    obtain ⟨σ, hσ⟩ := pop_partial B spare (n := 1) [⟨s, key⟩] rfl (by simpa using hel) (ks.popTranscript i)
    refine ⟨(Equiv.funUnique (Fin 1) F).permCongr σ, fun y => ?_⟩
    rw [e B hp, e (totalize B spare) (hT.trans hp)]
    have h := hσ fun _ => y
    have e1 : List.ofFn (fun _ : Fin 1 => y) = [y] := rfl
    have e2 : List.ofFn (σ fun _ : Fin 1 => y) = [(Equiv.funUnique (Fin 1) F).permCongr σ y] := by
      simp only [List.ofFn_succ, List.ofFn_zero, Equiv.permCongr_apply]
      rfl
    rw [e1, e2] at h
    rw [h]
    congr 1
    funext proof
    simp only [PublicKeySet.verifyParticipant, PublicKeySet.participantKey, hkey, Option.bind_eq_bind, Option.bind_some,
      List.map_cons, List.map_nil]
    cases proof.verify B [key] (ks.popTranscript i) <;> rfl

theorem share_partial [Fintype F] (B : Backend F E) (spare : Bytes) (dealer : Dealer F E) (ks : PublicKeySet E) (i : ℕ)
    (ct : Ciphertext E) :
    ∃ σ : Equiv.Perm F, ∀ x, shareOf B dealer ks i ct x =
      (shareOf (totalize B spare) dealer ks i ct (σ x)).filter fun share =>
        (ks.verifyShare B (CandidateDecryption.ofVerifiable share.1) ct i share.2).isSome := by
  have hT : dealtParticipant (totalize B spare) dealer ks i = dealtParticipant B dealer ks i := rfl
  cases hp : dealtParticipant B dealer ks i with
  | none => exact ⟨Equiv.refl _, fun y => by simp [shareOf, hT, hp]⟩
  | some p =>
    obtain ⟨s, key, rfl, hkey, hel⟩ := dealtParticipant_some hp
    have e : ∀ (B' : Backend F E), dealtParticipant B' dealer ks i = some ⟨ks, i, s⟩ → ∀ x,
        shareOf B' dealer ks i ct x = (PublicKey.fromElement B' ct.random).bind fun base =>
        ((LogEqualityProof.new B'.withTape base s (s • B.gen, s • ct.random) (ks.shareTranscript i) [x]).map
          Prod.fst).map fun proof => (⟨s • ct.random⟩, proof) := by
      intro B' hB' x
      have h1 : PublicKey.fromElement B'.withTape ct.random = PublicKey.fromElement B' ct.random := rfl
      simp only [shareOf, hB', Option.bind_eq_bind, Option.bind_some, ActiveParticipant.decryptShare,
        ActiveParticipant.publicKeyShare, hkey, hel, h1]
      cases PublicKey.fromElement B' ct.random with
      | none => rfl
      | some base =>
        simp only [Option.bind_some]
        cases LogEqualityProof.new B'.withTape base s (s • B.gen, s • ct.random) (ks.shareTranscript i) [x] <;> rfl
    cases hb : PublicKey.fromElement B ct.random with
    | none =>
      refine ⟨Equiv.refl _, fun x => ?_⟩
      rw [e B hp, hb, Option.bind_none]
      symm
      rw [Option.filter_eq_none_iff]
      intro share _
      simp [PublicKeySet.verifyShare, hkey, hb]
    | some base =>
      have hb' : PublicKey.fromElement (totalize B spare) ct.random = some base := totalize_fromElement hb
      have hbase : base.element = ct.random := by
        simp only [PublicKey.fromElement, Option.bind_eq_bind, Option.bind_eq_some_iff, Option.pure_def,
          Option.some.injEq] at hb
        obtain ⟨b, -, rfl⟩ := hb
        rfl
      obtain ⟨σ, hσ⟩ := logEq_partial B spare base s (ks.shareTranscript i)
      refine ⟨σ, fun x => ?_⟩
      rw [e B hp, e (totalize B spare) (hT.trans hp), hb, hb', Option.bind_some, Option.bind_some, ← hbase, hσ]
      cases (LogEqualityProof.new (totalize B spare).withTape base s (s • B.gen, s • base.element)
        (ks.shareTranscript i) [σ x]).map Prod.fst with
      | none => rfl
      | some proof =>
        simp only [Option.map_some, Option.filter_some, PublicKeySet.verifyShare, hkey, hb, Option.bind_eq_bind,
          Option.bind_some, CandidateDecryption.ofVerifiable, hel]
        cases proof.verify B base (s • B.gen, s • base.element) (ks.shareTranscript i) <;> rfl

/-! ## The game -/

section
variable [Fintype F] {β : Type} {n o d c : ℕ} {params : Params}

/-- The run of the election after dealing. -/
noncomputable def fullRunOf (B : Backend F E) (bad : Fin c → ℕ) (poll : Poll F E β n o d)
    (guess : (List Entry → F) → ThresholdView F E β n o c params.shares → ℚ) (H : List Entry → F) (dealer : Dealer F E) :
    ℚ :=
  match PublicKeySet.new (B.withHash H) params dealer.publicInfo.1 dealer.publicInfo.2 with
  | some (.ok ks) =>
    mean fun tapes : Fin n → Fin d → F => mean fun ys : Fin params.shares → F =>
    mean fun xs : Fin params.shares → Fin o → F =>
      guess H
        { publicInfo := dealer.publicInfo
          keySet := ks
          corrupted := fun a => (dealer.secretShareForParticipant (bad a)).getD 0
          ballots := poll.ballots (B.withHash H) ks.sharedKey tapes
          possession := fun i => possessionOf (B.withHash H) dealer ks i (ys i)
          decryptions := fun i j => do
            guard (∀ v, (poll.ballots (B.withHash H) ks.sharedKey tapes v).isSome)
            shareOf (B.withHash H) dealer ks i (poll.totals (poll.ballots (B.withHash H) ks.sharedKey tapes) j) (xs i j) }
  | _ => 0

/-- The same, with all results. -/
noncomputable def runOf (B : Backend F E) (bad : Fin c → ℕ) (poll : Poll F E β n o d)
    (guess : (List Entry → F) → ThresholdView F E β n o c params.shares → ℚ) (H : List Entry → F) (dealer : Dealer F E) :
    ℚ :=
  match PublicKeySet.new (B.withHash H) params dealer.publicInfo.1 dealer.publicInfo.2 with
  | some (.ok ks) =>
    mean fun tapes : Fin n → Fin d → F => mean fun ys : Fin params.shares → F =>
    mean fun xs : Fin params.shares → Fin o → F =>
      guess H
        { publicInfo := dealer.publicInfo
          keySet := ks
          corrupted := fun a => (dealer.secretShareForParticipant (bad a)).getD 0
          ballots := poll.ballots (B.withHash H) ks.sharedKey tapes
          possession := fun i => possessionOf (B.withHash H) dealer ks i (ys i)
          decryptions := fun i j =>
            shareOf (B.withHash H) dealer ks i (poll.totals (poll.ballots (B.withHash H) ks.sharedKey tapes) j) (xs i j) }
  | _ => 0

theorem fullThresholdRun_eq (B : Backend F E) (bad : Fin c → ℕ) (poll : Poll F E β n o d)
    (guess : (List Entry → F) → ThresholdView F E β n o c params.shares → ℚ) (H : List Entry → F) (tape : List F) :
    fullThresholdRun B params bad poll guess H tape =
      ((Dealer.new (B.withHash H).withTape params tape).map Prod.fst).elim 0 (fullRunOf B bad poll guess H) := by
  rw [fullThresholdRun]
  cases Dealer.new (B.withHash H).withTape params tape with
  | none => rfl
  | some r => rfl

theorem thresholdRun_eq (B : Backend F E) (bad : Fin c → ℕ) (poll : Poll F E β n o d)
    (guess : (List Entry → F) → ThresholdView F E β n o c params.shares → ℚ) (H : List Entry → F) (tape : List F) :
    thresholdRun B params bad poll guess H tape =
      ((Dealer.new (B.withHash H).withTape params tape).map Prod.fst).elim 0 (runOf B bad poll guess H) := by
  rw [thresholdRun]
  cases Dealer.new (B.withHash H).withTape params tape with
  | none => rfl
  | some r => rfl

theorem runOf_partial (B : Backend F E) {spare : Bytes} (bad : Fin c → ℕ) (poll : Poll F E β n o d)
    (ok : (List Entry → F) → PublicKey E → β → Bool)
    (hpoll : ∀ (H : List Entry → F) (K : PublicKey E), ∃ g g' : Fin n → (Fin d → F) → Option β,
      (∀ tapes, poll.ballots (B.withHash H) K tapes = fun v => g v (tapes v)) ∧
      (∀ tapes, poll.ballots ((totalize B spare).withHash H) K tapes = fun v => g' v (tapes v)) ∧
      ∀ v, ∃ σ : Equiv.Perm (Fin d → F), ∀ tape, g v tape = (g' v (σ tape)).filter (ok H K))
    (guess : (List Entry → F) → ThresholdView F E β n o c params.shares → ℚ) (H : List Entry → F) (dealer : Dealer F E) :
    fullRunOf B bad poll guess H dealer =
      runOf (totalize B spare) bad poll (thresholdShownIf B params poll.totals ok guess) H dealer := by
  have hzero : (∀ ks, PublicKeySet.new (B.withHash H) params dealer.publicInfo.1 dealer.publicInfo.2 ≠ some (.ok ks)) →
      fullRunOf B bad poll guess H dealer =
      runOf (totalize B spare) bad poll (thresholdShownIf B params poll.totals ok guess) H dealer := by
    intro hno
    have h1 : fullRunOf B bad poll guess H dealer = 0 := by
      rw [fullRunOf]
      split
      · rename_i ks h
        exact absurd h (hno ks)
      · rfl
    have h2 : ∀ view : ThresholdView F E β n o c params.shares, view.publicInfo = dealer.publicInfo →
        thresholdShownIf B params poll.totals ok guess H view = 0 := by
      intro view hv
      rw [thresholdShownIf, hv]
      split
      · rename_i ks h
        exact absurd h (hno ks)
      · rfl
    rw [h1, runOf]
    split
    · simp only [h2, mean_const]
    · rfl
  cases hks : PublicKeySet.new (B.withHash H) params dealer.publicInfo.1 dealer.publicInfo.2 with
  | none => exact hzero (by simp [hks])
  | some rk =>
    cases rk with
    | error e => exact hzero (by simp [hks])
    | ok ks =>
      have hksT : PublicKeySet.new ((totalize B spare).withHash H) params dealer.publicInfo.1 dealer.publicInfo.2 =
        some (.ok ks) := totalize_keySet (B := B.withHash H) hks
      obtain ⟨g, g', hg, hg', hσ⟩ := hpoll H ks.sharedKey
      rw [fullRunOf, runOf, hks, hksT]
      dsimp only
      simp only [hg, hg', thresholdShownIf, hks]
      rw [means_partial hσ fun ballots => mean fun ys : Fin params.shares → F =>
        mean fun xs : Fin params.shares → Fin o → F =>
        guess H
        { publicInfo := dealer.publicInfo
          keySet := ks
          corrupted := fun a => (dealer.secretShareForParticipant (bad a)).getD 0
          ballots := ballots
          possession := fun i => possessionOf (B.withHash H) dealer ks i (ys i)
          decryptions := fun i j => do
            guard (∀ v, (ballots v).isSome)
            shareOf (B.withHash H) dealer ks i (poll.totals ballots j) (xs i j) }]
      refine congrArg mean (funext fun tapes => ?_)
      choose τ hτ using fun i : Fin params.shares => possession_partial (B.withHash H) spare dealer ks i
      simp only [hτ]
      refine (mean_equiv (Equiv.piCongrRight τ) fun ys : Fin params.shares → F =>
        mean fun xs : Fin params.shares → Fin o → F => guess H
        { publicInfo := dealer.publicInfo
          keySet := ks
          corrupted := fun a => (dealer.secretShareForParticipant (bad a)).getD 0
          ballots := fun v => (g' v (tapes v)).filter (ok H ks.sharedKey)
          possession := fun i => (possessionOf (totalize (B.withHash H) spare) dealer ks i (ys i)).filter fun proof =>
            (ks.verifyParticipant (B.withHash H) i proof).isSome
          decryptions := fun i j => do
            guard (∀ v, ((g' v (tapes v)).filter (ok H ks.sharedKey)).isSome)
            shareOf (B.withHash H) dealer ks i (poll.totals (fun v => (g' v (tapes v)).filter (ok H ks.sharedKey)) j)
              (xs i j) }).trans ?_
      refine congrArg mean (funext fun ys => ?_)
      by_cases hall : ∀ v, ((g' v (tapes v)).filter (ok H ks.sharedKey)).isSome
      · simp only [hall, implies_true, guard_true, Option.pure_def, Option.bind_eq_bind, Option.bind_some]
        have heq : (fun v => (g' v (tapes v)).filter (ok H ks.sharedKey)) = fun v => g' v (tapes v) := by
          funext v
          obtain ⟨x, hx⟩ := Option.isSome_iff_exists.mp (hall v)
          rw [hx, (Option.filter_eq_some_iff.mp hx).1]
        simp only [heq]
        choose ρ hρ using fun (i : Fin params.shares) (j : Fin o) => share_partial (B.withHash H) spare dealer ks i
          (poll.totals (fun v => g' v (tapes v)) j)
        simp only [hρ]
        exact mean_equiv (Equiv.piCongrRight fun i => Equiv.piCongrRight (ρ i))
          fun xs : Fin params.shares → Fin o → F => guess H
          { publicInfo := dealer.publicInfo
            keySet := ks
            corrupted := fun a => (dealer.secretShareForParticipant (bad a)).getD 0
            ballots := fun v => g' v (tapes v)
            possession := fun i => (possessionOf (totalize (B.withHash H) spare) dealer ks i (ys i)).filter fun proof =>
              (ks.verifyParticipant (B.withHash H) i proof).isSome
            decryptions := fun i j => (shareOf (totalize (B.withHash H) spare) dealer ks i
              (poll.totals (fun v => g' v (tapes v)) j) (xs i j)).filter fun share => (ks.verifyShare (B.withHash H)
                (CandidateDecryption.ofVerifiable share.1) (poll.totals (fun v => g' v (tapes v)) j) i share.2).isSome }
      · simp only [hall, guard_false, Option.bind_eq_bind]
        rfl

theorem dealt_partial (B : Backend F E) {spare : Bytes} (bad : Fin c → ℕ) (poll : Poll F E β n o d)
    (ok : (List Entry → F) → PublicKey E → β → Bool)
    (hpoll : ∀ (H : List Entry → F) (K : PublicKey E), ∃ g g' : Fin n → (Fin d → F) → Option β,
      (∀ tapes, poll.ballots (B.withHash H) K tapes = fun v => g v (tapes v)) ∧
      (∀ tapes, poll.ballots ((totalize B spare).withHash H) K tapes = fun v => g' v (tapes v)) ∧
      ∀ v, ∃ σ : Equiv.Perm (Fin d → F), ∀ tape, g v tape = (g' v (σ tape)).filter (ok H K))
    (guess : (List Entry → F) → ThresholdView F E β n o c params.shares → ℚ) (H : List Entry → F) (tape tape' : List F)
    (h : (Dealer.new (B.withHash H).withTape params tape).map Prod.fst =
      ((Dealer.new ((totalize B spare).withHash H).withTape params tape').map Prod.fst).filter fun dealer =>
        (PublicKeySet.validate (B.withHash H) params dealer.publicInfo.1 dealer.publicInfo.2).isSome) :
    fullThresholdRun B params bad poll guess H tape =
      thresholdRun (totalize B spare) params bad poll (thresholdShownIf B params poll.totals ok guess) H tape' := by
  rw [fullThresholdRun_eq, thresholdRun_eq, h]
  cases (Dealer.new ((totalize B spare).withHash H).withTape params tape').map Prod.fst with
  | none => rw [Option.filter_none, Option.elim_none, Option.elim_none]
  | some dealer =>
    rw [Option.elim_some, ← runOf_partial B bad poll ok hpoll]
    cases hv : PublicKeySet.validate (B.withHash H) params dealer.publicInfo.1 dealer.publicInfo.2 with
    | some r =>
      rw [Option.filter_some, if_pos (by rw [hv]; rfl), Option.elim_some]
    | none =>
      have : PublicKeySet.new (B.withHash H) params dealer.publicInfo.1 dealer.publicInfo.2 = none := by
        rw [PublicKeySet.new, hv]
        rfl
      rw [Option.filter_some, if_neg (by rw [hv]; simp), Option.elim_none, fullRunOf, this]

/-- Elections whose ballots exist in both groups. -/
theorem fullThresholdGame_partial (B : Backend F E) {spare : Bytes} (D : Finset (List Entry))
    (H₀ : List Entry → F) (bad : Fin c → ℕ) (poll : Poll F E β n o d)
    (ok : (List Entry → F) → PublicKey E → β → Bool)
    (hpoll : ∀ (H : List Entry → F) (K : PublicKey E), ∃ g g' : Fin n → (Fin d → F) → Option β,
      (∀ tapes, poll.ballots (B.withHash H) K tapes = fun v => g v (tapes v)) ∧
      (∀ tapes, poll.ballots ((totalize B spare).withHash H) K tapes = fun v => g' v (tapes v)) ∧
      ∀ v, ∃ σ : Equiv.Perm (Fin d → F), ∀ tape, g v tape = (g' v (σ tape)).filter (ok H K))
    (guess : (List Entry → F) → ThresholdView F E β n o c params.shares → ℚ) :
    fullThresholdGame B D H₀ params bad poll guess =
      thresholdGame (totalize B spare) D H₀ params bad poll (thresholdShownIf B params poll.totals ok guess) := by
  rw [fullThresholdGame, thresholdGame]
  refine congrArg (meanHash D H₀) (funext fun H => congrArg mean (funext fun cs => ?_))
  obtain ⟨σ, hσ⟩ := dealer_partial (B.withHash H) spare params cs
  refine Eq.trans ?_ (mean_equiv σ _)
  refine congrArg mean (funext fun ns => ?_)
  exact dealt_partial B bad poll ok hpoll guess H _ _ (hσ ns)

end

end ElasticElgamal
