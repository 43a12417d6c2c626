import Verif.Lemmas.Partial
import Verif.Lemmas.TallyPrivacy
import Verif.Spec.PartialPrivacy

/-!
# Lemmas: privacy games in groups that cannot encode all elements
-/

set_option autoImplicit false
set_option linter.unusedSectionVars false

namespace ElasticElgamal

open Spec

variable {F E : Type} [Field F] [Fintype F] [AddCommGroup E] [Module F E] [DecidableEq F] [DecidableEq E]

/-- Games that begin with the generation of a key. -/
theorem key_partial (B : Backend F E) (spare : Bytes) (a b : F → ℚ) (f g : Keypair F E → ℚ)
    (ha : ∀ k, Keypair.generate B.withTape [k] = none → a k = 0)
    (haf : ∀ k kp r, Keypair.generate B.withTape [k] = some (kp, r) → a k = f kp)
    (hbg : ∀ k kp r, Keypair.generate (totalize B spare).withTape [k] = some (kp, r) → b k = g kp)
    (h : ∀ k K, K.element = k • B.gen → keyExists B K = true → f ⟨k, K⟩ = g ⟨k, K⟩)
    (h0 : ∀ k K, keyExists B K = false → g ⟨k, K⟩ = 0) : mean a = mean b := by
  congr 1
  funext k
  rw [hbg k _ _ (generate_tape (totalize B spare) (totalize_total B spare) k).1]
  show _ = g ⟨k, ⟨(some ((B.serElem (k • B.gen)).getD spare)).getD [], k • B.gen⟩⟩
  cases he : B.serElem (k • B.gen) with
  | none =>
    have : Keypair.generate B.withTape [k] = none := by
      have : PublicKey.ofSecret B.withTape k = none := by
        simp only [PublicKey.ofSecret, PublicKey.fromElement]
        show (B.serElem (k • B.gen)).bind _ = none
        rw [he]
        rfl
      simp [Keypair.generate, SecretKey.generate, this]
    rw [ha k this, h0]
    simp [keyExists, he]
  | some b =>
    have : Keypair.generate B.withTape [k] = some (⟨k, ⟨b, k • B.gen⟩⟩, []) := by
      have : PublicKey.ofSecret B.withTape k = some ⟨b, k • B.gen⟩ := by
        simp only [PublicKey.ofSecret, PublicKey.fromElement]
        show (B.serElem (k • B.gen)).bind _ = _
        rw [he]
        rfl
      simp [Keypair.generate, SecretKey.generate, this]
    rw [haf k _ _ this]
    refine h k ⟨b, k • B.gen⟩ rfl ?_
    simp [keyExists, he]

/-- A mean over random numbers of objects that exist in both groups. -/
theorem mean_partial {T β : Type} [Fintype T] {g g' : T → Option β} {ok : β → Bool}
    (h : ∃ σ : Equiv.Perm T, ∀ t, g t = (g' (σ t)).filter ok) (f : Option β → ℚ) :
    (mean fun t => f (g t)) = mean fun t => f ((g' t).filter ok) := by
  obtain ⟨σ, hσ⟩ := h
  simp only [hσ]
  exact mean_equiv σ fun t => f ((g' t).filter ok)

theorem means_partial {T β : Type} [Fintype T] {n : ℕ} {g g' : Fin n → T → Option β} {ok : β → Bool}
    (h : ∀ v, ∃ σ : Equiv.Perm T, ∀ t, g v t = (g' v (σ t)).filter ok) (f : (Fin n → Option β) → ℚ) :
    (mean fun ts : Fin n → T => f fun v => g v (ts v)) = mean fun ts : Fin n → T => f fun v => (g' v (ts v)).filter ok := by
  choose σ hσ using h
  simp only [hσ]
  exact mean_equiv (Equiv.piCongrRight σ) fun ts : Fin n → T => f fun v => (g' v (ts v)).filter ok

theorem choiceGame_partial (B : Backend F E) (hB : B.Lawful) {spare : Bytes} (hs : SpareEncoding B spare)
    (D : Finset (List Entry)) (H₀ : List Entry → F) {o : ℕ} (ho : 0 < o) {kind : ChoiceKind}
    (votes : PublicKey E → Fin o → Bool) (hone : ∀ K, kind = .single → (List.ofFn (votes K)).count true = 1)
    (guess : (List Entry → F) → PublicKey E → Option (EncryptedChoice F E kind) → ℚ) :
    choiceGame B D H₀ kind votes guess =
      choiceGame (totalize B spare) D H₀ kind votes (shownIf B (canVerify B o) guess) := by
  rw [choiceGame, choiceGame]
  refine key_partial B spare _ _ _ _ (fun k h => by simp only [h]) (fun k kp r h => by simp only [h]; rfl)
    (fun k kp r h => by simp only [h]; rfl) (fun k K hk hK => ?_) fun k K hK => ?_
  · refine congrArg (meanHash D H₀) (funext fun H => ?_)
    simp only [shownIf, hK, if_true]
    exact mean_partial (choice_partial (B.withHash H) (hB.withHash H) (spare := spare) hs ho.ne' K (votes K) (hone K)) _
  · simp only [shownIf, hK]
    simp [mean_const, meanHash_const]

theorem choicesGame_partial (B : Backend F E) (hB : B.Lawful) {spare : Bytes} (hs : SpareEncoding B spare)
    (D : Finset (List Entry)) (H₀ : List Entry → F) {n o : ℕ} (ho : 0 < o) {kind : ChoiceKind}
    (votes : PublicKey E → Fin n → Fin o → Bool) (hone : ∀ K v, kind = .single → (List.ofFn (votes K v)).count true = 1)
    (guess : (List Entry → F) → PublicKey E → (Fin n → Option (EncryptedChoice F E kind)) → ℚ) :
    choicesGame B D H₀ kind votes guess =
      choicesGame (totalize B spare) D H₀ kind votes (allShownIf B (canVerify B o) guess) := by
  rw [choicesGame, choicesGame]
  refine key_partial B spare _ _ _ _ (fun k h => by simp only [h]) (fun k kp r h => by simp only [h]; rfl)
    (fun k kp r h => by simp only [h]; rfl) (fun k K hk hK => ?_) fun k K hK => ?_
  · refine congrArg (meanHash D H₀) (funext fun H => ?_)
    simp only [allShownIf, hK, if_true]
    exact means_partial (g := fun v (tape : Fin (choiceDraws o kind) → F) => (EncryptedChoice.new (B.withHash H).withTape
        ⟨o, K⟩ (List.ofFn (votes K v)) (List.ofFn tape)).map Prod.fst)
      (g' := fun v (tape : Fin (choiceDraws o kind) → F) => (EncryptedChoice.new ((totalize B spare).withHash H).withTape
        ⟨o, K⟩ (List.ofFn (votes K v)) (List.ofFn tape)).map Prod.fst)
      (fun v => choice_partial (B.withHash H) (hB.withHash H) (spare := spare) hs ho.ne' K (votes K v) (hone K v)) _
  · simp only [allShownIf, hK]
    simp [mean_const, meanHash_const]

/-! ## Decryptions -/

theorem totalize_decryption {B : Backend F E} {spare : Bytes} {d : CandidateDecryption E} {ct : Ciphertext E}
    {K : PublicKey E} {proof : LogEqualityProof F} {t : Transcript} {out}
    (h : d.verify B ct K proof t = some out) : d.verify (totalize B spare) ct K proof t = some out := by
  simp only [CandidateDecryption.verify, PublicKey.fromElement, Option.bind_eq_bind, Option.bind_eq_some_iff] at h ⊢
  obtain ⟨key, ⟨b, hb, h1⟩, h⟩ := h
  obtain ⟨r, hr, h⟩ := h
  exact ⟨key, ⟨b, totalize_ser hb, h1⟩, r, totalize_logEq hr, h⟩

/-- What decryptions look like. -/
theorem decryption_output (B : Backend F E) (K : PublicKey E) (k : F) (hk : K.element = k • B.gen)
    (ct : Ciphertext E) (t : Transcript) (x : F) (d : VerifiableDecryption E × LogEqualityProof F)
    (h : (VerifiableDecryption.new B.withTape ct ⟨k, K⟩ t [x]).map Prod.fst = some d) :
    (∃ t', (CandidateDecryption.ofVerifiable d.1).verify B ct K d.2 t = some (.ok d.1, t')) ∧ d.1 = ⟨k • ct.random⟩ := by
  obtain ⟨⟨⟨d, p⟩, t', rest⟩, hnew, rfl⟩ := Option.map_eq_some_iff.mp h
  refine ⟨⟨t', (C08_decryption_complete B.withTape ct ⟨k, K⟩ hk t t' _ _ d p hnew).1⟩, ?_⟩
  simp only [VerifiableDecryption.new, Option.bind_eq_bind, Option.bind_eq_some_iff, Option.pure_def,
    Option.some.injEq, Prod.mk.injEq, Prod.exists] at hnew
  obtain ⟨-, -, -, -, -, -, ⟨rfl, -⟩, -, -⟩ := hnew
  rfl

theorem decryption_input (B : Backend F E) (K : PublicKey E) (k : F) (hk : K.element = k • B.gen)
    (ct : Ciphertext E) (t t' : Transcript) (p : LogEqualityProof F)
    (h : (CandidateDecryption.ofVerifiable ⟨k • ct.random⟩).verify B ct K p t = some (.ok ⟨k • ct.random⟩, t')) :
    ∃! x : F, (VerifiableDecryption.new B.withTape ct ⟨k, K⟩ t [x]).map Prod.fst = some (⟨k • ct.random⟩, p) := by
  simp only [CandidateDecryption.verify, CandidateDecryption.ofVerifiable, Option.bind_eq_bind, Option.bind_eq_some_iff,
    Option.pure_def, Option.some.injEq, Prod.mk.injEq, Prod.exists] at h
  obtain ⟨lb, hlb, res, t1, hv, hres, rfl⟩ := h
  have hr : res = .ok () := by
    cases res with
    | error e => cases hres
    | ok u => rfl
  subst hr
  have hel : lb.element = ct.random := by
    simp only [PublicKey.fromElement, Option.bind_eq_bind, Option.bind_eq_some_iff, Option.pure_def,
      Option.some.injEq] at hlb
    obtain ⟨b, -, rfl⟩ := hlb
    rfl
  rw [hk, ← hel] at hv
  obtain ⟨x, hx, hu⟩ := C51_log_eq_zk B lb k p _ t1 hv
  have hlb' : PublicKey.fromElement B.withTape ct.random = some lb := hlb
  have hnew : ∀ x, (VerifiableDecryption.new B.withTape ct ⟨k, K⟩ t [x]).map Prod.fst =
      (LogEqualityProof.new B.withTape lb k (k • B.gen, k • lb.element)
        (t.startProof "decryption_with_custom_key") [x]).map fun r => (⟨k • ct.random⟩, r.1) := by
    intro x
    simp only [VerifiableDecryption.new, hlb', hk, hel, Option.bind_eq_bind, Option.bind_some, Option.pure_def]
    cases LogEqualityProof.new B.withTape lb k (k • B.gen, k • ct.random)
        (t.startProof "decryption_with_custom_key") [x] <;> rfl
  have hx' : LogEqualityProof.new B.withTape lb k (k • B.gen, k • lb.element)
      (t.startProof "decryption_with_custom_key") [x] = some (p, t1, []) := hx
  refine ⟨x, by simp only [hnew, hx', Option.map_some], ?_⟩
  intro y hy
  simp only [hnew, Option.map_eq_some_iff, Prod.mk.injEq, true_and, Prod.exists] at hy
  obtain ⟨p', t2, rest, hy, rfl⟩ := hy
  obtain ⟨-, -, -, -, -, -, -, -, -, -, e1, -⟩ := LogEqualityProof.new_eq_some.mp hx'
  obtain ⟨-, -, -, -, -, -, -, -, -, -, e2, -⟩ := LogEqualityProof.new_eq_some.mp hy
  rw [e1] at e2
  simpa using e2.symm

theorem decryption_partial (B : Backend F E) (spare : Bytes) (K : PublicKey E) (k : F) (hk : K.element = k • B.gen)
    (ct : Ciphertext E) (t : Transcript) :
    ∃ σ : Equiv.Perm F, ∀ x, (VerifiableDecryption.new B.withTape ct ⟨k, K⟩ t [x]).map Prod.fst =
      ((VerifiableDecryption.new (totalize B spare).withTape ct ⟨k, K⟩ t [σ x]).map Prod.fst).filter fun d =>
        ((CandidateDecryption.ofVerifiable d.1).verify B ct K d.2 t).isSome := by
  refine exists_perm_filter (fun x => (VerifiableDecryption.new B.withTape ct ⟨k, K⟩ t [x]).map Prod.fst)
    (fun x => (VerifiableDecryption.new (totalize B spare).withTape ct ⟨k, K⟩ t [x]).map Prod.fst) _ ?_ ?_ ?_ ?_ ?_
  · intro x d h
    obtain ⟨⟨t', hv⟩, -⟩ := decryption_output B K k hk ct t x d h
    rw [hv]
    rfl
  · rintro x y ⟨d, p⟩ hx hy
    obtain ⟨⟨t', hv⟩, hd⟩ := decryption_output B K k hk ct t x _ hx
    cases hd
    exact (decryption_input B K k hk ct t t' p hv).unique hx hy
  · rintro x y ⟨d, p⟩ hx hy
    obtain ⟨⟨t', hv⟩, hd⟩ := decryption_output (totalize B spare) K k hk ct t x _ hx
    cases hd
    exact (decryption_input (totalize B spare) K k hk ct t t' p hv).unique hx hy
  · rintro x ⟨d, p⟩ h
    obtain ⟨⟨t', hv⟩, hd⟩ := decryption_output B K k hk ct t x _ h
    cases hd
    exact (decryption_input (totalize B spare) K k hk ct t t' p (totalize_decryption hv)).exists
  · rintro x ⟨d, p⟩ h hA
    obtain ⟨⟨t', hv⟩, hd⟩ := decryption_output (totalize B spare) K k hk ct t x _ h
    cases hd
    obtain ⟨out, hout⟩ := Option.isSome_iff_exists.mp hA
    have e := totalize_decryption (spare := spare) hout
    rw [hv] at e
    rw [← Option.some.inj e] at hout
    exact (decryption_input B K k hk ct t t' p hout).exists

/-- Elections whose ballots exist in both groups. -/
theorem fullElectionGame_partial (B : Backend F E) {spare : Bytes} (D : Finset (List Entry)) (H₀ : List Entry → F)
    {β : Type} {n o d : ℕ} (t : Fin o → Transcript) (poll : Poll F E β n o d)
    (ok : (List Entry → F) → PublicKey E → β → Bool)
    (hpoll : ∀ (H : List Entry → F) (K : PublicKey E), ∃ g g' : Fin n → (Fin d → F) → Option β,
      (∀ tapes, poll.ballots (B.withHash H) K tapes = fun v => g v (tapes v)) ∧
      (∀ tapes, poll.ballots ((totalize B spare).withHash H) K tapes = fun v => g' v (tapes v)) ∧
      ∀ v, ∃ σ : Equiv.Perm (Fin d → F), ∀ tape, g v tape = (g' v (σ tape)).filter (ok H K))
    (guess : (List Entry → F) → PublicKey E → (Fin n → Option β) →
      (Fin o → Option (VerifiableDecryption E × LogEqualityProof F)) → ℚ) :
    fullElectionGame B D H₀ t poll guess =
      electionGame (totalize B spare) D H₀ t poll (resultsShownIf B t poll.totals ok guess) := by
  rw [fullElectionGame, electionGame]
  refine key_partial B spare _ _ _ _ (fun k h => by simp only [h]) (fun k kp r h => by simp only [h]; rfl)
    (fun k kp r h => by simp only [h]; rfl) (fun k K hk hK => ?_) fun k K hK => ?_
  · refine congrArg (meanHash D H₀) (funext fun H => ?_)
    obtain ⟨g, g', hg, hg', hσ⟩ := hpoll H K
    simp only [hg, hg', resultsShownIf, hK, if_true]
    rw [means_partial hσ fun ballots => if ∀ v, (ballots v).isSome then
        mean fun xs : Fin o → F => guess H K ballots fun j =>
          (VerifiableDecryption.new (B.withHash H).withTape (poll.totals ballots j) ⟨k, K⟩ (t j) [xs j]).map Prod.fst
      else guess H K ballots fun _ => none]
    refine congrArg mean (funext fun tapes => ?_)
    by_cases hall : ∀ v, ((g' v (tapes v)).filter (ok H K)).isSome
    · simp only [hall, implies_true, if_true]
      have heq : (fun v => (g' v (tapes v)).filter (ok H K)) = fun v => g' v (tapes v) := by
        funext v
        obtain ⟨x, hx⟩ := Option.isSome_iff_exists.mp (hall v)
        rw [hx, (Option.filter_eq_some_iff.mp hx).1]
      rw [heq]
      have hdec := fun j => decryption_partial (B.withHash H) spare K k hk (poll.totals (fun v => g' v (tapes v)) j) (t j)
      choose σ hσ using hdec
      simp only [hσ]
      exact mean_equiv (Equiv.piCongrRight σ) fun xs : Fin o → F => guess H K (fun v => g' v (tapes v)) fun j =>
        ((VerifiableDecryption.new (totalize (B.withHash H) spare).withTape (poll.totals (fun v => g' v (tapes v)) j)
          ⟨k, K⟩ (t j) [xs j]).map Prod.fst).filter
            (canVerifyDecryption B (t j) H K (poll.totals (fun v => g' v (tapes v)) j))
    · simp only [hall, if_false, mean_const]
  · simp only [resultsShownIf, hK]
    simp [mean_const, meanHash_const]

end ElasticElgamal
