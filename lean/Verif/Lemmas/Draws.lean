import Verif.Spec.Draws
import Verif.Spec.Ring
import Verif.Spec.VotingPrivacy
import Verif.Spec.RingPrivacy
import Verif.Model.Dkg
import Verif.Model.Proofs.Commitment

/-!
# Lemmas: how much randomness is read
-/

set_option autoImplicit false
set_option linter.unusedSectionVars false

namespace ElasticElgamal

open Spec

section
variable {F E : Type} {B : Backend F E} {α β γ δ : Type}

/-- `Draws`, with a property of the returned values. -/
def DrawsTo (B : Backend F E) (d : ℕ) (out : α → B.Rng → γ) (f : B.Rng → Option γ) (P : α → Prop) : Prop :=
  ∃ g : List F → Option α, (∀ rng, f rng = (g (drawScalars B d rng).1).map fun a => out a (drawScalars B d rng).2) ∧
    ∀ xs a, g xs = some a → P a

theorem DrawsTo.draws {d : ℕ} {out : α → B.Rng → γ} {f : B.Rng → Option γ} {P : α → Prop}
    (h : DrawsTo B d out f P) : Draws B d out f :=
  let ⟨g, h, _⟩ := h
  ⟨g, h⟩

theorem Spec.Draws.to {d : ℕ} {out : α → B.Rng → γ} {f : B.Rng → Option γ} (h : Draws B d out f) :
    DrawsTo B d out f fun _ => True :=
  let ⟨g, h⟩ := h
  ⟨g, h, fun _ _ _ => trivial⟩

theorem DrawsTo.mono {d : ℕ} {out : α → B.Rng → γ} {f : B.Rng → Option γ} {P Q : α → Prop}
    (h : DrawsTo B d out f P) (hPQ : ∀ a, P a → Q a) : DrawsTo B d out f Q :=
  let ⟨g, h, hP⟩ := h
  ⟨g, h, fun xs a ha => hPQ a (hP xs a ha)⟩

theorem DrawsTo.cast {d d' : ℕ} {out : α → B.Rng → γ} {f : B.Rng → Option γ} {P : α → Prop}
    (h : DrawsTo B d out f P) (hd : d = d') : DrawsTo B d' out f P := hd ▸ h

theorem DrawsTo.none {d : ℕ} {out : α → B.Rng → γ} {f : B.Rng → Option γ} {P : α → Prop} (h : ∀ rng, f rng = none) :
    DrawsTo B d out f P :=
  ⟨fun _ => .none, fun rng => by simp [h], fun _ _ h => nomatch h⟩

theorem DrawsTo.pure {out : α → B.Rng → γ} {P : α → Prop} (a : α) (ha : P a) :
    DrawsTo B 0 out (fun rng => some (out a rng)) P :=
  ⟨fun _ => some a, fun rng => rfl, fun _ _ h => by rw [← Option.some.inj h]; exact ha⟩

theorem DrawsTo.lift {d : ℕ} {out : α → B.Rng → γ} {P : α → Prop} {o : Option β} {k : β → B.Rng → Option γ}
    (h : ∀ b, o = some b → DrawsTo B d out (k b) P) : DrawsTo B d out (fun rng => o >>= fun b => k b rng) P := by
  cases o with
  | none => exact .none fun _ => rfl
  | some b => exact h b rfl

theorem drawScalars_add (B : Backend F E) : ∀ (m n : ℕ) (rng : B.Rng),
    drawScalars B (m + n) rng =
      ((drawScalars B m rng).1 ++ (drawScalars B n (drawScalars B m rng).2).1,
        (drawScalars B n (drawScalars B m rng).2).2)
  | 0, n, rng => by rw [Nat.zero_add]; rfl
  | m + 1, n, rng => by
    rw [Nat.succ_add]
    simp only [drawScalars, drawScalars_add B m n, List.cons_append]

theorem drawScalars_length (B : Backend F E) : ∀ (n : ℕ) (rng : B.Rng), (drawScalars B n rng).1.length = n
  | 0, _ => rfl
  | n + 1, rng => by
    rw [drawScalars, List.length_cons, drawScalars_length B n]

theorem DrawsTo.bind {d₁ d₂ : ℕ} {out₁ : α → B.Rng → γ} {out₂ : β → B.Rng → δ} {f : B.Rng → Option γ}
    {k : γ → Option δ} {P : α → Prop} {Q : β → Prop} (hf : DrawsTo B d₁ out₁ f P)
    (hk : ∀ a, P a → DrawsTo B d₂ out₂ (fun rng => k (out₁ a rng)) Q) :
    DrawsTo B (d₁ + d₂) out₂ (fun rng => f rng >>= k) Q := by
  obtain ⟨g, hg, hP⟩ := hf
  have : ∀ a, ∃ g : List F → Option β, P a →
      (∀ rng, k (out₁ a rng) = (g (drawScalars B d₂ rng).1).map fun b => out₂ b (drawScalars B d₂ rng).2) ∧
      ∀ xs b, g xs = some b → Q b := fun a => by
    by_cases ha : P a
    · obtain ⟨g, h⟩ := hk a ha
      exact ⟨g, fun _ => h⟩
    · exact ⟨fun _ => .none, fun h => absurd h ha⟩
  choose g₂ hg₂ using this
  refine ⟨fun xs => (g (xs.take d₁)).bind fun a => g₂ a (xs.drop d₁), fun rng => ?_, fun xs b hb => ?_⟩
  · have h1 : (drawScalars B (d₁ + d₂) rng).1.take d₁ = (drawScalars B d₁ rng).1 := by
      rw [drawScalars_add]
      exact List.take_left' (drawScalars_length B d₁ rng)
    have h2 : (drawScalars B (d₁ + d₂) rng).1.drop d₁ = (drawScalars B d₂ (drawScalars B d₁ rng).2).1 := by
      rw [drawScalars_add]
      exact List.drop_left' (drawScalars_length B d₁ rng)
    simp only [hg rng, h1, h2]
    cases ha : g (drawScalars B d₁ rng).1 with
    | none => rfl
    | some a =>
      rw [drawScalars_add]
      exact (hg₂ a (hP _ a ha)).1 _
  · obtain ⟨a, ha, hb⟩ := Option.bind_eq_some_iff.mp hb
    exact (hg₂ a (hP _ a ha)).2 _ b hb

theorem DrawsTo.gen {d : ℕ} {out : α → B.Rng → γ} {P : α → Prop} {f : B.Rng → Option γ} {k : F × B.Rng → Option γ}
    (hf : ∀ rng, f rng = k (B.genScalar rng)) (hk : ∀ x, DrawsTo B d out (fun rng => k (x, rng)) P) :
    DrawsTo B (d + 1) out f P := by
  have : DrawsTo B 1 (fun (x : F) rng => (x, rng)) (fun rng => some (B.genScalar rng)) fun _ => True :=
    ⟨fun xs => xs.head?, fun rng => rfl, fun _ _ _ => trivial⟩
  have h := (this.bind (k := k) fun a _ => hk a).cast (Nat.add_comm 1 d)
  rwa [show f = fun rng => some (B.genScalar rng) >>= k from funext hf]

end

/-- A random scalar is drawn. -/
local macro "draw_scalar " B:term " with " x:ident : tactic => `(tactic| (
  refine DrawsTo.gen (k := ?k) (fun rng => ?hf) ?hk
  case' hf => generalize ($B).genScalar rng = x; rfl
  case' hk => intro $x:ident; dsimp only
  ))

/-- Two values and the generator. -/
def out2 {α β ρ : Type} (p : α × β) (rng : ρ) : α × β × ρ := (p.1, p.2, rng)

/-- Three values and the generator. -/
def out3 {α β γ ρ : Type} (p : α × β × γ) (rng : ρ) : α × β × γ × ρ := (p.1, p.2.1, p.2.2, rng)

/-- An operation that reads random scalars is called. -/
local macro "call_draws " h:term " with " x:ident hx:ident : tactic => `(tactic| (
  refine DrawsTo.bind $h fun $x $hx => ?_
  try dsimp only [withTranscript, out2, out3]))

/-- Everything a builder contains besides the generator. -/
structure BuilderCore (F E : Type) where
  receiver : PublicKey E
  transcript : Transcript
  rings : List (Ring F E)
  ringResponses : List F

/-- The builder with the generator. -/
def BuilderCore.at {F E : Type} {B : Backend F E} (c : BuilderCore F E) (rng : B.Rng) : RingProofBuilder B :=
  { receiver := c.receiver, transcript := c.transcript, rings := c.rings, ringResponses := c.ringResponses, rng }

/-- Number of scalars read when the rings are finalized. -/
def finishDraws {F E : Type} (rings : List (Ring F E)) : ℕ :=
  (rings.map fun r => (r.admissibleValues.take r.valueIndex).length).sum

variable {F E : Type} [Field F] [AddCommGroup E] [Module F E] {B : Backend F E}

theorem logEq_draws (K : PublicKey E) (secret : F) (powers : E × E) (t : Transcript) :
    DrawsTo B 1 withTranscript (fun rng => LogEqualityProof.new B K secret powers t rng) fun _ => True := by
  simp only [LogEqualityProof.new, SecretKey.generate]
  refine .lift fun t _ => .lift fun t _ => ?_
  draw_scalar B with x
  refine .lift fun t _ => .lift fun t _ => ?_
  exact DrawsTo.pure (_, _) trivial

theorem keypair_draws : DrawsTo B 1 Prod.mk (fun rng => Keypair.generate B rng) fun _ => True := by
  simp only [Keypair.generate, SecretKey.generate]
  draw_scalar B with x
  exact .lift fun _ _ => .pure _ trivial

theorem extended_draws (value : E) (K : PublicKey E) :
    DrawsTo B 1 Prod.mk (fun rng => some (ExtendedCiphertext.new B value K rng)) fun _ => True := by
  simp only [ExtendedCiphertext.new, SecretKey.generate]
  draw_scalar B with x
  exact .pure _ trivial

theorem encryptZero_draws (K : PublicKey E) :
    DrawsTo B 2 Prod.mk (fun rng => K.encryptZero B rng) fun _ => True := by
  simp only [PublicKey.encryptZero, SecretKey.generate]
  draw_scalar B with x
  refine .cast (d := 1 + 0) ?_ rfl
  call_draws (logEq_draws _ _ _ _) with p h
  exact .pure (_, _) trivial

theorem decryption_draws (ct : Ciphertext E) (keys : Keypair F E) (t : Transcript) :
    DrawsTo B 1 withTranscript (fun rng => VerifiableDecryption.new B ct keys t rng) fun _ => True := by
  simp only [VerifiableDecryption.new]
  refine .lift fun _ _ => .cast (d := 1 + 0) ?_ rfl
  call_draws (logEq_draws _ _ _ _) with p h
  exact .pure (_, _) trivial

theorem decryptShare_draws (p : ActiveParticipant F E) (ct : Ciphertext E) :
    DrawsTo B 1 Prod.mk (fun rng => p.decryptShare B ct rng) fun _ => True := by
  simp only [ActiveParticipant.decryptShare]
  refine .lift fun _ _ => .lift fun _ _ => .cast (d := 1 + 0) ?_ rfl
  call_draws (logEq_draws _ _ _ _) with p h
  exact .pure (_, _) trivial

theorem commitment_draws (ct : CiphertextWithValue F E) (K : PublicKey E) (blinding : F) (base : E) (t : Transcript) :
    DrawsTo B 3 withTranscript (fun rng => CommitmentEquivalenceProof.new B ct K blinding base t rng)
      fun _ => True := by
  simp only [CommitmentEquivalenceProof.new, SecretKey.generate]
  refine .lift fun t _ => .lift fun t _ => .lift fun t _ => ?_
  draw_scalar B with x
  draw_scalar B with y
  draw_scalar B with z
  exact .lift fun t _ => .lift fun t _ => .lift fun t _ => .pure (_, _) trivial

theorem commitLoop_draws (K : PublicKey E) : ∀ (cts : List (CiphertextWithValue F E)) (s : F) (t : Transcript),
    DrawsTo B (cts.length * 2) out3
      (fun rng => SumOfSquaresProof.commitLoop B K cts s t rng) fun _ => True
  | [], s, t => DrawsTo.pure ([], s, t) trivial
  | ct :: cts, s, t => by
    simp only [SumOfSquaresProof.commitLoop, SecretKey.generate]
    refine DrawsTo.cast (d := cts.length * 2 + 1 + 1) ?_ (by simp [Nat.add_mul])
    refine .lift fun t _ => .lift fun t _ => ?_
    draw_scalar B with x
    refine .lift fun t _ => ?_
    draw_scalar B with y
    refine .lift fun t _ => ?_
    refine .cast (d := cts.length * 2 + 0) ?_ rfl
    call_draws (commitLoop_draws K cts _ _) with p h
    exact DrawsTo.pure (out := out3) (_, _, _) trivial

theorem sumOfSquares_draws (cts : List (CiphertextWithValue F E)) (ct : CiphertextWithValue F E) (K : PublicKey E)
    (t : Transcript) :
    DrawsTo B (cts.length * 2 + 1) withTranscript (fun rng => SumOfSquaresProof.new B cts ct K t rng)
      fun _ => True := by
  simp only [SumOfSquaresProof.new, SecretKey.generate]
  draw_scalar B with x
  refine .cast (d := cts.length * 2 + 0) ?_ rfl
  call_draws (commitLoop_draws K cts _ _) with p h
  exact .lift fun t _ => .lift fun t _ => .lift fun t _ => .lift fun t _ => .pure (_, _) trivial

theorem drawRandomScalars_draws : ∀ (n : ℕ) (t : Transcript),
    DrawsTo B n withTranscript (fun rng => ProofOfPossession.drawRandomScalars B n t rng) fun _ => True
  | 0, t => DrawsTo.pure ([], t) trivial
  | n + 1, t => by
    simp only [ProofOfPossession.drawRandomScalars, SecretKey.generate]
    draw_scalar B with x
    refine .lift fun t _ => .cast (d := n + 0) ?_ rfl
    call_draws (drawRandomScalars_draws n _) with p h
    exact .pure (_, _) trivial

theorem possession_draws (secrets : List F) (keys : List (PublicKey E)) (t : Transcript) :
    DrawsTo B keys.length withTranscript (fun rng => ProofOfPossession.fromKeys B secrets keys t rng)
      fun _ => True := by
  simp only [ProofOfPossession.fromKeys]
  refine .cast (d := keys.length + 0) ?_ rfl
  call_draws (drawRandomScalars_draws _ _) with p h
  exact .pure (_, _) trivial

theorem participantPossession_draws (p : ActiveParticipant F E) :
    DrawsTo B 1 Prod.mk (fun rng => p.proofOfPossession B rng) fun _ => True := by
  simp only [ActiveParticipant.proofOfPossession]
  refine .lift fun _ _ => .cast (d := 1 + 0) ?_ rfl
  call_draws (possession_draws _ [_] _) with p h
  exact .pure _ trivial

theorem generateKeypairs_draws : ∀ n : ℕ,
    DrawsTo B n Prod.mk (fun rng => Dealer.generateKeypairs B n rng) fun keys => keys.length = n
  | 0 => DrawsTo.pure [] rfl
  | n + 1 => by
    simp only [Dealer.generateKeypairs]
    refine DrawsTo.cast (d := 1 + (n + 0)) ?_ (by omega)
    call_draws keypair_draws with key h
    call_draws (generateKeypairs_draws n) with keys h
    exact .pure (key :: keys) (by simp [h])

theorem dealer_draws (params : Params) :
    DrawsTo B (2 * params.threshold) Prod.mk (fun rng => Dealer.new B params rng) fun _ => True := by
  simp only [Dealer.new, ProofOfPossession.new]
  refine DrawsTo.cast (d := params.threshold + (params.threshold + 0)) ?_ (by omega)
  call_draws (generateKeypairs_draws _) with keys h
  refine .cast (d := (keys.map (·.publicKey)).length + 0) ?_ (by simp [h])
  call_draws (possession_draws (keys.map (·.secret)) (keys.map (·.publicKey)) _) with p h
  exact .pure _ trivial

/-! ## Rings -/

theorem newLoop_draws (logBase : E) (ct : Ciphertext E) (t : Transcript) :
    ∀ (values : List E) (i : ℕ) (c : E × E) (responses : List F),
    DrawsTo B values.length out2
      (fun rng => Ring.newLoop B logBase ct t i values c responses rng) fun _ => True
  | [], i, c, responses => DrawsTo.pure (c, responses) trivial
  | v :: values, i, c, responses => by
    unfold Ring.newLoop
    refine .lift fun t _ => .lift fun t _ => ?_
    refine DrawsTo.cast (d := values.length + 1) ?_ (by simp)
    draw_scalar B with x
    exact .lift fun _ _ => newLoop_draws logBase ct _ values _ _ _

theorem ringNew_draws [DecidableEq E] (index : ℕ) (logBase : E) (ct : ExtendedCiphertext F E) (values : List E)
    (valueIndex : ℕ) (t : Transcript) (responses : List F) :
    DrawsTo B (values.drop valueIndex).length Prod.mk
      (fun rng => Ring.new B index logBase ct values valueIndex t responses rng)
      fun r => r.admissibleValues = values ∧ r.valueIndex = valueIndex := by
  simp only [Ring.new, SecretKey.generate]
  refine .lift fun _ _ => .lift fun _ h => ?_
  have h : valueIndex < values.length := by
    by_contra hn
    simp [guard, hn] at h
  refine .lift fun _ _ => .lift fun _ _ => .lift fun _ _ => .lift fun _ _ => ?_
  refine DrawsTo.cast (d := (values.drop (valueIndex + 1)).length + 0 + 1) ?_ (by simp; omega)
  draw_scalar B with x
  refine .cast (d := (values.drop (valueIndex + 1)).length + 0) ?_ rfl
  call_draws (newLoop_draws _ _ _ _ _ _ _) with p h
  exact .pure _ ⟨rfl, rfl⟩

theorem finalizeLoop_draws (logBase : E) (ct : Ciphertext E) (t : Transcript) :
    ∀ (values : List E) (i : ℕ) (c : F) (responses : List F),
    DrawsTo B values.length out2
      (fun rng => Ring.finalizeLoop B logBase ct t i values c responses rng) fun _ => True
  | [], i, c, responses => DrawsTo.pure (c, responses) trivial
  | v :: values, i, c, responses => by
    unfold Ring.finalizeLoop
    refine DrawsTo.cast (d := values.length + 1) ?_ (by simp)
    draw_scalar B with x
    exact .lift fun _ _ => .lift fun _ _ => .lift fun _ _ => finalizeLoop_draws logBase ct t values _ _ _

variable [DecidableEq F]

theorem finalize_draws (r : Ring F E) (logBase : E) (c : F) :
    DrawsTo B (r.admissibleValues.take r.valueIndex).length Prod.mk (fun rng => r.finalize B logBase c rng)
      fun _ => True := by
  simp only [Ring.finalize]
  refine .cast (d := (r.admissibleValues.take r.valueIndex).length + 0) ?_ rfl
  call_draws (finalizeLoop_draws _ _ _ _ _ _ _) with p h
  exact .lift fun _ _ => .lift fun _ _ => .lift fun _ _ => .pure _ trivial

theorem finalizeAll_draws (logBase : E) (c : F) : ∀ rings : List (Ring F E),
    DrawsTo B (finishDraws rings) Prod.mk (fun rng => Ring.finalizeAll B logBase c rings rng) fun _ => True
  | [] => DrawsTo.pure [] trivial
  | r :: rings => by
    simp only [Ring.finalizeAll]
    refine DrawsTo.cast (d := (r.admissibleValues.take r.valueIndex).length + (finishDraws rings + 0)) ?_ ?_
    · call_draws (finalize_draws r logBase c) with p h
      call_draws (finalizeAll_draws logBase c rings) with q h
      exact .pure _ trivial
    · simp [finishDraws]

theorem aggregate_draws (rings : List (Ring F E)) (logBase : E) (t : Transcript) :
    DrawsTo B (finishDraws rings) out3 (fun rng => Ring.aggregate B rings logBase t rng) fun _ => True := by
  simp only [Ring.aggregate]
  refine .lift fun _ _ => .lift fun _ _ => .cast (d := finishDraws rings + 0) ?_ rfl
  call_draws (finalizeAll_draws _ _ _) with p h
  exact DrawsTo.pure (out := out3) (_, _, _) trivial

theorem build_draws (b : BuilderCore F E) :
    DrawsTo B (finishDraws b.rings) out3 (fun rng => (b.at (B := B) rng).build B) fun _ => True := by
  have : ∀ rng : B.Rng, (b.at (B := B) rng).build B = (B.debugAssert (b.ringResponses = []) >>= fun _ =>
      Ring.aggregate B b.rings b.receiver.element b.transcript rng >>= fun o =>
        some (o.1, o.2.1 ++ b.ringResponses, o.2.2.1, o.2.2.2)) := fun _ => rfl
  simp only [this]
  refine .lift fun _ _ => .cast (d := finishDraws b.rings + 0) ?_ rfl
  call_draws (aggregate_draws _ _ _) with p h
  exact DrawsTo.pure (out := out3) (P := fun _ => True) (p.1, p.2.1 ++ b.ringResponses, p.2.2) trivial

variable [DecidableEq E]

theorem addPrecomputed_draws (b : BuilderCore F E) (ct : ExtendedCiphertext F E) (values : List E) (valueIndex : ℕ) :
    DrawsTo B (values.drop valueIndex).length BuilderCore.at
      (fun rng => (b.at (B := B) rng).addPrecomputedValue B ct values valueIndex)
      fun b' => finishDraws b'.rings = finishDraws b.rings + (values.take valueIndex).length := by
  have : ∀ rng : B.Rng, (b.at (B := B) rng).addPrecomputedValue B ct values valueIndex =
      (guard (values.length ≤ b.ringResponses.length) >>= fun _ =>
        Ring.new B b.rings.length b.receiver.element ct values valueIndex b.transcript
          (b.ringResponses.take values.length) rng >>= fun o =>
          some ⟨b.receiver, b.transcript, b.rings ++ [o.1], b.ringResponses.drop values.length, o.2⟩) := fun _ => rfl
  simp only [this]
  refine .lift fun _ _ => .cast (d := (values.drop valueIndex).length + 0) ?_ rfl
  call_draws (ringNew_draws _ _ _ _ _ _ _) with r hr
  refine DrawsTo.pure (out := BuilderCore.at) ⟨b.receiver, b.transcript, b.rings ++ [r], _⟩ ?_
  simp [finishDraws, hr.1, hr.2]

/-- A ciphertext and a builder. -/
def outCt {B : Backend F E} {α : Type} (p : α × BuilderCore F E) (rng : B.Rng) : α × RingProofBuilder B :=
  (p.1, p.2.at rng)

theorem addValue_draws (b : BuilderCore F E) (values : List E) (valueIndex : ℕ) :
    DrawsTo B (1 + (values.drop valueIndex).length) outCt
      (fun rng => (b.at (B := B) rng).addValue B values valueIndex)
      fun p => finishDraws p.2.rings = finishDraws b.rings + (values.take valueIndex).length := by
  simp only [RingProofBuilder.addValue]
  refine .lift fun v _ => ?_
  refine DrawsTo.bind (k := fun o : ExtendedCiphertext F E × B.Rng =>
    ((b.at (B := B) o.2).addPrecomputedValue B o.1 values valueIndex) >>= fun b' => some (o.1, b'))
    (extended_draws v b.receiver) fun ct _ => ?_
  refine .cast (d := (values.drop valueIndex).length + 0) ?_ rfl
  try dsimp only
  call_draws (addPrecomputed_draws (B := B) b ct values valueIndex) with b' h
  exact DrawsTo.pure (out := outCt) (ct, b') h

/-- Number of scalars read when rings are added, and when they are finalized; the rings are given by the index of the
encrypted value and the admissible values. -/
def itemDraws (items : List (ℕ × List E)) : ℕ := (items.map fun p => 1 + (p.2.drop p.1).length).sum

def itemFinish (items : List (ℕ × List E)) : ℕ := (items.map fun p => (p.2.take p.1).length).sum

theorem itemDraws_add (items : List (ℕ × List E)) :
    itemDraws items + itemFinish items = (items.map fun p => 1 + p.2.length).sum := by
  induction items with
  | nil => rfl
  | cons p items ih =>
    simp only [itemDraws, itemFinish, List.map_cons, List.sum_cons] at ih ⊢
    rw [← ih, List.length_drop, List.length_take]
    omega

theorem addChoices_draws (values : List E) : ∀ (choices : List Bool) (b : BuilderCore F E),
    DrawsTo B (itemDraws (choices.map fun flag => (if flag then 1 else 0, values))) outCt
      (fun rng => EncryptedChoice.addChoices B values choices (b.at rng)) fun p =>
      finishDraws p.2.rings = finishDraws b.rings +
        itemFinish (choices.map fun flag => (if flag then 1 else 0, values))
  | [], b => DrawsTo.pure (out := outCt) ([], b) rfl
  | flag :: choices, b => by
    simp only [EncryptedChoice.addChoices]
    refine .cast (d := (1 + (values.drop (if flag then 1 else 0)).length) +
      (itemDraws (choices.map fun flag => (if flag then 1 else 0, values)) + 0)) ?_ rfl
    call_draws (addValue_draws _ _ _) with p hp
    dsimp only [outCt]
    call_draws (addChoices_draws values choices p.2) with q hq
    refine DrawsTo.pure (out := outCt) (p.1 :: q.1, q.2) ?_
    rw [hq, hp, Nat.add_assoc]
    rfl

theorem addValues_draws : ∀ (items : List (ℕ × List E)) (c : ExtendedCiphertext F E) (b : BuilderCore F E),
    DrawsTo B (itemDraws items) (fun (p : List (Ciphertext E) × ExtendedCiphertext F E × BuilderCore F E) rng =>
        (p.1, p.2.1, p.2.2.at rng))
      (fun rng => RangeProof.addValues B items c (b.at rng)) fun p =>
      finishDraws p.2.2.rings = finishDraws b.rings + itemFinish items
  | [], c, b => DrawsTo.pure ([], c, b) rfl
  | item :: items, c, b => by
    simp only [RangeProof.addValues]
    refine .cast (d := (1 + (item.2.drop item.1).length) + (itemDraws items + 0)) ?_ rfl
    call_draws (addValue_draws _ _ _) with p hp
    dsimp only [outCt]
    call_draws (addValues_draws items _ p.2) with q hq
    refine DrawsTo.pure (p.1.inner :: q.1, q.2.1, q.2.2) ?_
    rw [hq, hp, Nat.add_assoc]
    rfl

theorem builder_new (K : PublicKey E) (responses : List F) (t : Transcript) (rng : B.Rng) :
    RingProofBuilder.new B K responses t rng =
      BuilderCore.at ⟨K, RingProof.initializeTranscript t K, [], responses⟩ rng := rfl

theorem sumProof_draws (kind : ChoiceKind) (ct : CiphertextWithValue F E ℕ) (K : PublicKey E) :
    DrawsTo B (sumProofs kind) Prod.mk (fun rng => SumProof.prove B kind ct K rng) fun _ => True := by
  cases kind with
  | single =>
    simp only [SumProof.prove]
    refine .cast (d := 1 + 0) ?_ rfl
    call_draws (logEq_draws _ _ _ _) with r h
    exact .pure _ trivial
  | multi => exact .pure _ trivial

theorem choice_draws {kind : ChoiceKind} (params : ChoiceParams E kind) (choices : List Bool) :
    DrawsTo B (choiceDraws params.optionsCount kind) Prod.mk (fun rng => EncryptedChoice.new B params choices rng)
      fun _ => True := by
  simp only [EncryptedChoice.new, builder_new]
  refine .lift fun _ _ => .lift fun _ h => ?_
  have h : choices.length = params.optionsCount := by
    by_contra hn
    simp [guard, hn] at h
  refine .cast (d := itemDraws (choices.map fun flag => (if flag then 1 else 0, [0, B.gen])) +
    (itemFinish (choices.map fun flag => (if flag then 1 else 0, [0, B.gen])) + (sumProofs kind + 0))) ?_ ?_
  · call_draws (addChoices_draws _ _ _) with p hp
    dsimp only [outCt]
    call_draws ((build_draws _).cast (hp.trans (by simp [finishDraws]))) with q hq
    refine .lift fun _ _ => ?_
    call_draws (sumProof_draws kind _ _) with r hr
    exact .pure _ trivial
  · rw [← Nat.add_assoc, itemDraws_add, choiceDraws, ← h, Nat.add_zero, List.map_map]
    simp [Function.comp_def]
    omega

theorem encryptBool_draws (K : PublicKey E) (value : Bool) :
    DrawsTo B 3 Prod.mk (fun rng => K.encryptBool B value rng) fun _ => True := by
  simp only [PublicKey.encryptBool, builder_new]
  refine .cast (d := (1 + (([0, B.gen] : List E).drop (if value then 1 else 0)).length) +
    ((([0, B.gen] : List E).take (if value then 1 else 0)).length + 0)) ?_ (by cases value <;> rfl)
  call_draws (addValue_draws _ _ _) with p hp
  dsimp only [outCt]
  call_draws ((build_draws _).cast (hp.trans (by simp [finishDraws]))) with q hq
  exact .pure _ trivial

/-! ## Any rings -/

/-- Number of scalars read when a ring is added. -/
def stepDraws (s : RingStep F E) : ℕ :=
  (match s.precomputed with | none => 1 | some _ => 0) + (s.values.drop s.index).length

theorem ringStep_draws (s : RingStep F E) (b : BuilderCore F E) :
    DrawsTo B (stepDraws s) outCt
      (fun rng => runRingStep B s (b.at rng))
      fun p => finishDraws p.2.rings = finishDraws b.rings + (s.values.take s.index).length := by
  obtain ⟨pre, values, index⟩ := s
  cases pre with
  | none => exact addValue_draws b values index
  | some ct =>
    have : ∀ rng : B.Rng, runRingStep B ⟨some ct, values, index⟩ (b.at rng) =
        (b.at (B := B) rng).addPrecomputedValue B ct values index >>= fun b => some (ct, b) := fun rng => by
      simp only [runRingStep, Option.map_eq_bind]
      rfl
    simp only [this]
    refine .cast (d := (values.drop index).length + 0) ?_ (by simp [stepDraws])
    call_draws (addPrecomputed_draws (B := B) b ct values index) with b' h
    exact DrawsTo.pure (out := outCt) (ct, b') h

theorem ringSteps_draws : ∀ (steps : List (RingStep F E)) (b : BuilderCore F E),
    DrawsTo B (steps.map stepDraws).sum outCt
      (fun rng => runRingSteps B steps (b.at rng))
      fun p => finishDraws p.2.rings = finishDraws b.rings + (steps.map fun s => (s.values.take s.index).length).sum
  | [], b => DrawsTo.pure (out := outCt) ([], b) rfl
  | s :: steps, b => by
    simp only [runRingSteps]
    refine .cast (d := stepDraws s + ((steps.map stepDraws).sum + 0)) ?_ (by simp)
    call_draws (ringStep_draws s b) with p hp
    dsimp only [outCt]
    call_draws (ringSteps_draws steps p.2) with q hq
    refine DrawsTo.pure (out := outCt) (p.1.inner :: q.1, q.2) ?_
    rw [hq, hp, Nat.add_assoc, List.map_cons, List.sum_cons]

theorem rings_draws (K : PublicKey E) (rings : List (RingInput F E)) (t : Transcript) :
    DrawsTo B (rings.map (·.draws)).sum withTranscript (fun rng => proveRings B K rings t rng) fun _ => True := by
  simp only [proveRings, builder_new]
  refine .cast (d := ((rings.map (·.step)).map stepDraws).sum +
    (((rings.map (·.step)).map fun s => (s.values.take s.index).length).sum + 0)) ?_ ?_
  · call_draws (ringSteps_draws _ _) with p hp
    dsimp only [outCt]
    call_draws ((build_draws _).cast (hp.trans (by simp [finishDraws]))) with q hq
    exact .pure (_, _) trivial
  · rw [Nat.add_zero, ← List.sum_map_add, List.map_map]
    congr 1
    refine List.map_congr_left fun r _ => ?_
    obtain ⟨ct, values, index, fresh⟩ := r
    cases fresh <;> simp [RingInput.step, RingInput.draws, stepDraws] <;> omega

/-! ## Ranges -/

theorem decomposeLoop_length {dbg : Bool} : ∀ {rings : List RingSpec} {v : ℕ} {out : List ℕ × ℕ},
    RangeDecomposition.decomposeLoop dbg rings v = some out → out.1.length = rings.length
  | [], v, out, h => by
    rw [RangeDecomposition.decomposeLoop, Option.some.injEq] at h
    subst h
    rfl
  | spec :: rings, v, out, h => by
    simp only [RangeDecomposition.decomposeLoop, Option.bind_eq_bind, Option.bind_eq_some_iff, Option.pure_def,
      Option.some.injEq] at h
    obtain ⟨_, _, _, _, _, _, _, _, p, hp, rfl⟩ := h
    simp [decomposeLoop_length hp]

theorem decompose_length {dbg : Bool} {range : PreparedRange E} {v : ℕ} {idx : List ℕ}
    (h : range.decompose dbg v = some idx) : idx.length = range.inner.rings.length := by
  simp only [PreparedRange.decompose, RangeDecomposition.decompose, Option.bind_eq_bind, Option.bind_eq_some_iff,
    Option.pure_def, Option.some.injEq] at h
  obtain ⟨_, _, _, _, p, hp, _, _, rfl⟩ := h
  exact decomposeLoop_length hp

theorem mapM_lengths {α β : Type} {f : α → Option (List β)} {size : α → ℕ}
    (hf : ∀ a l, f a = some l → l.length = size a) : ∀ {as : List α} {ls : List (List β)},
    as.mapM f = some ls → ls.map List.length = as.map size
  | [], ls, h => by
    rw [List.mapM_nil, Option.pure_def, Option.some.injEq] at h
    subst h
    rfl
  | a :: as, ls, h => by
    simp only [List.mapM_cons, Option.bind_eq_bind, Option.bind_eq_some_iff, Option.pure_def, Option.some.injEq] at h
    obtain ⟨l, hl, ls', h', rfl⟩ := h
    simp [hf a l hl, mapM_lengths hf h']

theorem prepared_lengths {d : RangeDecomposition} {range : PreparedRange E} (h : PreparedRange.new B d = some range) :
    range.admissibleValues.map List.length = range.inner.rings.map (·.size) := by
  simp only [PreparedRange.new, Option.bind_eq_bind, Option.bind_eq_some_iff, Option.pure_def, Option.some.injEq] at h
  obtain ⟨values, hv, rfl⟩ := h
  refine mapM_lengths (fun spec l hl => ?_) hv
  have : ∀ (is : List ℕ) (l : List E), is.mapM (fun i => (mulU64 B.debug i spec.step).bind fun value =>
      some (B.mulGen (value : F))) = some l → l.length = is.length := by
    intro is
    induction is with
    | nil => simp
    | cons i is ih =>
      intro l h
      simp only [List.mapM_cons, Option.bind_eq_bind, Option.bind_eq_some_iff, Option.pure_def,
        Option.some.injEq] at h
      obtain ⟨_, _, l', h', rfl⟩ := h
      simp [ih l' h']
  simpa using this _ l hl

theorem fromCiphertext_draws {d : RangeDecomposition} {range : PreparedRange E} (h : PreparedRange.new B d = some range)
    (K : PublicKey E) (ct : CiphertextWithValue F E ℕ) (t : Transcript) :
    DrawsTo B (rangeDraws range - 1) withTranscript (fun rng => RangeProof.fromCiphertext B K range ct t rng)
      fun _ => True := by
  simp only [RangeProof.fromCiphertext, builder_new]
  refine .lift fun idx hidx => .lift fun _ _ => .lift fun _ _ => .lift fun _ hne => ?_
  have hne : idx ≠ [] := by
    by_contra hn
    simp [guard, hn] at hne
  have hl : idx.length = range.admissibleValues.length := by
    have := congrArg List.length (prepared_lengths h)
    simp only [List.length_map] at this
    rw [decompose_length hidx, this]
  have hsum : ((idx.zip range.admissibleValues).map fun p => 1 + p.2.length).sum = rangeDraws range := by
    have : (idx.zip range.admissibleValues).map (fun p => 1 + p.2.length) =
        (range.admissibleValues.map List.length).map (1 + ·) := by
      conv_rhs => rw [← List.map_snd_zip (l₁ := idx) (l₂ := range.admissibleValues) hl.ge]
      simp only [List.map_map, Function.comp_def]
    rw [this, prepared_lengths h]
    simp [rangeDraws, rangeRings, rangeItems, Function.comp_def, List.sum_map_add]
  have hdrop : ∃ item, (idx.zip range.admissibleValues).drop (idx.length - 1) = [item] := by
    refine List.length_eq_one_iff.mp ?_
    have := List.length_pos_iff.mpr hne
    simp [hl]
    omega
  obtain ⟨item, hitem⟩ := hdrop
  rw [hitem]
  have hsplit := (List.take_append_drop (idx.length - 1) (idx.zip range.admissibleValues)).symm
  rw [hitem] at hsplit
  set items := (idx.zip range.admissibleValues).take (idx.length - 1)
  rw [hsplit, List.map_append, List.sum_append, List.map_singleton, List.sum_singleton, ← itemDraws_add] at hsum
  refine .cast (d := itemDraws items + ((item.2.drop item.1).length +
    ((itemFinish items + (item.2.take item.1).length) + 0))) ?_ ?_
  · call_draws (addValues_draws _ _ _) with p hp
    refine .lift fun a ha => ?_
    rw [List.head?_cons, Option.some.injEq] at ha
    subst ha
    call_draws (addPrecomputed_draws _ _ _ _) with b hb
    call_draws ((build_draws _).cast (hb.trans (by rw [hp]; simp [finishDraws]))) with q hq
    exact .pure (_, _) trivial
  · rw [List.length_drop, List.length_take]
    omega

theorem range_draws {d : RangeDecomposition} {range : PreparedRange E} (h : PreparedRange.new B d = some range)
    (hd : d.rings ≠ []) (K : PublicKey E) (value : ℕ) (t : Transcript) :
    DrawsTo B (rangeDraws range) withTranscript (fun rng => RangeProof.new B K range value t rng) fun _ => True := by
  have h1 : 1 ≤ rangeDraws range := by
    have : range.inner = d := by
      simp only [PreparedRange.new, Option.bind_eq_bind, Option.bind_eq_some_iff, Option.pure_def,
        Option.some.injEq] at h
      obtain ⟨_, _, rfl⟩ := h
      rfl
    have := List.length_pos_iff.mpr (this ▸ hd)
    rw [rangeDraws, rangeRings]
    omega
  simp only [RangeProof.new, CiphertextWithValue.newU64, ExtendedCiphertext.new, SecretKey.generate]
  refine .cast (d := rangeDraws range - 1 + 0 + 1) ?_ (by omega)
  draw_scalar B with x
  refine .cast (d := rangeDraws range - 1 + 0) ?_ rfl
  call_draws (fromCiphertext_draws h _ _ _) with p hp
  exact .pure (_, _) trivial

theorem encryptRange_draws {d : RangeDecomposition} {range : PreparedRange E} (h : PreparedRange.new B d = some range)
    (hd : d.rings ≠ []) (K : PublicKey E) (value : ℕ) :
    DrawsTo B (rangeDraws range) Prod.mk (fun rng => K.encryptRange B range value rng) fun _ => True := by
  simp only [PublicKey.encryptRange]
  refine .cast (d := rangeDraws range + 0) ?_ rfl
  call_draws (range_draws h hd _ _ _) with p hp
  exact .pure _ trivial

/-! ## Quadratic voting -/

theorem encryptVotes_draws {d : RangeDecomposition} {range : PreparedRange E} (h : PreparedRange.new B d = some range)
    (hd : d.rings ≠ []) (K : PublicKey E) : ∀ votes : List ℕ,
    DrawsTo B (votes.length * rangeDraws range) Prod.mk
      (fun rng => QuadraticVotingBallot.encryptVotes B K range votes rng) fun out => out.length = votes.length
  | [] => .cast (d := 0) (DrawsTo.pure [] rfl) (by simp)
  | v :: votes => by
    simp only [QuadraticVotingBallot.encryptVotes]
    refine .cast (d := rangeDraws range + (votes.length * rangeDraws range + 0)) ?_ ?_
    · call_draws (range_draws h hd _ _ _) with p hp
      call_draws (encryptVotes_draws h hd K votes) with q hq
      exact DrawsTo.pure (out := Prod.mk) (_ :: q) (by simp [hq])
    · rw [List.length_cons, Nat.add_mul]
      omega

theorem voting_draws {params : QuadraticVotingParams E} {d₁ d₂ : RangeDecomposition}
    (h₁ : PreparedRange.new B d₁ = some params.voteCountRange) (h₂ : PreparedRange.new B d₂ = some params.creditRange)
    (hd₁ : d₁.rings ≠ []) (hd₂ : d₂.rings ≠ []) (votes : List ℕ) :
    DrawsTo B (ballotDraws params params.optionsCount) Prod.mk
      (fun rng => QuadraticVotingBallot.new B params votes rng) fun _ => True := by
  simp only [QuadraticVotingBallot.new]
  refine .lift fun _ h => ?_
  have h : votes.length = params.optionsCount := by
    by_contra hn
    simp [guard, hn] at h
  refine .lift fun credit _ => ?_
  rw [ballotDraws, ← h]
  call_draws (encryptVotes_draws h₁ hd₁ _ _) with p hp
  call_draws (range_draws h₂ hd₂ _ _ _) with q hq
  refine .cast (d := (p.map Prod.fst).length * 2 + 1 + 0) ?_ (by simp [hp])
  call_draws (sumOfSquares_draws _ _ _ _) with r hr
  exact .pure _ trivial

end ElasticElgamal
