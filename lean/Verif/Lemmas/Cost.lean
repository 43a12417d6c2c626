import Verif.Lemmas.CostVerify
import Verif.Lemmas.LeakageRings
import Verif.Lemmas.Chunks
import Verif.Lemmas.SumOfSquares

/-!
# Counting products of scalars and group elements
-/

set_option autoImplicit false
set_option linter.unusedSectionVars false

namespace ElasticElgamal

open Traced Spec

variable {F E : Type}

theorem productCount_append (a b : List (Op F E)) : productCount (a ++ b) = productCount a + productCount b := by
  simp [productCount]

namespace Traced
variable {α β : Type}

/-- At most `n` products; exactly `n` if there is no panic. -/
def Uses (x : Traced F E α) (n : ℕ) : Prop :=
  productCount x.ops ≤ n ∧ ∀ a, x.val = some a → productCount x.ops = n

theorem ops_bind_some {x : Traced F E α} {f : α → Traced F E β} {a : α} (h : x.val = some a) :
    (x >>= f).ops = x.ops ++ (f a).ops := by
  show (Traced.bind x f).ops = _
  unfold Traced.bind
  rw [h]

theorem ops_bind_none {x : Traced F E α} {f : α → Traced F E β} (h : x.val = none) : (x >>= f).ops = x.ops := by
  show (Traced.bind x f).ops = _
  unfold Traced.bind
  rw [h]

theorem Uses.bind {x : Traced F E α} {f : α → Traced F E β} {n m : ℕ} (hx : Uses x n)
    (hf : ∀ a, x.val = some a → Uses (f a) m) : Uses (x >>= f) (n + m) := by
  rcases ha : x.val with _ | a
  · refine ⟨by rw [ops_bind_none ha]; exact hx.1.trans (Nat.le_add_right _ _), fun b hb => ?_⟩
    rw [val_bind, ha] at hb
    cases hb
  · have h1 := hx.2 a ha
    rw [Uses, ops_bind_some ha, productCount_append, h1]
    refine ⟨Nat.add_le_add_left (hf a ha).1 _, fun b hb => ?_⟩
    rw [val_bind, ha] at hb
    rw [(hf a ha).2 b hb]

theorem Uses.of {x : Traced F E α} {n : ℕ} (h : productCount x.ops = n) : Uses x n := ⟨h.le, fun _ _ => h⟩

theorem Uses.cast {x : Traced F E α} {n m : ℕ} (h : Uses x n) (e : n = m) : Uses x m := e ▸ h

/-- Products computed and still to be computed. -/
def Owes (x : Traced F E α) (pre n : ℕ) (post : α → ℕ) : Prop :=
  ∀ a, x.val = some a → productCount x.ops + post a = pre + n

theorem Owes.bind {x : Traced F E α} {f : α → Traced F E β} {pre n m : ℕ} {mid : α → ℕ} {post : β → ℕ}
    (hx : Owes x pre n mid) (hf : ∀ a, x.val = some a → Owes (f a) (mid a) m post) :
    Owes (x >>= f) pre (n + m) post := by
  intro b h
  rw [val_bind] at h
  obtain ⟨a, ha, hb⟩ := Option.bind_eq_some_iff.1 h
  have h1 := hx a ha
  have h2 := hf a ha b hb
  rw [ops_bind_some ha, productCount_append]
  omega

theorem Uses.owes {x : Traced F E α} {n : ℕ} (h : Uses x n) (pre : ℕ) : Owes x pre n fun _ => pre := by
  intro a ha
  rw [h.2 a ha, add_comm]

theorem Owes.pure (a : α) (post : α → ℕ) : Owes (pure a : Traced F E α) (post a) 0 post := by
  intro b hb
  cases hb
  simp [Pure.pure, productCount]

theorem Owes.cast {x : Traced F E α} {pre n m : ℕ} {post : α → ℕ} (h : Owes x pre n post) (e : n = m) :
    Owes x pre m post := e ▸ h

end Traced

section
variable [Field F] [AddCommGroup E] [Module F E] (B : Backend F E)

theorem uses_mulGen (k : F) : Uses (B.mulGenTraced k) 1 := .of rfl
theorem uses_mulElem (k : F) (e : E) : Uses (mulElemTraced k e) 1 := .of rfl
theorem uses_multiMul2 (a b : F) (es : List E) : Uses (Backend.multiMulTraced [a, b] es) 2 := .of rfl
theorem uses_multiMul {n : ℕ} {ks : List F} (h : ks.length = n) (es : List E) :
    Uses (Backend.multiMulTraced ks es) n := .of h
theorem uses_vdouble (k : F) (e : E) (r : F) : Uses (B.vartimeDoubleMulGenTraced k e r) 2 := .of rfl
theorem uses_vmulti2 (a b : F) (es : List E) : Uses (Backend.vartimeMultiMulTraced [a, b] es) 2 := .of rfl
theorem uses_vmulti3 (a b c : F) (es : List E) : Uses (Backend.vartimeMultiMulTraced [a, b, c] es) 3 := .of rfl
theorem uses_vmulti {n : ℕ} {ks : List F} (h : ks.length = n) (es : List E) :
    Uses (Backend.vartimeMultiMulTraced ks es) n := .of h

theorem uses_appendElement (t : Transcript) (label : String) (e : E) :
    Uses (B.appendElementTraced t label e : Traced F E _) 0 := by
  unfold Backend.appendElementTraced
  exact Uses.bind (n := 0) (m := 0) (.of rfl) fun _ _ => .of rfl

theorem uses_toBytes (c : Ciphertext E) : Uses (c.toBytesTraced B : Traced F E _) 0 := by
  unfold Ciphertext.toBytesTraced
  exact Uses.bind (n := 0) (m := 0 + 0) (.of rfl) fun _ _ => Uses.bind (n := 0) (m := 0) (.of rfl) fun _ _ => .of rfl

theorem uses_zero {α : Type} {x : Traced F E α} (h : productCount x.ops = 0) : Uses x 0 := .of h

/-- Operations known already. -/
local macro "prim" : tactic => `(tactic| first
  | exact uses_mulGen B _
  | exact uses_mulElem _ _
  | exact uses_multiMul2 _ _ _
  | exact uses_vdouble B _ _ _
  | exact uses_vmulti2 _ _ _
  | exact uses_vmulti3 _ _ _ _
  | exact uses_appendElement B _ _ _
  | exact uses_toBytes B _
  | exact uses_zero rfl
  | assumption
  | solve_by_elim only [*])

/-- A sequence of operations. -/
local macro "seq" : tactic => `(tactic| ((repeat (apply Uses.bind; (focus prim); rintro _ -)); try prim))

/-- A step with a known number of products. -/
local macro "ostep" : tactic => `(tactic| (apply Owes.bind; (focus (apply Uses.owes; prim)); intro _ _))

theorem uses_extNew (v : E) (K : PublicKey E) (rng : B.Rng) : Uses (ExtendedCiphertext.newTraced B v K rng) 2 := by
  unfold ExtendedCiphertext.newTraced; apply Uses.cast; (focus seq); rfl

theorem uses_extAdd (a b : ExtendedCiphertext F E) : Uses (a.addTraced b) 0 := by
  unfold ExtendedCiphertext.addTraced; apply Uses.cast; (focus seq); rfl

theorem uses_extSub (a b : ExtendedCiphertext F E) : Uses (a.subTraced b) 0 := by
  unfold ExtendedCiphertext.subTraced; apply Uses.cast; (focus seq); rfl

theorem uses_withValueU64 (v : ℕ) (K : PublicKey E) (rng : B.Rng) :
    Uses (CiphertextWithValue.newU64Traced B v K rng) 3 := by
  have h := uses_extNew B
  unfold CiphertextWithValue.newU64Traced; apply Uses.cast; (focus seq); rfl

theorem uses_logEq (K : PublicKey E) (s : F) (p : E × E) (t : Transcript) (rng : B.Rng) :
    Uses (LogEqualityProof.newTraced B K s p t rng) 2 := by
  unfold LogEqualityProof.newTraced; apply Uses.cast; (focus seq); rfl

theorem uses_logEqVerify [DecidableEq F] (pf : LogEqualityProof F) (K : PublicKey E) (p : E × E) (t : Transcript) :
    Uses (pf.verifyTraced B K p t) 4 := by
  unfold LogEqualityProof.verifyTraced; apply Uses.cast; (focus seq); rfl

theorem uses_checkChallenge [DecidableEq F] (a b : F) : Uses (checkChallengeTraced a b : Traced F E _) 0 := .of rfl

theorem uses_nextChallenge (t : Transcript) (i : ℕ) (c : E × E) : Uses (RingProof.nextChallengeTraced B t i c) 0 := by
  unfold RingProof.nextChallengeTraced; apply Uses.cast; (focus seq); rfl

theorem uses_ctSum (l : List (Ciphertext E)) (a : Ciphertext E) : Uses (Ciphertext.sumTraced l a : Traced F E _) 0 := by
  induction l generalizing a with
  | nil => exact .of rfl
  | cons c l ih =>
    unfold Ciphertext.sumTraced
    exact Uses.bind (n := 0) (m := 0) (.of rfl) fun _ _ => ih _

/-! ## Verification -/

theorem uses_verifyRingLoop (K : PublicKey E) (c : Ciphertext E) (t : Transcript) (n i : Nat) (l : List (E × F))
    (ch : F) (cm : E × E) : Uses (RingProof.verifyRingLoopTraced B K c t n i l ch cm) (4 * l.length) := by
  induction l generalizing i ch cm with
  | nil => exact .of rfl
  | cons x l ih =>
    obtain ⟨v, r⟩ := x
    unfold RingProof.verifyRingLoopTraced
    refine Uses.cast (n := 0 + (0 + (2 + (2 + (0 + 4 * l.length))))) ?_ (by simp; omega)
    repeat (apply Uses.bind; (focus prim); rintro _ -)
    simp only []
    split
    · exact Uses.bind (uses_nextChallenge B _ _ _) fun _ _ => ih _ _ _
    · exact Uses.bind (n := 0) (.of rfl) fun _ _ => ih _ _ _

theorem uses_verifyLoop (p : RingProof F) (K : PublicKey E) (t0 : Transcript) (i s : Nat)
    (l : List (List E × Ciphertext E)) (t : Transcript)
    (hs : s + (l.map fun x => x.1.length).sum ≤ p.ringResponses.length) :
    Uses (p.verifyLoopTraced B K t0 i s l t) (4 * (l.map fun x => x.1.length).sum) := by
  induction l generalizing i s t with
  | nil => exact .of rfl
  | cons x l ih =>
    obtain ⟨v, c⟩ := x
    simp only [List.map_cons, List.sum_cons] at hs
    have h1 : ∀ t, Uses (RingProof.verifyRingLoopTraced B K c t v.length 0
        (v.zip (p.ringResponses.drop s)) p.commonChallenge (B.gen, B.gen)) (4 * v.length) := fun t => by
      refine (uses_verifyRingLoop B K c t v.length 0 _ _ _).cast ?_
      rw [List.length_zip, List.length_drop]; congr 1; omega
    have h2 := fun t => ih (i + 1) (s + v.length) t (by omega)
    unfold RingProof.verifyLoopTraced
    apply Uses.cast; (focus seq); simp; omega

section
variable [DecidableEq F]

theorem zip_lengths (vs : List (List E)) (cs : List (Ciphertext E)) :
    ((vs.zip cs).map fun x => x.1.length).sum ≤ (vs.map List.length).sum ∧
      (vs.length ≤ cs.length → ((vs.zip cs).map fun x => x.1.length).sum = (vs.map List.length).sum) := by
  induction vs generalizing cs with
  | nil => simp
  | cons v vs ih =>
    cases cs with
    | nil => simp
    | cons c cs =>
      simp only [List.zip_cons_cons, List.map_cons, List.sum_cons, List.length_cons, Nat.add_le_add_iff_right]
      exact ⟨Nat.add_le_add_left (ih cs).1 _, fun h => by rw [(ih cs).2 h]⟩

/-- Products of a verifier: at most `n`, and `n` if the proof is accepted. -/
def VerifierUses {α ε : Type} (x : Traced F E α) (n : ℕ) (result : α → Except ε Unit) : Prop :=
  productCount x.ops ≤ n ∧ ∀ a, x.val = some a → result a = .ok () → productCount x.ops = n

theorem Uses.verifier {α ε : Type} {x : Traced F E α} {n : ℕ} (h : Uses x n) (result : α → Except ε Unit) :
    VerifierUses x n result := ⟨h.1, fun a ha _ => h.2 a ha⟩

theorem ring_uses (p : RingProof F) (K : PublicKey E) (vs : List (List E)) (cs : List (Ciphertext E)) (t : Transcript)
    (hl : vs.length ≤ cs.length) :
    VerifierUses (p.verifyTraced B K vs cs t) (4 * (vs.map List.length).sum) Prod.fst := by
  unfold RingProof.verifyTraced
  rcases h : VerificationError.checkLengths "items in all rings" p.totalRingsSize (vs.map List.length).sum with e | u
  · refine ⟨Nat.zero_le _, fun a ha hr => ?_⟩
    cases ha
    cases hr
  · have hn : p.ringResponses.length = (vs.map List.length).sum := by
      by_contra hne
      rw [VerificationError.checkLengths, RingProof.totalRingsSize, if_neg hne] at h
      cases h
    have h1 := fun t0 t => uses_verifyLoop B p K t0 0 0 (vs.zip cs) t (by rw [(zip_lengths vs cs).2 hl]; omega)
    have h2 := uses_checkChallenge (F := F) (E := E)
    apply Uses.verifier
    apply Uses.cast; (focus seq); rw [(zip_lengths vs cs).2 hl]; simp

theorem VerifierUses.bind {α β ε δ : Type} {x : Traced F E α} {f : α → Traced F E β} {n m : ℕ}
    {r : α → Except ε Unit} {r' : β → Except δ Unit}
    (hx : VerifierUses x n r) (hf : ∀ a, x.val = some a → VerifierUses (f a) m r')
    (hok : ∀ a b, x.val = some a → (f a).val = some b → r' b = .ok () → r a = .ok ()) :
    VerifierUses (x >>= f) (n + m) r' := by
  rcases ha : x.val with _ | a
  · refine ⟨by rw [ops_bind_none ha]; exact hx.1.trans (Nat.le_add_right _ _), fun b hb => ?_⟩
    rw [val_bind, ha] at hb
    cases hb
  · rw [VerifierUses, ops_bind_some ha, productCount_append]
    refine ⟨Nat.add_le_add hx.1 (hf a ha).1, fun b hb hr => ?_⟩
    rw [val_bind, ha] at hb
    rw [(hf a ha).2 b hb hr, hx.2 a ha (hok a b ha hb hr)]

theorem VerifierUses.cast {α ε : Type} {x : Traced F E α} {n m : ℕ} {r : α → Except ε Unit}
    (h : VerifierUses x n r) (e : n = m) : VerifierUses x m r := e ▸ h

/-- A step before. -/
theorem Uses.vbind {α β ε : Type} {x : Traced F E α} {f : α → Traced F E β} {n m : ℕ} {r : β → Except ε Unit}
    (hx : Uses x n) (hf : ∀ a, x.val = some a → VerifierUses (f a) m r) : VerifierUses (x >>= f) (n + m) r :=
  VerifierUses.bind (r := fun _ => (.ok () : Except Unit Unit)) ⟨hx.1, fun a ha _ => hx.2 a ha⟩ hf fun _ _ _ _ _ => rfl

/-- An early return. -/
theorem VerifierUses.reject {α ε : Type} (a : α) (n : ℕ) (r : α → Except ε Unit) (h : r a ≠ .ok ()) :
    VerifierUses (pure a : Traced F E α) n r := by
  refine ⟨Nat.zero_le _, fun b hb hr => ?_⟩
  cases hb
  exact absurd hr h

theorem VerifierUses.pure {α ε : Type} (a : α) (r : α → Except ε Unit) :
    VerifierUses (pure a : Traced F E α) 0 r := ⟨Nat.zero_le _, fun _ _ _ => rfl⟩

local macro "vstep" : tactic => `(tactic| (apply Uses.vbind; (focus prim); intro _ _))

theorem bool_uses (K : PublicKey E) (c : Ciphertext E) (p : RingProof F) :
    VerifierUses (K.verifyBoolTraced B c p) 8 id := by
  unfold PublicKey.verifyBoolTraced
  apply VerifierUses.cast
  · vstep
    apply VerifierUses.bind; (focus exact ring_uses B p K [[0, B.gen]] [c] _ le_rfl)
    · intro a _; exact VerifierUses.pure _ _
    · intro a b ha hb hr; cases hb; exact hr
  · simp

theorem range_uses (p : RangeProof F E) (K : PublicKey E) (range : PreparedRange E) (c : Ciphertext E) (t : Transcript) :
    VerifierUses (p.verifyTraced B K range c t) (4 * (range.admissibleValues.map List.length).sum) Prod.fst := by
  unfold RangeProof.verifyTraced
  rcases h : VerificationError.checkLengths "admissible values" (p.partialCiphertexts.length + 1)
    range.admissibleValues.length with e | u
  · exact VerifierUses.reject _ _ _ (by simp)
  · have hn : p.partialCiphertexts.length + 1 = range.admissibleValues.length := by
      by_contra hne
      rw [VerificationError.checkLengths, if_neg hne] at h
      cases h
    have h1 := uses_ctSum (F := F) (E := E)
    have h2 := fun cs t (h : range.admissibleValues.length ≤ cs.length) => ring_uses B p.inner K range.admissibleValues cs t h
    apply VerifierUses.cast
    · vstep; vstep; vstep; vstep
      exact h2 _ _ (by simp [hn])
    · simp

theorem verifyRange_uses (K : PublicKey E) (range : PreparedRange E) (c : Ciphertext E) (p : RangeProof F E) :
    VerifierUses (K.verifyRangeTraced B range c p) (4 * (range.admissibleValues.map List.length).sum) id := by
  unfold PublicKey.verifyRangeTraced
  apply VerifierUses.cast
  · vstep
    apply VerifierUses.bind; (focus exact range_uses B p K range c _)
    · intro a _; exact VerifierUses.pure _ _
    · intro a b ha hb hr; cases hb; exact hr
  · simp

theorem uses_appendKeys (t : Transcript) (ks : List (PublicKey E)) :
    Uses (ProofOfPossession.appendKeysTraced t ks : Traced F E _) 0 := by
  induction ks generalizing t with
  | nil => exact .of rfl
  | cons k ks ih =>
    unfold ProofOfPossession.appendKeysTraced
    exact Uses.bind (n := 0) (m := 0) (.of rfl) fun _ _ => ih _

theorem uses_appendCommitments (ch : F) (l : List (PublicKey E × F)) (t : Transcript) :
    Uses (ProofOfPossession.appendCommitmentsTraced B ch l t) (2 * l.length) := by
  induction l generalizing t with
  | nil => exact .of rfl
  | cons x l ih =>
    obtain ⟨k, r⟩ := x
    unfold ProofOfPossession.appendCommitmentsTraced
    apply Uses.cast; (focus seq); simp; omega

theorem pop_uses (p : ProofOfPossession F) (ks : List (PublicKey E)) (t : Transcript) :
    VerifierUses (p.verifyTraced B ks t) (2 * ks.length) Prod.fst := by
  unfold ProofOfPossession.verifyTraced
  have h1 := uses_appendKeys (F := F) (E := E)
  have h2 := uses_checkChallenge (F := F) (E := E)
  apply VerifierUses.cast (n := 0 + (0 + 2 * ks.length))
  · vstep; vstep
    rcases h : VerificationError.checkLengths "public keys" p.responses.length ks.length with e | u
    · exact VerifierUses.reject _ _ _ (by simp)
    · have hn : p.responses.length = ks.length := by
        by_contra hne
        rw [VerificationError.checkLengths, if_neg hne] at h
        cases h
      have h3 : ∀ t, Uses (ProofOfPossession.appendCommitmentsTraced B p.challenge (ks.zip p.responses) t)
          (2 * ks.length) := fun t => (uses_appendCommitments B _ _ t).cast (by simp [hn])
      apply Uses.verifier
      apply Uses.cast
      · seq
      · omega
  · simp

theorem uses_sumSqLoop (K : PublicKey E) (ch nch : F) (l : List (List F × Ciphertext E)) (t : Transcript) :
    Uses (SumOfSquaresProof.verifyLoopTraced B K ch nch l t) (5 * l.length) := by
  induction l generalizing t with
  | nil => exact .of rfl
  | cons x l ih =>
    obtain ⟨k, r⟩ := x
    unfold SumOfSquaresProof.verifyLoopTraced
    apply Uses.cast; (focus seq); simp; omega

theorem chunks_length {α : Type} (l : List α) (n : ℕ) (h : l.length = n * 2) : (chunks 2 l).length = n := by
  obtain ⟨ps, rfl, hp⟩ := exists_unpairs n l h
  rw [chunks_unpairs, List.length_map, hp]

theorem odd_length {α : Type} (l : List α) (n : ℕ) (h : l.length = n * 2) : (OddItems.new l).collect.length = n := by
  obtain ⟨ps, rfl, hp⟩ := exists_unpairs n l h
  rw [oddItems_unpairs, List.length_map, hp]

theorem sumSq_uses (p : SumOfSquaresProof F) (cs : List (Ciphertext E)) (s : Ciphertext E) (K : PublicKey E)
    (t : Transcript) : VerifierUses (p.verifyTraced B cs s K t) (7 * cs.length + 4) Prod.fst := by
  unfold SumOfSquaresProof.verifyTraced
  rcases h : VerificationError.checkLengths "ciphertext responses" p.ciphertextResponses.length
    (cs.length * 2) with e | u
  · exact VerifierUses.reject _ _ _ (by simp)
  · have hn : p.ciphertextResponses.length = cs.length * 2 := by
      by_contra hne
      rw [VerificationError.checkLengths, if_neg hne] at h
      cases h
    have h1 : ∀ ch nch t, Uses (SumOfSquaresProof.verifyLoopTraced B K ch nch
        ((chunks 2 p.ciphertextResponses).zip cs) t) (5 * cs.length) := fun ch nch t =>
      (uses_sumSqLoop B K ch nch _ t).cast (by rw [List.length_zip, chunks_length _ _ hn]; simp)
    have h2 := uses_checkChallenge (F := F) (E := E)
    have h3 : ∀ (c : F) (es : List E), Uses (Backend.vartimeMultiMulTraced
        ((OddItems.new p.ciphertextResponses).collect ++ [p.sumResponse, c]) es) (cs.length + 2) := fun c es =>
      uses_vmulti (by simp [odd_length _ _ hn]) es
    apply Uses.verifier
    apply Uses.cast
    · seq
    · omega

/-- Products in the verification of the proof of the sum. -/
def sumVerifyCost : ChoiceKind → ℕ
  | .single => 4
  | .multi => 0

theorem uses_sumVerify (kind : ChoiceKind) (c : Ciphertext E) (p : SumProof F kind) (K : PublicKey E) :
    Uses (SumProof.verifyTraced B kind c p K) (sumVerifyCost kind) := by
  cases kind with
  | single =>
    have h := fun p2 t => uses_logEqVerify B p K p2 t
    refine Uses.cast (n := 0 + (0 + (4 + 0))) ?_ rfl
    unfold SumProof.verifyTraced
    exact Uses.bind (n := 0) (.of rfl) fun _ _ => Uses.bind (n := 0) (.of rfl) fun _ _ =>
      Uses.bind (h _ _) fun _ _ => .of rfl
  | multi => exact .of rfl

theorem choice_uses {kind : ChoiceKind} (b : EncryptedChoice F E kind) (params : ChoiceParams E kind) :
    VerifierUses (b.verifyTraced B params) (8 * params.optionsCount + sumVerifyCost kind)
      (fun r => r.map fun _ => ()) := by
  unfold EncryptedChoice.verifyTraced
  rcases h : params.checkOptionsCount b.choices.length with e | u
  · exact VerifierUses.reject _ _ _ (by simp [Except.map])
  · have hn : b.choices.length = params.optionsCount := by
      by_contra hne
      rw [ChoiceParams.checkOptionsCount] at h
      split at h <;> first | omega | cases h
    have h1 := uses_ctSum (F := F) (E := E)
    have h2 := uses_sumVerify B kind
    refine VerifierUses.cast (n := 0 + (0 + (sumVerifyCost kind + 8 * params.optionsCount))) ?_ (by omega)
    vstep; vstep; vstep
    rename_i r hr
    rcases r with e | u
    · exact VerifierUses.reject _ _ _ (by simp [Except.map])
    · refine VerifierUses.cast (n := 0 + (8 * params.optionsCount + 0)) ?_ (by omega)
      vstep
      apply VerifierUses.bind
      focus
        refine (ring_uses B b.rangeProof params.receiver (List.replicate b.choices.length [0, B.gen]) b.choices _
          (by simp)).cast ?_
        simp [hn]; omega
      · intro a _; exact VerifierUses.pure _ _
      · intro a b' ha hb hr'
        cases hb
        rcases a with ⟨_ | _, t⟩
        · cases hr'
        · rfl

theorem votes_uses (K : PublicKey E) (range : PreparedRange E) (i : Nat) (l : List (CiphertextWithRangeProof F E)) :
    VerifierUses (QuadraticVotingBallot.verifyVotesTraced B K range i l)
      (l.length * (4 * (range.admissibleValues.map List.length).sum)) id := by
  induction l generalizing i with
  | nil => exact (VerifierUses.pure _ _).cast (by simp)
  | cons x l ih =>
    unfold QuadraticVotingBallot.verifyVotesTraced
    refine VerifierUses.cast (n := 0 + (4 * (range.admissibleValues.map List.length).sum +
      l.length * (4 * (range.admissibleValues.map List.length).sum))) ?_ (by simp; ring)
    vstep
    refine VerifierUses.bind (range_uses B _ K range _ _) ?_ ?_
    · rintro ⟨r, t⟩ -
      rcases r with e | u
      · exact VerifierUses.reject _ _ _ (by simp)
      · exact ih _
    · rintro ⟨r, t⟩ b - hb hr
      rcases r with e | u
      · cases hb; cases hr
      · rfl

theorem ballot_uses (b : QuadraticVotingBallot F E) (params : QuadraticVotingParams E) :
    VerifierUses (b.verifyTraced B params)
      (params.optionsCount * (4 * (params.voteCountRange.admissibleValues.map List.length).sum) +
        4 * (params.creditRange.admissibleValues.map List.length).sum + (7 * params.optionsCount + 4))
      (fun r => r.map fun _ => ()) := by
  unfold QuadraticVotingBallot.verifyTraced
  rcases h : params.checkOptionsCount b.votes.length with e | u
  · exact VerifierUses.reject _ _ _ (by simp [Except.map])
  · have hn : b.votes.length = params.optionsCount := by
      by_contra hne
      rw [QuadraticVotingParams.checkOptionsCount] at h
      split at h <;> first | omega | cases h
    rw [← hn]
    refine VerifierUses.cast (n := b.votes.length * (4 * (params.voteCountRange.admissibleValues.map List.length).sum) +
      (0 + (4 * (params.creditRange.admissibleValues.map List.length).sum + (0 + (7 * b.votes.length + 4 + 0))))) ?_
      (by omega)
    refine VerifierUses.bind (votes_uses B _ _ _ _) ?_ ?_
    · rintro r -
      rcases r with e | u
      · exact VerifierUses.reject _ _ _ (by simp [Except.map])
      · vstep
        refine VerifierUses.bind (range_uses B _ _ _ _ _) ?_ ?_
        · rintro ⟨r, t⟩ -
          rcases r with e | u
          · exact VerifierUses.reject _ _ _ (by simp [Except.map])
          · vstep
            refine VerifierUses.bind ((sumSq_uses B _ _ _ _ _).cast (by simp)) ?_ ?_
            · rintro ⟨r, t⟩ -
              rcases r with e | u
              · exact VerifierUses.reject _ _ _ (by simp [Except.map])
              · exact VerifierUses.pure _ _
            · rintro ⟨r, t⟩ b - hb hr
              rcases r with e | u
              · cases hb; cases hr
              · rfl
        · rintro ⟨r, t⟩ b - hb hr
          rcases r with e | u
          · cases hb; cases hr
          · rfl
    · rintro r b - hb hr
      rcases r with e | u
      · cases hb; cases hr
      · rfl

/-! ## Creation of proofs -/

/-- Products in the assertion of `Ring::new`, which is present in debug builds. -/
def debugCost : ℕ := if B.debug then 1 else 0

theorem uses_debugAssert (p : Prop) [Decidable p] :
    Uses (B.debugAssertTraced [.mulElem, .addElem, .eqElem] p) (debugCost B) := by
  apply Uses.of
  unfold Backend.debugAssertTraced debugCost
  split <;> rfl

theorem uses_debugAssert0 (p : Prop) [Decidable p] : Uses (B.debugAssertTraced [] p) 0 := by
  apply Uses.of
  unfold Backend.debugAssertTraced
  split <;> rfl

theorem uses_debugAssert1 (p : Prop) [Decidable p] : Uses (B.debugAssertTraced [.eqScalar] p) 0 := by
  apply Uses.of
  unfold Backend.debugAssertTraced
  split <;> rfl

theorem uses_newLoop (K : E) (c : Ciphertext E) (t : Transcript) (i : Nat) (vs : List E) (cm : E × E)
    (rs : List F) (rng : B.Rng) : Uses (Ring.newLoopTraced B K c t i vs cm rs rng) (4 * vs.length) := by
  induction vs generalizing i cm rs rng with
  | nil => exact .of rfl
  | cons v vs ih =>
    unfold Ring.newLoopTraced
    apply Uses.cast
    · seq
    · simp; omega

theorem uses_finalizeLoop (K : E) (c : Ciphertext E) (t : Transcript) (i : Nat) (vs : List E) (ch : F)
    (rs : List F) (rng : B.Rng) : Uses (Ring.finalizeLoopTraced B K c t i vs ch rs rng) (4 * vs.length) := by
  induction vs generalizing i ch rs rng with
  | nil => exact .of rfl
  | cons v vs ih =>
    unfold Ring.finalizeLoopTraced
    apply Uses.cast
    · seq
    · simp; omega

/-- Products still to be computed for a ring when it has been created. -/
def Ring.owing (r : Ring F E) : ℕ := 4 * (r.admissibleValues.take r.valueIndex).length

/-- Products still to be computed for the rings of a builder. -/
def RingProofBuilder.owing (b : RingProofBuilder B) : ℕ := (b.rings.map Ring.owing).sum

theorem Owes.uses {α : Type} {x : Traced F E α} {n : ℕ} (h : Owes x 0 n fun _ => 0) {a : α} (ha : x.val = some a) :
    productCount x.ops = n := by simpa using h a ha

section
variable [DecidableEq E]

theorem owes_ringNew (pre i : ℕ) (K : E) (c : ExtendedCiphertext F E) (vs : List E) (vi : ℕ) (t : Transcript)
    (rs : List F) (rng : B.Rng) :
    Owes (Ring.newTraced B i K c vs vi t rs rng) pre (debugCost B + 2 + 4 * (vs.length - 1))
      fun a => pre + a.1.owing := by
  have h0 := uses_debugAssert (F := F) (E := E) B
  have h1 := uses_debugAssert0 (F := F) (E := E) B
  unfold Ring.newTraced
  apply Owes.cast (n := 0 + (0 + (0 + (0 + (debugCost B + (0 + (0 + (0 + (0 + (0 + (1 + (1 +
    (4 * (vs.length - 1))))))))))))))
  · ostep
    apply Owes.bind; (focus (apply Uses.owes; prim)); intro _ ha
    ostep; ostep; ostep; ostep; ostep; ostep; ostep; ostep; ostep; ostep
    have h2 : vi < vs.length := assert_val ha
    refine Owes.cast (n := 4 * (vs.drop (vi + 1)).length + 4 * (vs.take vi).length) ?_ (by
      rw [List.length_drop, List.length_take]; omega)
    apply Owes.bind; (focus exact Uses.owes (uses_newLoop B _ _ _ _ _ _ _ _) _); rintro ⟨cm, rs, rng⟩ -
    intro a ha
    cases ha
    simp [Pure.pure, Ring.owing, productCount]
  · omega

theorem owes_addPrecomputed (b : RingProofBuilder B) (c : ExtendedCiphertext F E) (vs : List E) (vi : ℕ) :
    Owes (b.addPrecomputedValueTraced B c vs vi) b.owing (debugCost B + 2 + 4 * (vs.length - 1))
      fun b' => b'.owing := by
  unfold RingProofBuilder.addPrecomputedValueTraced
  apply Owes.cast (n := 0 + (debugCost B + 2 + 4 * (vs.length - 1) + 0))
  · ostep
    apply Owes.bind; (focus exact owes_ringNew B _ _ _ _ vs _ _ _ _); rintro ⟨r, rng⟩ -
    have h2 : b.owing + r.owing =
        RingProofBuilder.owing B { b with rings := b.rings ++ [r], ringResponses := b.ringResponses.drop vs.length, rng } := by
      simp [RingProofBuilder.owing]
    show Owes _ (b.owing + r.owing) _ _
    rw [h2]
    exact Owes.pure _ _
  · omega

theorem owes_addValue (b : RingProofBuilder B) (vs : List E) (vi : ℕ) :
    Owes (b.addValueTraced B vs vi) b.owing (debugCost B + 4 + 4 * (vs.length - 1)) fun a => a.2.owing := by
  unfold RingProofBuilder.addValueTraced
  apply Owes.cast (n := 0 + (2 + (debugCost B + 2 + 4 * (vs.length - 1) + 0)))
  · ostep
    apply Owes.bind; (focus exact Uses.owes (uses_extNew B _ _ _) _); rintro ⟨c, rng⟩ -
    apply Owes.bind; (focus exact owes_addPrecomputed B { b with rng } c vs vi); rintro b' -
    exact Owes.pure (c, b') fun a => a.2.owing
  · omega

end

theorem uses_appendTerminal (rings : List (Ring F E)) (t : Transcript) :
    Uses (Ring.appendTerminalTraced B rings t) 0 := by
  induction rings generalizing t with
  | nil => exact .of rfl
  | cons r rings ih =>
    unfold Ring.appendTerminalTraced
    apply Uses.cast
    · seq
    · rfl

theorem owes_finalize (r : Ring F E) (pre : ℕ) (K : E) (ch : F) (rng : B.Rng) :
    Owes (r.finalizeTraced B K ch rng) (pre + r.owing) 0 fun _ => pre := by
  have h1 := uses_debugAssert1 (F := F) (E := E) B
  unfold Ring.finalizeTraced
  apply Owes.cast (n := 0 + (0 + (0 + (0 + (0 + (0 + 0))))))
  · apply Owes.bind (mid := fun _ => pre)
    · intro a ha
      have := (uses_finalizeLoop B _ _ _ _ _ _ _ _).2 a ha
      show _ + pre = _
      rw [this, Ring.owing]; omega
    rintro ⟨ch, rs, rng⟩ -
    ostep; ostep; ostep; ostep; ostep
    exact Uses.owes (.of rfl) _
  · rfl

theorem owes_finalizeAll (rings : List (Ring F E)) (pre : ℕ) (K : E) (ch : F) (rng : B.Rng) :
    Owes (Ring.finalizeAllTraced B K ch rings rng) (pre + (rings.map Ring.owing).sum) 0 fun _ => pre := by
  induction rings generalizing pre rng with
  | nil => exact Uses.owes (.of rfl) _
  | cons r rings ih =>
    unfold Ring.finalizeAllTraced
    rw [List.map_cons, List.sum_cons, add_comm r.owing, ← add_assoc]
    apply Owes.cast (n := 0 + (0 + 0))
    · apply Owes.bind; (focus exact owes_finalize B _ _ _ _ _); rintro ⟨l, rng⟩ -
      apply Owes.bind; (focus exact ih _ _); rintro ⟨l', rng⟩ -
      exact Uses.owes (.of rfl) _
    · rfl

theorem owes_build (b : RingProofBuilder B) : Owes (b.buildTraced B) b.owing 0 fun _ => 0 := by
  have h1 := uses_debugAssert0 (F := F) (E := E) B
  have h2 := uses_appendTerminal (F := F) (E := E) B
  have h3 := owes_finalizeAll B b.rings 0
  simp only [zero_add] at h3
  unfold RingProofBuilder.buildTraced
  apply Owes.cast (n := 0 + ((0 + (0 + (0 + (0 + 0)))) + 0))
  · ostep
    apply Owes.bind (mid := fun _ => 0)
    focus
      unfold Ring.aggregateTraced
      ostep; ostep; ostep
      apply Owes.bind; (focus exact h3 _ _ _); rintro ⟨l, rng⟩ -
      exact Uses.owes (.of rfl) _
    rintro ⟨c, l, t, rng⟩ -
    exact Uses.owes (.of rfl) _
  · rfl

section
variable [DecidableEq E]

theorem uses_builderNew (K : PublicKey E) (rs : List F) (t : Transcript) (rng : B.Rng) :
    Uses (RingProofBuilder.newTraced B K rs t rng) 0 := .of rfl

theorem owing_builderNew {K : PublicKey E} {rs : List F} {t : Transcript} {rng : B.Rng} {b : RingProofBuilder B}
    (h : (RingProofBuilder.newTraced B K rs t rng).val = some b) : b.owing = 0 := by
  rw [val_builderNew] at h; cases h; rfl

theorem owes_encryptBool (K : PublicKey E) (v : Bool) (rng : B.Rng) :
    Owes (K.encryptBoolTraced B v rng) 0 (debugCost B + 8) fun _ => 0 := by
  have h1 := uses_builderNew B
  unfold PublicKey.encryptBoolTraced
  apply Owes.cast (n := 0 + (0 + ((debugCost B + 4 + 4 * (2 - 1)) + (0 + 0))))
  · ostep
    apply Owes.bind; (focus exact Uses.owes (h1 _ _ _ _) _); rintro b hb
    have h3 := owes_addValue B b [0, B.gen] (if v then 1 else 0)
    rw [owing_builderNew B hb] at h3
    apply Owes.bind; (focus exact h3); rintro ⟨c, b'⟩ -
    apply Owes.bind; (focus exact owes_build B b'); rintro ⟨ch, rs, t, rng⟩ -
    exact Uses.owes (.of rfl) _
  · omega

theorem uses_decomposeLoop (d : Bool) (rings : List RingSpec) (v : ℕ) :
    Uses (RangeDecomposition.decomposeLoopTraced d rings v : Traced F E _) 0 := by
  induction rings generalizing v with
  | nil => exact .of rfl
  | cons r rings ih =>
    unfold RangeDecomposition.decomposeLoopTraced
    apply Uses.cast
    · seq
    · rfl

theorem uses_decompose (d : Bool) (range : PreparedRange E) (v : ℕ) :
    Uses (range.decomposeTraced d v : Traced F E _) 0 := by
  have h1 := uses_decomposeLoop (F := F) (E := E)
  unfold PreparedRange.decomposeTraced
  apply Uses.cast
  · seq
  · rfl

/-- Products for rings with admissible values `ls`, including those for encryption. -/
def ringsCost (ls : List (List E)) : ℕ := (ls.map fun vs => debugCost B + 4 + 4 * (vs.length - 1)).sum

theorem owes_addValues (items : List (Nat × List E)) (c : ExtendedCiphertext F E) (b : RingProofBuilder B) :
    Owes (RangeProof.addValuesTraced B items c b) b.owing (ringsCost B (items.map Prod.snd)) fun a => a.2.2.owing := by
  induction items generalizing c b with
  | nil => exact Owes.pure ([], c, b) fun a => a.2.2.owing
  | cons x items ih =>
    obtain ⟨i, vs⟩ := x
    unfold RangeProof.addValuesTraced
    apply Owes.cast (n := (debugCost B + 4 + 4 * (vs.length - 1)) + (0 + (ringsCost B (items.map Prod.snd) + 0)))
    · apply Owes.bind; (focus exact owes_addValue B b vs i); rintro ⟨c', b'⟩ -
      apply Owes.bind; (focus exact Uses.owes (uses_extAdd _ _) _); rintro c'' -
      apply Owes.bind; (focus exact ih _ _); rintro ⟨l, c, b⟩ -
      exact Owes.pure (c'.inner :: l, c, b) fun a => a.2.2.owing
    · simp [ringsCost]

/-- The number of products in a range proof for a given ciphertext. -/
theorem owes_fromCiphertext (K : PublicKey E) (range : PreparedRange E) (vss : List (List E)) (vs : List E)
    (hv : range.admissibleValues = vss ++ [vs]) (hl : range.inner.rings.length = vss.length + 1)
    (c : CiphertextWithValue F E Nat) (t : Transcript) (rng : B.Rng) :
    Owes (RangeProof.fromCiphertextTraced B K range c t rng) 0
      (ringsCost B vss + (debugCost B + 2 + 4 * (vs.length - 1))) fun _ => 0 := by
  have h1 := uses_debugAssert0 (F := F) (E := E) B
  have h2 := uses_builderNew B
  unfold RangeProof.fromCiphertextTraced
  apply Owes.cast (n := 0 + (0 + (0 + (0 + (0 + (0 + (0 + (ringsCost B vss + (0 + (0 +
    ((debugCost B + 2 + 4 * (vs.length - 1)) + (0 + 0))))))))))))
  · apply Owes.bind; (focus exact Uses.owes (uses_decompose _ _ _) _); rintro is his
    have hli := length_decompose his
    ostep; ostep; ostep; ostep
    apply Owes.bind; (focus exact Uses.owes (h2 _ _ _ _) _); rintro b hb
    ostep
    have hz : is.zip range.admissibleValues = (is.take vss.length).zip vss ++ (is.drop vss.length).zip [vs] := by
      rw [hv, ← List.zip_append (by rw [List.length_take]; omega), List.take_append_drop]
    have hz1 : ((is.take vss.length).zip vss).length = vss.length := by
      rw [List.length_zip, List.length_take]; omega
    rw [hli, hl, Nat.add_sub_cancel, hz, List.take_left' hz1, List.drop_left' hz1]
    have h3 := owes_addValues B ((is.take vss.length).zip vss) ExtendedCiphertext.zero b
    rw [owing_builderNew B hb, map_snd_zip_take,
      List.take_of_length_le (l := vss) (by rw [List.length_take]; omega)] at h3
    apply Owes.bind; (focus exact h3); rintro ⟨l, c', b'⟩ -
    apply Owes.bind; (focus exact Uses.owes (uses_extSub _ _) _); rintro c'' -
    apply Owes.bind; (focus (apply Uses.owes; prim)); rintro ⟨i, vs'⟩ hv'
    have hv' : ((is.drop vss.length).zip [vs]).head? = some (i, vs') := hv'
    have he : vs' = vs := by
      rcases hd : is.drop vss.length with _ | ⟨a, l⟩
      · rw [hd] at hv'; cases hv'
      · rw [hd] at hv'; cases hv'; rfl
    subst he
    apply Owes.bind; (focus exact owes_addPrecomputed B b' c'' vs' i); rintro b3 -
    apply Owes.bind; (focus exact owes_build B b3); rintro ⟨ch, rs, t, rng⟩ -
    exact Uses.owes (.of rfl) _
  · omega

end
end
end

end ElasticElgamal
