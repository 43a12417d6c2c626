import Mathlib.Algebra.Order.Group.Multiset
import Verif.Lemmas.Leakage

/-!
# Operations performed

`Does x tr`: a run of `x` that does not panic performs `tr`.
-/

set_option autoImplicit false
set_option linter.unusedSectionVars false

namespace ElasticElgamal

open Traced

variable {F E : Type}

namespace Traced
variable {α β : Type}

/-- If `x` does not panic, it performs `tr`. -/
def Does (x : Traced F E α) (tr : List (Op F E)) : Prop := ∀ a, x.val = some a → x.ops = tr

theorem Does.bind {x : Traced F E α} {f : α → Traced F E β} {t u : List (Op F E)} (hx : Does x t)
    (hf : ∀ a, x.val = some a → Does (f a) u) : Does (x >>= f) (t ++ u) := by
  intro b h
  rw [val_bind] at h
  obtain ⟨a, ha, hb⟩ := Option.bind_eq_some_iff.1 h
  show (Traced.bind x f).ops = _
  unfold Traced.bind
  rw [ha]
  show x.ops ++ (f a).ops = _
  rw [hx a ha, hf a ha b hb]

theorem Does.of (a : Option α) (t : List (Op F E)) : Does ⟨a, t⟩ t := fun _ _ => rfl

theorem Does.unique {x y : Traced F E α} {t : List (Op F E)} {a b : α} (hx : Does x t) (hy : Does y t)
    (ha : x.val = some a) (hb : y.val = some b) : x.ops = y.ops := (hx a ha).trans (hy b hb).symm

end Traced

section
variable [Field F] [AddCommGroup E] [Module F E] (B : Backend F E)

theorem does_appendElement (t : Transcript) (label : String) (e : E) :
    Does (B.appendElementTraced t label e) ([.encode] ++ [.append label B.elementSize]) :=
  Does.bind (Does.of _ _) fun _ _ => Does.of _ _

theorem does_fromElement (e : E) : Does (PublicKey.fromElementTraced B e : Traced F E _) ([.encode] ++ []) :=
  Does.bind (Does.of _ _) fun _ _ => Does.of _ _

theorem does_multiMul2 (a b : F) (es : List E) : Does (Backend.multiMulTraced [a, b] es) [.multiMul 2] :=
  Does.of _ _

theorem does_multiMul {n : Nat} {ks : List F} (h : ks.length = n) (es : List E) :
    Does (Backend.multiMulTraced ks es) [.multiMul n] := h ▸ Does.of _ _

theorem does_appendElementBytes {n : Nat} (t : Transcript) (label : String) {b : Bytes} (h : b.length = n) :
    Does (t.appendElementBytesTraced label b : Traced F E _) [.append label n] := h ▸ Does.of _ _

theorem fromElement_bytes {e : E} {K : PublicKey E}
    (h : (PublicKey.fromElementTraced B e : Traced F E _).val = some K) : B.serElem e = some K.bytes := by
  unfold PublicKey.fromElementTraced at h
  rw [val_bind] at h
  obtain ⟨b, hb, hK⟩ := Option.bind_eq_some_iff.1 h
  cases hK
  exact hb

/-- Operations known already. -/
local macro "prim" : tactic => `(tactic| first
  | exact does_appendElement B _ _ _
  | exact does_fromElement B _
  | exact does_multiMul2 _ _ _
  | exact Does.of _ _
  | assumption
  | solve_by_elim only [*])

/-- A sequence of operations. -/
local macro "seq" : tactic => `(tactic| ((repeat (apply Does.bind; (focus prim); rintro _ -)); try prim))

/-- The operations are found by unification; they cannot mention what is introduced afterwards. -/
local macro "find" : tactic => `(tactic| apply Exists.intro)

theorem does_keypair : ∃ tr, ∀ rng, Does (Keypair.generateTraced B rng : Traced F E _) tr := by
  find; intro rng; unfold Keypair.generateTraced; seq

theorem does_extNew : ∃ tr, ∀ v K rng, Does (ExtendedCiphertext.newTraced B v K rng) tr := by
  find; intro v K rng; unfold ExtendedCiphertext.newTraced; seq

theorem does_extAdd : ∃ tr, ∀ a b : ExtendedCiphertext F E, Does (a.addTraced b) tr := by
  find; intro a b; unfold ExtendedCiphertext.addTraced; seq

theorem does_extSub : ∃ tr, ∀ a b : ExtendedCiphertext F E, Does (a.subTraced b) tr := by
  find; intro a b; unfold ExtendedCiphertext.subTraced; seq

theorem does_withValue : ∃ tr, ∀ v K rng, Does (CiphertextWithValue.newTraced B v K rng) tr := by
  obtain ⟨t1, h1⟩ := does_extNew B
  find; intro v K rng; unfold CiphertextWithValue.newTraced; seq

theorem does_withValueU64 : ∃ tr, ∀ v K rng, Does (CiphertextWithValue.newU64Traced B v K rng) tr := by
  obtain ⟨t1, h1⟩ := does_extNew B
  find; intro v K rng; unfold CiphertextWithValue.newU64Traced; seq

theorem does_encrypt : ∃ tr, ∀ K v rng, Does (PublicKey.encryptTraced B K v rng) tr := by
  obtain ⟨t1, h1⟩ := does_extNew B
  find; intro K v rng; unfold PublicKey.encryptTraced; seq

theorem does_encryptElement : ∃ tr, ∀ K v rng, Does (PublicKey.encryptElementTraced B K v rng) tr := by
  obtain ⟨t1, h1⟩ := does_extNew B
  find; intro K v rng; unfold PublicKey.encryptElementTraced; seq

theorem does_decryptToElement : ∃ tr, ∀ (s : SecretKey F) (c : Ciphertext E), Does (s.decryptToElementTraced c) tr := by
  find; intro s c; unfold SecretKey.decryptToElementTraced; seq

theorem does_logEq (n : Nat) :
    ∃ tr, ∀ K : PublicKey E, K.bytes.length = n →
      ∀ s p t rng, Does (LogEqualityProof.newTraced B K s p t rng) tr := by
  find; intro K hK s p t rng; unfold LogEqualityProof.newTraced
  have h2 := fun t : Transcript => does_appendElementBytes (F := F) (E := E) t "K" hK
  apply Does.bind; (focus prim); rintro _ -
  apply Does.bind; (focus exact h2 _); rintro _ -
  seq

theorem does_encryptZero (K : PublicKey E) : ∃ tr, ∀ rng, Does (K.encryptZeroTraced B rng) tr := by
  obtain ⟨t1, h1⟩ := does_logEq B K.bytes.length
  have h2 := h1 K rfl
  find; intro rng; unfold PublicKey.encryptZeroTraced; seq

theorem does_verifiable (c : Ciphertext E) :
    ∃ tr, ∀ keys t rng, Does (VerifiableDecryption.newTraced B c keys t rng) tr := by
  obtain ⟨t1, h1⟩ := does_logEq B ((B.serElem c.random).getD []).length
  find; intro keys t rng; unfold VerifiableDecryption.newTraced
  apply Does.bind; (focus prim); rintro _ -
  apply Does.bind; (focus prim); rintro _ -
  apply Does.bind; (focus prim); rintro K hK
  have h2 := h1 K (by rw [fromElement_bytes B hK]; rfl)
  seq

theorem does_commitment (K : PublicKey E) :
    ∃ tr, ∀ c b H t rng, Does (CommitmentEquivalenceProof.newTraced B c K b H t rng) tr := by
  find; intro c b H t rng; unfold CommitmentEquivalenceProof.newTraced; seq

theorem does_draw (n : Nat) :
    ∃ tr, ∀ t rng, Does (ProofOfPossession.drawRandomScalarsTraced B n t rng) tr := by
  induction n with
  | zero => find; intro t rng; unfold ProofOfPossession.drawRandomScalarsTraced; seq
  | succ n ih =>
    obtain ⟨t1, h1⟩ := ih
    find; intro t rng; unfold ProofOfPossession.drawRandomScalarsTraced; seq

theorem does_appendKeys (ls : List Nat) :
    ∃ tr, ∀ keys : List (PublicKey E), keys.map (·.bytes.length) = ls →
      ∀ t, Does (ProofOfPossession.appendKeysTraced t keys : Traced F E _) tr := by
  induction ls with
  | nil =>
    find; intro keys hk t
    obtain rfl := List.map_eq_nil_iff.1 hk
    unfold ProofOfPossession.appendKeysTraced; seq
  | cons n ls ih =>
    obtain ⟨t1, h1⟩ := ih
    find; intro keys hk t
    obtain ⟨K, keys, rfl, hn, hk⟩ := List.map_eq_cons_iff.1 hk
    have h2 := h1 keys hk
    have h3 := does_appendElementBytes (F := F) (E := E) t "K" hn
    unfold ProofOfPossession.appendKeysTraced
    apply Does.bind; (focus exact h3); rintro _ -
    exact h2 _

theorem does_popResponses (n : Nat) :
    ∃ tr, ∀ (c : F) (l : List (F × F)), l.length = n →
      Does (ProofOfPossession.responsesTraced c l : Traced F E _) tr := by
  induction n with
  | zero =>
    find; intro c l hl
    obtain rfl := List.length_eq_zero_iff.1 hl
    unfold ProofOfPossession.responsesTraced; seq
  | succ n ih =>
    obtain ⟨t1, h1⟩ := ih
    find; intro c l hl
    obtain ⟨⟨x, y⟩, l, rfl⟩ := List.exists_cons_of_length_eq_add_one hl
    have h2 := h1 c l (by simpa using hl)
    unfold ProofOfPossession.responsesTraced; seq

theorem length_draw {n : Nat} {t t' : Transcript} {rng rng' : B.Rng} {l : List F}
    (h : (ProofOfPossession.drawRandomScalarsTraced B n t rng).val = some (l, t', rng')) : l.length = n := by
  induction n generalizing t rng l t' rng' with
  | zero =>
    unfold ProofOfPossession.drawRandomScalarsTraced at h
    cases h; rfl
  | succ n ih =>
    unfold ProofOfPossession.drawRandomScalarsTraced at h
    simp only [val_bind] at h
    obtain ⟨_, _, h⟩ := Option.bind_eq_some_iff.1 h
    obtain ⟨_, _, h⟩ := Option.bind_eq_some_iff.1 h
    obtain ⟨_, _, h⟩ := Option.bind_eq_some_iff.1 h
    obtain ⟨_, h', h⟩ := Option.bind_eq_some_iff.1 h
    have := ih h'
    cases h
    simp [this]

theorem does_fromKeys (ls : List Nat) :
    ∃ tr, ∀ keys : List (PublicKey E), keys.map (·.bytes.length) = ls →
      ∀ secrets : List (SecretKey F), secrets.length = keys.length →
      ∀ t rng, Does (ProofOfPossession.fromKeysTraced B secrets keys t rng) tr := by
  obtain ⟨t1, h1⟩ := does_appendKeys (F := F) (E := E) ls
  obtain ⟨t2, h2⟩ := does_draw B ls.length
  obtain ⟨t3, h3⟩ := does_popResponses (F := F) (E := E) ls.length
  find; intro keys hk secrets hs t rng; unfold ProofOfPossession.fromKeysTraced
  have hn : keys.length = ls.length := by rw [← hk, List.length_map]
  rw [hn]
  apply Does.bind; (focus prim); rintro _ -
  apply Does.bind; (focus exact h1 keys hk _); rintro _ -
  apply Does.bind; (focus exact h2 _ _); rintro ⟨l, t', rng'⟩ hl
  apply Does.bind; (focus prim); rintro ⟨c, _⟩ -
  have h4 := h3 c (secrets.zip l) (by simp [hs, hn, length_draw B hl])
  apply Does.bind; (focus exact h4); rintro _ -
  prim

theorem does_popNew (ls : List Nat) :
    ∃ tr, ∀ keypairs : List (Keypair F E), keypairs.map (·.publicKey.bytes.length) = ls →
      ∀ t rng, Does (ProofOfPossession.newTraced B keypairs t rng) tr := by
  obtain ⟨t1, h1⟩ := does_fromKeys B ls
  refine ⟨t1, ?_⟩
  intro keypairs hk t rng
  exact h1 _ (by rw [List.map_map]; exact hk) _ (by simp) _ _

theorem does_commitLoop (n : Nat) :
    ∃ tr, ∀ (K : PublicKey E) (cs : List (CiphertextWithValue F E)), cs.length = n →
      ∀ s t rng, Does (SumOfSquaresProof.commitLoopTraced B K cs s t rng) tr := by
  induction n with
  | zero =>
    find; intro K cs hl s t rng
    obtain rfl := List.length_eq_zero_iff.1 hl
    unfold SumOfSquaresProof.commitLoopTraced; seq
  | succ n ih =>
    obtain ⟨t1, h1⟩ := ih
    find; intro K cs hl s t rng
    obtain ⟨c, cs, rfl⟩ := List.exists_cons_of_length_eq_add_one hl
    have h2 := h1 K cs (by simpa using hl)
    unfold SumOfSquaresProof.commitLoopTraced; seq

theorem length_commitLoop {K : PublicKey E} {cs : List (CiphertextWithValue F E)} {s s' : F} {t t' : Transcript}
    {rng rng' : B.Rng} {l : List (CiphertextWithValue F E × F × F)}
    (h : (SumOfSquaresProof.commitLoopTraced B K cs s t rng).val = some (l, s', t', rng')) :
    l.length = cs.length := by
  induction cs generalizing s t rng l s' t' rng' with
  | nil =>
    unfold SumOfSquaresProof.commitLoopTraced at h
    cases h; rfl
  | cons c cs ih =>
    unfold SumOfSquaresProof.commitLoopTraced at h
    simp only [val_bind] at h
    obtain ⟨_, _, h⟩ := Option.bind_eq_some_iff.1 h
    obtain ⟨_, _, h⟩ := Option.bind_eq_some_iff.1 h
    obtain ⟨_, _, h⟩ := Option.bind_eq_some_iff.1 h
    obtain ⟨_, _, h⟩ := Option.bind_eq_some_iff.1 h
    obtain ⟨_, _, h⟩ := Option.bind_eq_some_iff.1 h
    obtain ⟨_, _, h⟩ := Option.bind_eq_some_iff.1 h
    obtain ⟨_, _, h⟩ := Option.bind_eq_some_iff.1 h
    obtain ⟨_, _, h⟩ := Option.bind_eq_some_iff.1 h
    obtain ⟨_, _, h⟩ := Option.bind_eq_some_iff.1 h
    obtain ⟨_, _, h⟩ := Option.bind_eq_some_iff.1 h
    obtain ⟨_, _, h⟩ := Option.bind_eq_some_iff.1 h
    obtain ⟨_, _, h⟩ := Option.bind_eq_some_iff.1 h
    obtain ⟨_, _, h⟩ := Option.bind_eq_some_iff.1 h
    obtain ⟨_, h', h⟩ := Option.bind_eq_some_iff.1 h
    have := ih h'
    cases h
    simp [this]

theorem does_sosResponses (n : Nat) :
    ∃ tr, ∀ (c : F) (l : List (CiphertextWithValue F E × F × F)), l.length = n →
      Does (SumOfSquaresProof.responsesTraced c l) tr := by
  induction n with
  | zero =>
    find; intro c l hl
    obtain rfl := List.length_eq_zero_iff.1 hl
    unfold SumOfSquaresProof.responsesTraced; seq
  | succ n ih =>
    obtain ⟨t1, h1⟩ := ih
    find; intro c l hl
    obtain ⟨⟨x, y, z⟩, l, rfl⟩ := List.exists_cons_of_length_eq_add_one hl
    have h2 := h1 c l (by simpa using hl)
    unfold SumOfSquaresProof.responsesTraced; seq

theorem does_sumOfSquares (n : Nat) (K : PublicKey E) :
    ∃ tr, ∀ cs : List (CiphertextWithValue F E), cs.length = n →
      ∀ c t rng, Does (SumOfSquaresProof.newTraced B cs c K t rng) tr := by
  obtain ⟨t1, h1⟩ := does_commitLoop B n
  obtain ⟨t2, h2⟩ := does_sosResponses (F := F) (E := E) n
  find; intro cs hl c t rng
  have h3 := h1 K cs hl
  unfold SumOfSquaresProof.newTraced
  apply Does.bind; (focus prim); rintro _ -
  apply Does.bind; (focus prim); rintro _ -
  apply Does.bind; (focus prim); rintro _ -
  apply Does.bind; (focus exact h3 _ _ _); rintro ⟨l, s', t', rng'⟩ hc
  have hn : l.length = n := (length_commitLoop B hc).trans hl
  apply Does.bind; (focus exact does_multiMul (n := n + 1) (by simp [hn]) _); rintro _ -
  apply Does.bind; (focus exact does_multiMul (n := n + 1) (by simp [hn]) _); rintro _ -
  have h4 := fun c => h2 c l hn
  seq

theorem does_generateKeypairs (n : Nat) :
    ∃ tr, ∀ rng, Does (Dealer.generateKeypairsTraced B n rng) tr := by
  induction n with
  | zero => find; intro rng; unfold Dealer.generateKeypairsTraced; seq
  | succ n ih =>
    obtain ⟨t1, h1⟩ := ih
    obtain ⟨t2, h2⟩ := does_keypair B
    find; intro rng; unfold Dealer.generateKeypairsTraced; seq

theorem keys_generateKeypairs (hB : B.Lawful) {n : Nat} {rng rng' : B.Rng} {l : List (Keypair F E)}
    (h : (Dealer.generateKeypairsTraced B n rng).val = some (l, rng')) :
    l.map (·.publicKey.bytes.length) = List.replicate n B.elementSize := by
  induction n generalizing rng l rng' with
  | zero =>
    unfold Dealer.generateKeypairsTraced at h
    cases h; rfl
  | succ n ih =>
    unfold Dealer.generateKeypairsTraced at h
    simp only [val_bind] at h
    obtain ⟨⟨kp, rng1⟩, hkp, h⟩ := Option.bind_eq_some_iff.1 h
    obtain ⟨_, h', h⟩ := Option.bind_eq_some_iff.1 h
    have := ih h'
    cases h
    unfold Keypair.generateTraced at hkp
    simp only [val_bind] at hkp
    obtain ⟨_, _, hkp⟩ := Option.bind_eq_some_iff.1 hkp
    obtain ⟨_, _, hkp⟩ := Option.bind_eq_some_iff.1 hkp
    obtain ⟨K, hK, hkp⟩ := Option.bind_eq_some_iff.1 hkp
    cases hkp
    simp only [List.map_cons, this, List.replicate_succ, hB.serElem_length _ _ (fromElement_bytes B hK)]

theorem does_dealer (hB : B.Lawful) (params : Params) :
    ∃ tr, ∀ rng, Does (Dealer.newTraced B params rng) tr := by
  obtain ⟨t1, h1⟩ := does_generateKeypairs B params.threshold
  obtain ⟨t2, h2⟩ := does_popNew B (List.replicate params.threshold B.elementSize)
  find; intro rng; unfold Dealer.newTraced
  apply Does.bind; (focus exact h1 _); rintro ⟨l, rng'⟩ hl
  apply Does.bind; (focus prim); rintro _ -
  apply Does.bind; (focus prim); rintro _ -
  apply Does.bind; (focus prim); rintro _ -
  have h3 := h2 l (keys_generateKeypairs B hB hl)
  apply Does.bind; (focus exact h3 _ _); rintro ⟨p, t, rng⟩ -
  prim

theorem does_horner (n : Nat) :
    ∃ tr, ∀ (p : F) (l : List (Keypair F E)), l.length = n → ∀ v, Does (Dealer.hornerTraced p l v) tr := by
  induction n with
  | zero =>
    find; intro p l hl v
    obtain rfl := List.length_eq_zero_iff.1 hl
    unfold Dealer.hornerTraced; seq
  | succ n ih =>
    obtain ⟨t1, h1⟩ := ih
    find; intro p l hl v
    obtain ⟨x, l, rfl⟩ := List.exists_cons_of_length_eq_add_one hl
    have h2 := h1 p l (by simpa using hl)
    unfold Dealer.hornerTraced; seq

theorem does_secretShare (n : Nat) :
    ∃ tr, ∀ d : Dealer F E, d.polynomial.length = n →
      ∀ i, Does (d.secretShareForParticipantTraced i) tr := by
  obtain ⟨t1, h1⟩ := does_horner (F := F) (E := E) n
  find; intro d hd i
  have h2 := fun p => h1 p d.polynomial.reverse (by simpa using hd)
  unfold Dealer.secretShareForParticipantTraced; seq

theorem does_keySetCommit (ks : PublicKeySet E) : ∃ tr, ∀ t, Does (ks.commitTraced t : Traced F E _) tr := by
  find; intro t; unfold PublicKeySet.commitTraced; seq

theorem does_pop (ks : PublicKeySet E) (i : Nat) :
    ∃ tr, ∀ s rng, Does (ActiveParticipant.proofOfPossessionTraced B ⟨ks, i, s⟩ rng) tr := by
  obtain ⟨t1, h1⟩ := does_keySetCommit (F := F) ks
  obtain ⟨t2, h2⟩ := does_fromKeys B ((ks.participantKeys[i]?).toList.map (·.bytes.length))
  find; intro s rng; unfold ActiveParticipant.proofOfPossessionTraced
  apply Does.bind; (focus prim); rintro _ -
  apply Does.bind; (focus exact h1 _); rintro _ -
  apply Does.bind; (focus prim); rintro _ -
  apply Does.bind; (focus prim); rintro K hK
  have hK : ks.participantKeys[i]? = some K := hK
  rw [hK] at h2
  have h3 := h2 [K] rfl [s] rfl
  apply Does.bind; (focus exact h3 _ _); rintro _ -
  prim

theorem does_decryptShare (ks : PublicKeySet E) (i : Nat) (c : Ciphertext E) :
    ∃ tr, ∀ s rng, Does (ActiveParticipant.decryptShareTraced B ⟨ks, i, s⟩ c rng) tr := by
  obtain ⟨t1, h1⟩ := does_keySetCommit (F := F) ks
  obtain ⟨t2, h2⟩ := does_logEq B ((B.serElem c.random).getD []).length
  find; intro s rng; unfold ActiveParticipant.decryptShareTraced
  apply Does.bind; (focus prim); rintro _ -
  apply Does.bind; (focus prim); rintro _ -
  apply Does.bind; (focus prim); rintro _ -
  apply Does.bind; (focus exact h1 _); rintro _ -
  apply Does.bind; (focus prim); rintro _ -
  apply Does.bind; (focus prim); rintro K hK
  have h3 := h2 K (by rw [fromElement_bytes B hK]; rfl)
  seq

end

end ElasticElgamal
