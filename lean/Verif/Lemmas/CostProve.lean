import Verif.Lemmas.Cost
import Verif.Lemmas.Range
import Verif.Props.RangeDecomposition

/-!
# Counting products in range proofs, ballots and votes
-/

set_option autoImplicit false
set_option linter.unusedSectionVars false

namespace ElasticElgamal

open Traced Spec

variable {F E : Type}

/-! ## Sizes of decompositions -/

theorem exists_nested_log (n : ℕ) (h : 2 ≤ n) :
    ∃ rings, Nested n rings ∧ decLen rings ≤ 5 * Nat.log 2 n := by
  induction n using Nat.strong_induction_on with
  | _ n ih =>
    rcases Nat.lt_or_ge n 4 with h4 | h4
    · refine ⟨_, Nested.just n h, ?_⟩
      obtain rfl | rfl : n = 2 ∨ n = 3 := by omega
      · rw [show Nat.log 2 2 = 1 from Nat.log_eq_one_iff.2 (by omega)]; simp [decLen]
      · rw [show Nat.log 2 3 = 1 from Nat.log_eq_one_iff.2 (by omega)]; simp [decLen]
    · have hl : Nat.log 2 n = Nat.log 2 (n / 2) + 1 := Nat.log_of_one_lt_of_le (by omega) h
      obtain ⟨rings, h1, h2⟩ := ih (n / 2) (by omega) (by omega)
      have h3 := Nested.mul (2 + n % 2) 2 (n / 2) rings le_rfl (by omega) (by omega) h1
      rw [show 2 + n % 2 + 2 * (n / 2 - 1) = n by omega] at h3
      refine ⟨_, h3, ?_⟩
      have h5 : decLen (rings.map (fun s => (⟨s.size, s.step * 2⟩ : RingSpec)) ++ [⟨2 + n % 2, 1⟩]) =
          decLen rings + (2 + n % 2 + 2) := by
        simp [decLen, Function.comp_def]
      rw [h5, hl]
      omega

theorem nested_rings_le {n : ℕ} {rings : List RingSpec} (h : Nested n rings) : 2 ^ rings.length ≤ n := by
  induction h with
  | just n h => simpa using h
  | mul t k T rings hk hkt hT inner ih =>
    rw [List.length_append, List.length_map, List.length_singleton, pow_succ]
    have : k * T ≤ t + k * (T - 1) := by
      have : k * T = k * (T - 1) + k := by
        rw [← Nat.mul_succ, Nat.succ_eq_add_one, Nat.sub_add_cancel (by omega)]
      omega
    nlinarith

section
variable [Field F] [AddCommGroup E] [Module F E] (B : Backend F E) [DecidableEq F] [DecidableEq E]

theorem owes_rangeNew (K : PublicKey E) (range : PreparedRange E) (vss : List (List E)) (vs : List E)
    (hv : range.admissibleValues = vss ++ [vs]) (hl : range.inner.rings.length = vss.length + 1)
    (v : ℕ) (t : Transcript) (rng : B.Rng) :
    Owes (RangeProof.newTraced B K range v t rng) 0
      (3 + (ringsCost B vss + (debugCost B + 2 + 4 * (vs.length - 1)) + 0)) fun _ => 0 := by
  unfold RangeProof.newTraced
  apply Owes.bind; (focus exact Uses.owes (uses_withValueU64 B _ _ _) _); rintro ⟨c, rng⟩ -
  apply Owes.bind; (focus exact owes_fromCiphertext B K range vss vs hv hl _ _ _); rintro ⟨p, t, rng⟩ -
  exact Uses.owes (.of rfl) _

/-- Items of all rings. -/
def itemsIn (range : PreparedRange E) : ℕ := (range.inner.rings.map (·.size)).sum

theorem ringsCost_eq (vss : List (List E)) (h : ∀ vs ∈ vss, vs ≠ []) :
    ringsCost B vss = 4 * (vss.map List.length).sum + vss.length * debugCost B := by
  induction vss with
  | nil => simp [ringsCost]
  | cons vs vss ih =>
    have h1 : 0 < vs.length := List.length_pos_iff.2 (h vs (by simp))
    have h2 := ih fun x hx => h x (by simp [hx])
    simp only [ringsCost, List.map_cons, List.sum_cons, List.length_cons] at h2 ⊢
    rw [h2, Nat.add_mul, Nat.one_mul]
    omega

/-- Products in the creation of a range proof. -/
def rangeCost (range : PreparedRange E) : ℕ := 4 * itemsIn range + 1 + range.inner.rings.length * debugCost B

theorem owes_range {n : ℕ} {range : PreparedRange E} (hf : RangeFacts B n range) (K : PublicKey E) (v : ℕ)
    (t : Transcript) (rng : B.Rng) :
    Owes (RangeProof.newTraced B K range v t rng) 0 (rangeCost B range) fun _ => 0 := by
  have hne : range.admissibleValues ≠ [] := by
    rw [hf.values]; simpa using hf.nested.ne_nil
  obtain ⟨vss, vs, hv⟩ : ∃ vss vs, range.admissibleValues = vss ++ [vs] :=
    ⟨_, _, (List.dropLast_append_getLast hne).symm⟩
  have hl : range.inner.rings.length = vss.length + 1 := by
    have := congrArg List.length hv
    rw [hf.values] at this
    simpa using this
  have hpos : ∀ l ∈ range.admissibleValues, l ≠ [] := by
    rw [hf.values]
    intro l hl
    obtain ⟨s, hs, rfl⟩ := List.mem_map.1 hl
    have := (hf.nested.size_step s hs).1
    simp only [ringValues, ne_eq, List.map_eq_nil_iff, List.range_eq_nil]
    omega
  refine (owes_rangeNew B K range vss vs hv hl v t rng).cast ?_
  rw [ringsCost_eq B vss fun l hl' => hpos l (by rw [hv]; simp [hl'])]
  have h1 : 0 < vs.length := List.length_pos_iff.2 (hpos vs (by rw [hv]; simp))
  have h2 := hf.sizes
  rw [hv] at h2
  simp only [List.map_append, List.sum_append, List.map_cons, List.map_nil, List.sum_cons, List.sum_nil] at h2
  rw [rangeCost, itemsIn, ← h2, hl, Nat.add_mul, Nat.one_mul]
  omega

theorem owes_encryptRange {n : ℕ} {range : PreparedRange E} (hf : RangeFacts B n range) (K : PublicKey E) (v : ℕ)
    (rng : B.Rng) : Owes (K.encryptRangeTraced B range v rng) 0 (rangeCost B range) fun _ => 0 := by
  unfold PublicKey.encryptRangeTraced
  apply Owes.cast (n := 0 + (rangeCost B range + 0))
  · apply Owes.bind; (focus exact Uses.owes (.of rfl) _); rintro t -
    apply Owes.bind; (focus exact owes_range B hf K v _ _); rintro ⟨p, t, rng⟩ -
    exact Uses.owes (.of rfl) _
  · omega

/-- Products in the proof of the sum. -/
def sumProveCost : ChoiceKind → ℕ
  | .single => 2
  | .multi => 0

theorem uses_sumProve (kind : ChoiceKind) (c : CiphertextWithValue F E ℕ) (K : PublicKey E) (rng : B.Rng) :
    Uses (SumProof.proveTraced B kind c K rng) (sumProveCost kind) := by
  cases kind with
  | single =>
    refine Uses.cast (n := 0 + (0 + (2 + 0))) ?_ rfl
    unfold SumProof.proveTraced
    exact Uses.bind (n := 0) (.of rfl) fun _ _ => Uses.bind (n := 0) (.of rfl) fun _ _ =>
      Uses.bind (uses_logEq B _ _ _ _ _) fun _ _ => .of rfl
  | multi => exact .of rfl

theorem owes_addChoices (vs : List E) (flags : List Bool) (b : RingProofBuilder B) :
    Owes (EncryptedChoice.addChoicesTraced B vs flags b) b.owing
      (flags.length * (debugCost B + 4 + 4 * (vs.length - 1))) fun a => a.2.owing := by
  induction flags generalizing b with
  | nil =>
    rw [List.length_nil, Nat.zero_mul]
    exact Owes.pure ([], b) fun a => a.2.owing
  | cons f flags ih =>
    unfold EncryptedChoice.addChoicesTraced
    apply Owes.cast (n := (debugCost B + 4 + 4 * (vs.length - 1)) +
      (flags.length * (debugCost B + 4 + 4 * (vs.length - 1)) + 0))
    · apply Owes.bind; (focus exact owes_addValue B b vs _); rintro ⟨c', b'⟩ -
      apply Owes.bind; (focus exact ih _); rintro ⟨l, b⟩ -
      exact Owes.pure (c' :: l, b) fun a => a.2.owing
    · rw [List.length_cons, Nat.add_mul, Nat.one_mul]; omega

theorem uses_sum (flags : List Bool) (s : ℕ) : Uses (EncryptedChoice.sumTraced flags s : Traced F E _) 0 := by
  induction flags generalizing s with
  | nil => exact .of rfl
  | cons f flags ih =>
    unfold EncryptedChoice.sumTraced
    exact Uses.bind (n := 0) (m := 0) (.of rfl) fun _ _ => ih _

theorem uses_sumCiphertexts (l : List (ExtendedCiphertext F E)) (s : ExtendedCiphertext F E) :
    Uses (EncryptedChoice.sumCiphertextsTraced l s) 0 := by
  induction l generalizing s with
  | nil => exact .of rfl
  | cons f l ih =>
    unfold EncryptedChoice.sumCiphertextsTraced
    exact Uses.bind (n := 0) (m := 0) (uses_extAdd _ _) fun _ _ => ih _

theorem owes_choice {kind : ChoiceKind} (params : ChoiceParams E kind) (flags : List Bool) (rng : B.Rng) :
    Owes (EncryptedChoice.newTraced B params flags rng) 0
      (params.optionsCount * (8 + debugCost B) + sumProveCost kind) fun _ => 0 := by
  unfold EncryptedChoice.newTraced
  apply Owes.cast (n := 0 + (0 + (0 + (0 + (0 + (params.optionsCount * (debugCost B + 4 + 4 * (2 - 1)) +
    (0 + (0 + (0 + (sumProveCost kind + 0))))))))))
  · apply Owes.bind; (focus exact Uses.owes (.of rfl) _); rintro _ -
    apply Owes.bind; (focus exact Uses.owes (.of rfl) _); rintro _ hn
    have hn : flags.length = params.optionsCount := assert_val hn
    apply Owes.bind; (focus exact Uses.owes (.of rfl) _); rintro _ -
    apply Owes.bind; (focus exact Uses.owes (uses_builderNew B _ _ _ _) _); rintro b hb
    apply Owes.bind; (focus exact Uses.owes (uses_sum _ _) _); rintro _ -
    have h6 := owes_addChoices B [0, B.gen] flags b
    rw [owing_builderNew B hb, hn] at h6
    apply Owes.bind; (focus exact h6); rintro ⟨l, b'⟩ -
    apply Owes.bind; (focus exact owes_build B b'); rintro ⟨ch, rs, t, rng⟩ -
    apply Owes.bind; (focus exact Uses.owes (.of rfl) _); rintro _ -
    apply Owes.bind; (focus exact Uses.owes (uses_sumCiphertexts _ _) _); rintro _ -
    apply Owes.bind; (focus exact Uses.owes (uses_sumProve B kind _ _ _) _); rintro _ -
    exact Uses.owes (.of rfl) _
  · rw [show debugCost B + 4 + 4 * (2 - 1) = 8 + debugCost B by omega]; omega

theorem owes_single (params : ChoiceParams E .single) (c : ℕ) (rng : B.Rng) :
    Owes (EncryptedChoice.singleTraced B params c rng) 0 (params.optionsCount * (8 + debugCost B) + 2) fun _ => 0 := by
  unfold EncryptedChoice.singleTraced
  apply Owes.cast (n := 0 + (params.optionsCount * (8 + debugCost B) + sumProveCost .single))
  · apply Owes.bind; (focus exact Uses.owes (.of rfl) _); rintro _ -
    exact owes_choice B params _ _
  · simp [sumProveCost]

theorem uses_popScalars (n : ℕ) (t : Transcript) (rng : B.Rng) :
    Uses (ProofOfPossession.drawRandomScalarsTraced B n t rng) n := by
  induction n generalizing t rng with
  | zero => exact .of rfl
  | succ n ih =>
    unfold ProofOfPossession.drawRandomScalarsTraced
    refine Uses.cast (n := 0 + (1 + (0 + (n + 0)))) ?_ (by omega)
    exact Uses.bind (.of rfl) fun _ _ => Uses.bind (.of rfl) fun _ _ =>
      Uses.bind (uses_appendElement B _ _ _) fun _ _ => Uses.bind (ih _ _) fun _ _ => .of rfl

theorem uses_popResponses (ch : F) (l : List (F × F)) :
    Uses (ProofOfPossession.responsesTraced ch l : Traced F E _) 0 := by
  induction l with
  | nil => exact .of rfl
  | cons x l ih =>
    obtain ⟨a, b⟩ := x
    unfold ProofOfPossession.responsesTraced
    exact Uses.bind (n := 0) (m := 0 + (0 + 0)) (.of rfl) fun _ _ => Uses.bind (.of rfl) fun _ _ =>
      Uses.bind ih fun _ _ => .of rfl

theorem uses_pop (ks : List (Keypair F E)) (t : Transcript) (rng : B.Rng) :
    Uses (ProofOfPossession.newTraced B ks t rng) ks.length := by
  unfold ProofOfPossession.newTraced ProofOfPossession.fromKeysTraced
  refine Uses.cast (n := 0 + (0 + (ks.length + (0 + (0 + 0))))) ?_ (by omega)
  have h := fun t => uses_popScalars B (ks.map (·.publicKey)).length t rng
  rw [List.length_map] at h
  simp only [List.length_map]
  exact Uses.bind (.of rfl) fun _ _ => Uses.bind (uses_appendKeys _ _) fun _ _ => Uses.bind (h _) fun _ _ =>
    Uses.bind (.of rfl) fun _ _ => Uses.bind (uses_popResponses _ _) fun _ _ => .of rfl

theorem uses_commitLoop (K : PublicKey E) (cs : List (CiphertextWithValue F E)) (s : F) (t : Transcript)
    (rng : B.Rng) : Uses (SumOfSquaresProof.commitLoopTraced B K cs s t rng) (3 * cs.length) := by
  induction cs generalizing s t rng with
  | nil => exact .of rfl
  | cons c cs ih =>
    unfold SumOfSquaresProof.commitLoopTraced
    have h0 := uses_appendElement B
    refine Uses.cast (n := 0 + (0 + (0 + (1 + (0 + (0 + (1 + (1 + (0 + (0 + (0 + (0 + (0 + (3 * cs.length + 0))))))))))))))
      ?_ (by simp; omega)
    refine Uses.bind (h0 _ _ _) fun _ _ => Uses.bind (h0 _ _ _) fun _ _ => Uses.bind (.of rfl) fun _ _ =>
      Uses.bind (.of rfl) fun _ _ => Uses.bind (h0 _ _ _) fun _ _ => Uses.bind (.of rfl) fun _ _ =>
      Uses.bind (.of rfl) fun _ _ => Uses.bind (.of rfl) fun _ _ => Uses.bind (.of rfl) fun _ _ =>
      Uses.bind (h0 _ _ _) fun _ _ => Uses.bind (.of rfl) fun _ _ => Uses.bind (.of rfl) fun _ _ =>
      Uses.bind (.of rfl) fun _ _ => Uses.bind (ih _ _ _) fun _ _ => .of rfl

theorem uses_sumSqResponses (ch : F) (l : List (CiphertextWithValue F E × F × F)) :
    Uses (SumOfSquaresProof.responsesTraced ch l : Traced F E _) 0 := by
  induction l with
  | nil => exact .of rfl
  | cons x l ih =>
    obtain ⟨a, b, c⟩ := x
    unfold SumOfSquaresProof.responsesTraced
    exact Uses.bind (n := 0) (m := 0 + (0 + (0 + (0 + 0)))) (.of rfl) fun _ _ => Uses.bind (.of rfl) fun _ _ =>
      Uses.bind (.of rfl) fun _ _ => Uses.bind (.of rfl) fun _ _ => Uses.bind ih fun _ _ => .of rfl

theorem uses_sumSq (cs : List (CiphertextWithValue F E)) (c : CiphertextWithValue F E) (K : PublicKey E)
    (t : Transcript) (rng : B.Rng) : Uses (SumOfSquaresProof.newTraced B cs c K t rng) (5 * cs.length + 2) := by
  have h0 := uses_appendElement B
  unfold SumOfSquaresProof.newTraced
  refine Uses.cast (n := 0 + (0 + (0 + (3 * cs.length + ((cs.length + 1) + ((cs.length + 1) + (0 + (0 + (0 + (0 + (0 +
    (0 + (0 + (0 + 0)))))))))))))) ?_ (by omega)
  refine Uses.bind (.of rfl) fun _ _ => Uses.bind (.of rfl) fun _ _ => Uses.bind (.of rfl) fun _ _ =>
    Uses.bind (uses_commitLoop B _ _ _ _ _) fun a ha => ?_
  have hl := length_commitLoop B ha
  exact Uses.bind (uses_multiMul (by simp [hl]) _) fun _ _ => Uses.bind (uses_multiMul (by simp [hl]) _) fun _ _ =>
    Uses.bind (h0 _ _ _) fun _ _ => Uses.bind (h0 _ _ _) fun _ _ => Uses.bind (h0 _ _ _) fun _ _ =>
    Uses.bind (h0 _ _ _) fun _ _ => Uses.bind (.of rfl) fun _ _ => Uses.bind (uses_sumSqResponses _ _) fun _ _ =>
    Uses.bind (.of rfl) fun _ _ => Uses.bind (.of rfl) fun _ _ => .of rfl

theorem uses_creditOf (d : Bool) (votes : List ℕ) (s : ℕ) :
    Uses (QuadraticVotingBallot.creditOfTraced d votes s : Traced F E _) 0 := by
  induction votes generalizing s with
  | nil => exact .of rfl
  | cons v votes ih =>
    unfold QuadraticVotingBallot.creditOfTraced
    exact Uses.bind (n := 0) (m := 0 + 0) (.of rfl) fun _ _ => Uses.bind (.of rfl) fun _ _ => ih _

theorem owes_encryptVotes {n : ℕ} {range : PreparedRange E} (hf : RangeFacts B n range) (K : PublicKey E)
    (votes : List ℕ) (rng : B.Rng) :
    Owes (QuadraticVotingBallot.encryptVotesTraced B K range votes rng) 0 (votes.length * rangeCost B range)
      fun _ => 0 := by
  induction votes generalizing rng with
  | nil => rw [List.length_nil, Nat.zero_mul]; exact Uses.owes (.of rfl) _
  | cons v votes ih =>
    unfold QuadraticVotingBallot.encryptVotesTraced
    apply Owes.cast (n := 0 + (rangeCost B range + (votes.length * rangeCost B range + 0)))
    · apply Owes.bind; (focus exact Uses.owes (.of rfl) _); rintro _ -
      apply Owes.bind; (focus exact owes_range B hf K _ _ _); rintro _ -
      apply Owes.bind; (focus exact ih _); rintro _ -
      exact Uses.owes (.of rfl) _
    · rw [List.length_cons, Nat.add_mul, Nat.one_mul]; omega

theorem owes_ballot {n m : ℕ} (params : QuadraticVotingParams E) (h1 : RangeFacts B n params.voteCountRange)
    (h2 : RangeFacts B m params.creditRange) (votes : List ℕ) (rng : B.Rng) :
    Owes (QuadraticVotingBallot.newTraced B params votes rng) 0
      (params.optionsCount * rangeCost B params.voteCountRange + rangeCost B params.creditRange +
        (5 * params.optionsCount + 2)) fun _ => 0 := by
  unfold QuadraticVotingBallot.newTraced
  apply Owes.cast (n := 0 + (0 + (params.optionsCount * rangeCost B params.voteCountRange + (0 +
    (rangeCost B params.creditRange + (0 + ((5 * params.optionsCount + 2) + 0)))))))
  · apply Owes.bind; (focus exact Uses.owes (.of rfl) _); rintro _ hn
    have hn : votes.length = params.optionsCount := assert_val hn
    rw [← hn]
    apply Owes.bind; (focus exact Uses.owes (uses_creditOf _ _ _) _); rintro _ -
    apply Owes.bind; (focus exact owes_encryptVotes B h1 _ votes _); rintro ⟨l, rng⟩ hl
    have hl := length_encryptVotes B hl
    apply Owes.bind; (focus exact Uses.owes (.of rfl) _); rintro _ -
    apply Owes.bind; (focus exact owes_range B h2 _ _ _ _); rintro ⟨⟨c, p⟩, t, rng⟩ -
    apply Owes.bind; (focus exact Uses.owes (.of rfl) _); rintro _ -
    have h3 := fun c t rng => uses_sumSq B (l.map Prod.fst) c params.receiver t rng
    rw [List.length_map, hl] at h3
    apply Owes.bind; (focus exact Uses.owes (h3 _ _ _) _); rintro _ -
    exact Uses.owes (.of rfl) _
  · omega

end
end ElasticElgamal
