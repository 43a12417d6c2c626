import Verif.Lemmas.ThresholdPrivacy
import Verif.Spec.DkgElection
import Verif.Props.Dkg
import Verif.Props.Privacy

/-!
# Lemmas: simulation of distributed key generation
-/

set_option autoImplicit false
set_option linter.unusedSectionVars false

namespace ElasticElgamal

open Spec

/-! ## Random hash functions in two steps -/

/-- A random hash function chosen in two steps. -/
theorem meanHash_split {Q A : Type} [Fintype A] [Nonempty A] (D : Finset Q) (P : Q → Prop) [DecidablePred P]
    (H₀ : Q → A) (f : (Q → A) → ℚ) :
    meanHash D H₀ f = meanHash (D.filter fun q => ¬ P q) H₀ fun H => meanHash (D.filter P) H f := by
  classical
  have hcard : D.card = (D.filter P).card + (D.filter fun q => ¬ P q).card :=
    (Finset.card_filter_add_card_filter_not P).symm
  simp only [meanHash, card_hashFamily]
  rw [← Finset.sum_div, div_div, hcard, pow_add, Nat.cast_mul]
  congr 1
  rw [← Finset.sum_fiberwise_of_maps_to (s := hashFamily D H₀) (t := hashFamily (D.filter fun q => ¬ P q) H₀)
    (g := fun H q => if q ∈ D.filter P then H₀ q else H q)]
  · refine Finset.sum_congr rfl fun H₁ h1 => Finset.sum_congr ?_ fun _ _ => rfl
    rw [mem_hashFamily] at h1
    ext H
    simp only [Finset.mem_filter, mem_hashFamily]
    constructor
    · rintro ⟨h, rfl⟩ q hq
      exact (if_neg hq).symm
    · intro h
      refine ⟨fun q hq => ?_, funext fun q => ?_⟩
      · rw [h q fun hc => hq hc.1, h1 q]
        exact fun hc => hq (Finset.mem_filter.mp hc).1
      · split
        · rename_i hq
          refine (h1 q fun hc => ?_).symm
          exact (Finset.mem_filter.mp hc).2 hq.2
        · rename_i hq
          exact h q hq
  · intro H hH
    rw [mem_hashFamily] at hH ⊢
    intro q hq
    split
    · rfl
    · rename_i hq'
      refine hH q fun hc => ?_
      by_cases hp : P q
      · exact hq' (Finset.mem_filter.mpr ⟨hc, hp⟩)
      · exact hq (Finset.mem_filter.mpr ⟨hc, hp⟩)

/-- Means over hash functions depend only on the functions considered. -/
theorem meanHash_congr {Q A : Type} [Finite A] {D : Finset Q} {H₀ : Q → A} {f g : (Q → A) → ℚ}
    (h : ∀ H, (∀ q ∉ D, H q = H₀ q) → f H = g H) : meanHash D H₀ f = meanHash D H₀ g := by
  rw [meanHash, meanHash]
  congr 1
  exact Finset.sum_congr rfl fun H hH => h H (mem_hashFamily.mp hH)

theorem abs_meanHash_sub_le {Q A : Type} [Fintype A] [Nonempty A] {D : Finset Q} {H₀ : Q → A} (f g : (Q → A) → ℚ) {ε : ℚ}
    (h : ∀ H, |f H - g H| ≤ ε) : |meanHash D H₀ f - meanHash D H₀ g| ≤ ε := by
  rw [← meanHash_const D H₀ ε]
  simp only [meanHash]
  rw [← sub_div, ← Finset.sum_sub_distrib, abs_div, Nat.abs_cast]
  exact div_le_div_of_nonneg_right ((Finset.abs_sum_le_sum_abs _ _).trans (Finset.sum_le_sum fun H _ => h H))
    (Nat.cast_nonneg _)

namespace HashOnce

variable {Q A S T O : Type} [Fintype A] [Fintype S] [Fintype T] [DecidableEq Q] {out : (Q → A) → T → O} {dec : S → O}
  {query : S → Q} {answer : S → A}

open Classical in
/-- Outputs depend only on the hash values of the data hashed last. -/
theorem mean_congr (h : HashOnce out dec query answer) {H H' : Q → A} (hH : ∀ s, H (query s) = H' (query s))
    (f : O → ℚ) : (mean fun t => f (out H t)) = mean fun t => f (out H' t) := by
  rw [mean, mean, sum_outputs h.inj (h.unique H) (h.cover H) f, sum_outputs h.inj (h.unique H') (h.cover H') f]
  simp only [hH]

/-- A single prover can be simulated without error. -/
theorem simulation [Nonempty A] (h : HashOnce out dec query answer) (D : Finset Q) (hD : ∀ s, query s ∈ D) (H₀ : Q → A)
    (f : (Q → A) → O → ℚ) : (meanHash D H₀ fun H => mean fun t => f H (out H t)) =
      mean fun s => meanHash D H₀ fun H => f (program H [(query s, answer s)]) (dec s) := by
  refine rom_simulation (pts := fun _ s => [(query s, answer s)]) (k := 1) ⟨fun _ _ _ _ => rfl, fun _ _ => rfl, ?_⟩ ?_ H₀
    out dec h.inj ?_ ?_ ?_ f
  · intro H s qa hqa
    rw [List.mem_singleton] at hqa
    rw [hqa]
    exact hD s
  · intro H s
    simp
  · intro H s hs
    exact h.unique H s (hs _ (List.mem_singleton_self _))
  · intro H t
    obtain ⟨s, hs, ht⟩ := h.cover H t
    exact ⟨s, fun qa hqa => by rw [List.mem_singleton.mp hqa]; exact hs, ht⟩
  · rw [pow_one, h.card]

end HashOnce

variable {F E : Type} [Field F] [AddCommGroup E] [Module F E] [DecidableEq F] [DecidableEq E]

/-! ## Sums of polynomials -/

theorem polyAt_ofFn_sum {V ι : Type} [AddCommGroup V] [Module F V] [Fintype ι] {m : ℕ} (x : F) (f : ι → Fin m → V) :
    polyAt x (List.ofFn fun i => ∑ j, f j i) = ∑ j, polyAt x (List.ofFn (f j)) := by
  have h : ∀ g : Fin m → V, polyAt x (List.ofFn g) = ∑ i, x ^ i.1 • g i := by
    intro g
    rw [polyAt_eq_sum, List.length_ofFn, Finset.sum_range]
    refine Finset.sum_congr rfl fun i _ => ?_
    simp [List.getD_eq_getElem?_getD]
  simp only [h, Finset.smul_sum]
  exact Finset.sum_comm

/-- Coefficients of the sum of all polynomials. -/
def totalCoefficients {params : Params} (honest : Fin params.shares) (cs : Fin params.threshold → F)
    (secrets : Fin params.shares → Fin params.threshold → F) (m : Fin params.threshold) : F :=
  ∑ j, if j = honest then cs m else secrets j m

theorem polyAt_total {params : Params} (honest : Fin params.shares) (cs : Fin params.threshold → F)
    (secrets : Fin params.shares → Fin params.threshold → F) (x : F) :
    polyAt x (List.ofFn (totalCoefficients honest cs secrets)) =
      polyAt x (List.ofFn cs) + offsetAt honest secrets x := by
  have h1 : totalCoefficients honest cs secrets = fun m => ∑ j, (if j = honest then cs else secrets j) m := by
    funext m
    exact Finset.sum_congr rfl fun j _ => by split <;> rfl
  rw [h1, polyAt_ofFn_sum x fun j => if j = honest then cs else secrets j, offsetAt]
  rw [← Finset.add_sum_erase _ _ (Finset.mem_univ honest), if_pos rfl]
  congr 1
  rw [← Finset.add_sum_erase (a := honest) Finset.univ (fun j => if j = honest then (0 : F) else _) (Finset.mem_univ honest),
    if_pos rfl, zero_add]
  refine Finset.sum_congr rfl fun j hj => ?_
  rw [if_neg (Finset.ne_of_mem_erase hj), if_neg (Finset.ne_of_mem_erase hj)]

theorem sum_shares {params : Params} (honest : Fin params.shares) (cs : Fin params.threshold → F)
    (secrets : Fin params.shares → Fin params.threshold → F) (x : F) :
    (∑ j, if j = honest then polyAt x (List.ofFn cs) else polyAt x (List.ofFn (secrets j))) =
      polyAt x (List.ofFn (totalCoefficients honest cs secrets)) := by
  rw [show totalCoefficients honest cs secrets = fun m => ∑ j, (if j = honest then cs else secrets j) m by
    funext m
    exact Finset.sum_congr rfl fun j _ => by split <;> rfl, polyAt_ofFn_sum x fun j => if j = honest then cs else secrets j]
  exact Finset.sum_congr rfl fun j _ => by split <;> rfl

/-- Public polynomials of all participants. -/
def dkgPolynomialsOf (B : Backend F E) {params : Params} (honest : Fin params.shares) (cs : Fin params.threshold → F)
    (secrets : Fin params.shares → Fin params.threshold → F) : List (List E) :=
  List.ofFn fun j => if j = honest then dealtPoly B params cs else List.ofFn fun m => secrets j m • B.gen

theorem dkgPolynomialsOf_sum (B : Backend F E) {params : Params} (honest : Fin params.shares)
    (cs : Fin params.threshold → F) (secrets : Fin params.shares → Fin params.threshold → F) :
    (∀ poly ∈ dkgPolynomialsOf B honest cs secrets, poly.length = params.threshold) ∧
    polySum params.threshold (dkgPolynomialsOf B honest cs secrets) =
      dealtPoly B params (totalCoefficients honest cs secrets) := by
  constructor
  · intro poly hp
    rw [dkgPolynomialsOf, List.mem_ofFn'] at hp
    obtain ⟨j, rfl⟩ := hp
    simp only
    split <;> simp [dealtPoly]
  · refine List.ext_getElem (by simp [polySum, dealtPoly]) fun m h1 h2 => ?_
    have hm : m < params.threshold := by simpa [polySum] using h1
    simp only [polySum, dkgPolynomialsOf, dealtPoly, List.getElem_map, List.getElem_range, List.map_ofFn, List.sum_ofFn,
      List.getElem_ofFn, totalCoefficients, Finset.sum_smul, Function.comp_apply]
    refine Finset.sum_congr rfl fun j _ => ?_
    split <;> simp [List.getD_eq_getElem?_getD, hm]

/-! ## Participants -/

/-- Participants after key generation. -/
theorem dkgParticipant_eq (B : Backend F E) (hT : B.TotalSer) (p : ℕ) [CharP F p] (params : Params)
    (hv : ValidParams params) (hp : params.shares < p) (dealer : Dealer F E) (polys : List (List E))
    (hlen : polys.length = params.shares) (hdeg : ∀ poly ∈ polys, poly.length = params.threshold) (i : ℕ)
    (hi : i < params.shares) (share : F)
    (hs : share • B.gen = polyAt ((i : F) + 1) (polySum params.threshold polys)) :
    dkgParticipant B params dealer polys i share = some ⟨keySetOf B params (polySum params.threshold polys), i, share⟩ := by
  have hm : (⟨params, i, dealer, polys, share, List.replicate params.shares true⟩ :
      ExchangingSecrets F E).missingShares = [] := by
    rw [ExchangingSecrets.missingShares, missingIndexes_eq_nil]
    intro x hx
    rw [List.eq_of_mem_replicate hx]
    rfl
  have h := complete_eq_of B p params hv hp i hi
    ⟨params, i, dealer, polys, share, List.replicate params.shares true⟩ rfl rfl hlen hdeg hm
  simp only [if_pos hs, fromElement_keyOf hT] at h
  have hk : (List.range params.shares).mapM (fun i : ℕ => (some (keyOf B (polyAt ((i : F) + 1)
      (polySum params.threshold polys))) : Option (PublicKey E))) =
      some (List.ofFn fun i : Fin params.shares => keyOf B (polyAt ((i : F) + 1) (polySum params.threshold polys))) := by
    have h2 : ∀ (l : List ℕ) (g : ℕ → PublicKey E), l.mapM (fun i => (some (g i) : Option (PublicKey E))) =
        some (l.map g) := by
      intro l g
      induction l with
      | nil => rfl
      | cons x l ih => simp [List.mapM_cons, ih]
    rw [h2]
    congr 1
    refine List.ext_getElem (by simp) fun m h1 h2 => by simp
  rw [hk, Option.bind_some, Option.map_some] at h
  rw [dkgParticipant, h, keySetOf]

/-! ## Runs -/

section
variable [Fintype F] (B : Backend F E) (hB : B.Lawful) (hT : B.TotalSer) (params : Params) {o : ℕ}

/-- Indexes of proofs made by participants. -/
abbrev ElectionIndex (shares o : ℕ) : Type := Fin shares ⊕ Fin shares × Fin o

/-- What the attacker sees, for given proofs of participants. -/
def electionGuess {β : Type} {n c : ℕ} (cs : Fin params.threshold → F) (info : List E × ProofOfPossession F)
    (corrupted : Fin c → F) (guess : (List Entry → F) → ThresholdView F E β n o c params.shares → ℚ)
    (H : List Entry → F) (ballots : Fin n → Option β)
    (outs : ∀ i : ElectionIndex params.shares o, ProofOutput F E (.inr i)) : ℚ :=
  guess H
    { publicInfo := info
      keySet := keySetOf B params (dealtPoly B params cs)
      corrupted
      ballots
      possession := fun i => outs (.inl i)
      decryptions := fun i j => outs (.inr (i, j)) }

/-- What the attacker sees, after key generation. -/
noncomputable def electionMean {β : Type} {n c d : ℕ} (poll : Poll F E β n o d) (cs : Fin params.threshold → F)
    (info : List E × ProofOfPossession F) (corrupted : Fin c → F)
    (guess : (List Entry → F) → ThresholdView F E β n o c params.shares → ℚ) (H : List Entry → F) : ℚ :=
  mean fun tapes : Fin n → Fin d → F =>
  mean fun ts : ∀ i : ElectionIndex params.shares o, ProofTape F params.threshold (.inr i) =>
    let K := keyOf B (polyAt (0 : F) (dealtPoly B params cs))
    let ballots := poll.ballots (B.withHash H) K tapes
    electionGuess B params cs info corrupted guess H ballots fun i =>
      proofOut B params cs (poll.totals ballots) (.inr i) H (ts i)

/-- The dealer's proof. -/
def dealerOut (cs : Fin params.threshold → F) (H : List Entry → F) (ns : Fin params.threshold → F) :
    Option (ProofOfPossession F) :=
  (ProofOfPossession.fromKeys (B.withHash H).withTape (List.ofFn cs) (List.ofFn fun a => keyOf B (cs a • B.gen))
    (sharePolyTranscript params) (List.ofFn ns)).map Prod.fst

include hB hT in
theorem dealer_hashOnce (hm : 0 < params.threshold) (cs : Fin params.threshold → F) :
    HashOnce (dealerOut B params cs) (fun s : F × (Fin params.threshold → F) => some ⟨s.1, List.ofFn s.2⟩)
      (popInput B (fun a => keyOf B (cs a • B.gen)) (sharePolyTranscript params)) Prod.fst :=
  pop_hashOnce B hB hT hm cs (fun a => keyOf B (cs a • B.gen)) (fun _ => keyOf_element hT _) (sharePolyTranscript params)

include hB hT in
/-- Runs of key generation and elections. -/
theorem dkgRun_eq (p : ℕ) [CharP F p] (hv : ValidParams params) (hp : params.shares < p) {β : Type} {n c d : ℕ}
    (honest : Fin params.shares) (bad : Fin c → ℕ) (hbad : ∀ a, bad a < params.shares) (others : DkgStrategy F E params c)
    (poll : Poll F E β n o d) (guess : (List Entry → F) → ThresholdView F E β n o c params.shares → ℚ)
    (H : List Entry → F) (cs ns : Fin params.threshold → F) (pop : ProofOfPossession F)
    (hpop : dealerOut B params cs H ns = some pop) :
    dkgRun B params honest bad others poll guess H (List.ofFn cs ++ List.ofFn ns) =
      let corrupted := fun a => polyAt ((bad a : F) + 1) (List.ofFn cs)
      electionMean B params poll
        (totalCoefficients honest cs (others H (dealtPoly B params cs, pop) corrupted)) (dealtPoly B params cs, pop)
        corrupted guess H := by
  have hl : (List.ofFn cs).length = params.threshold := List.length_ofFn
  have hd := dealer_tape B hT H params (List.ofFn cs) (List.ofFn ns) hl
  rw [show (List.ofFn cs).map (fun x => keyOf B (x • B.gen)) = List.ofFn fun a => keyOf B (cs a • B.gen) by
    rw [List.map_ofFn]; rfl] at hd
  obtain ⟨⟨pop', t', rest⟩, hp', hpop'⟩ := Option.map_eq_some_iff.mp hpop
  simp only at hpop'
  subst hpop'
  rw [hp', Option.map_some] at hd
  have hinfo : (⟨params, (List.ofFn cs).map fun x => ⟨x, keyOf B (x • B.gen)⟩, pop'⟩ : Dealer F E).publicInfo =
      (dealtPoly B params cs, pop') := by
    simp only [Dealer.publicInfo, List.map_map, dealtPoly]
    congr 1
    refine List.map_congr_left fun x _ => ?_
    exact keyOf_element hT _
  have hshare : ∀ i, i < params.shares → ((⟨params, (List.ofFn cs).map fun x => ⟨x, keyOf B (x • B.gen)⟩, pop'⟩ :
      Dealer F E).secretShareForParticipant i).getD 0 = polyAt ((i : F) + 1) (List.ofFn cs) := by
    intro i hi
    rw [Dealer.share_eq]
    simp only [List.map_map]
    rw [if_pos hi, show (List.ofFn cs).map (Keypair.secret ∘ fun x => (⟨x, keyOf B (x • B.gen)⟩ : Keypair F E)) =
      List.ofFn cs from List.map_id' _]
    rfl
  have hcor : (fun a => ((⟨params, (List.ofFn cs).map fun x => ⟨x, keyOf B (x • B.gen)⟩, pop'⟩ :
      Dealer F E).secretShareForParticipant (bad a)).getD 0) = fun a => polyAt ((bad a : F) + 1) (List.ofFn cs) :=
    funext fun a => hshare _ (hbad a)
  simp only [dkgRun, hd, hinfo, hcor]
  generalize hsec : others H (dealtPoly B params cs, pop') (fun a => polyAt ((bad a : F) + 1) (List.ofFn cs)) = secrets
  obtain ⟨hdeg, hsum⟩ := dkgPolynomialsOf_sum B honest cs secrets
  have hpart : ∀ i : Fin params.shares, dkgParticipant (B.withHash H) params
      ⟨params, (List.ofFn cs).map fun x => ⟨x, keyOf B (x • B.gen)⟩, pop'⟩ (dkgPolynomialsOf B honest cs secrets) i
      (∑ j : Fin params.shares, if j = honest then ((⟨params, (List.ofFn cs).map fun x => ⟨x, keyOf B (x • B.gen)⟩, pop'⟩ :
        Dealer F E).secretShareForParticipant i).getD 0 else polyAt ((i.1 : F) + 1) (List.ofFn (secrets j))) =
      some ⟨keySetOf B params (dealtPoly B params (totalCoefficients honest cs secrets)), i,
        polyAt ((i : F) + 1) (List.ofFn (totalCoefficients honest cs secrets))⟩ := by
    intro i
    rw [hshare i i.2, sum_shares]
    have := dkgParticipant_eq (B.withHash H) hT p params hv hp
      ⟨params, (List.ofFn cs).map fun x => ⟨x, keyOf B (x • B.gen)⟩, pop'⟩ (dkgPolynomialsOf B honest cs secrets)
      (by simp [dkgPolynomialsOf]) hdeg i i.2 (polyAt ((i : F) + 1) (List.ofFn (totalCoefficients honest cs secrets))) (by
        rw [hsum, dealtPoly, polyAt_smul])
    rw [this, hsum]
    rfl
  have hpoly : (List.ofFn fun j : Fin params.shares => if j = honest then dealtPoly B params cs
      else List.ofFn fun m => secrets j m • B.gen) = dkgPolynomialsOf B honest cs secrets := rfl
  simp only [hpoly, hpart]
  rw [electionMean]
  congr 1
  funext tapes
  have h1 : ∀ f : (∀ i : ElectionIndex params.shares o, ProofTape F params.threshold (.inr i)) → ℚ, mean f =
      mean fun ys : Fin params.shares → F => mean fun xs : Fin params.shares → Fin o → F =>
        f (fun i => proofFamily (S := ProofTape F params.threshold) (0 : Fin params.threshold → F) ys xs (.inr i)) := by
    intro f
    let e : (Fin params.shares → F) × (Fin params.shares → Fin o → F) ≃
        (∀ i : ElectionIndex params.shares o, ProofTape F params.threshold (.inr i)) :=
      { toFun := fun q i => proofFamily (S := ProofTape F params.threshold) (0 : Fin params.threshold → F) q.1 q.2 (.inr i)
        invFun := fun g => (fun i => g (.inl i), fun i j => g (.inr (i, j)))
        left_inv := fun _ => rfl
        right_inv := fun g => by
          funext i
          rcases i with i | ⟨i, j⟩ <;> rfl }
    rw [← mean_equiv e, mean_prod]
    rfl
  rw [h1]
  congr 1
  funext ys
  congr 1
  funext xs
  simp only [electionGuess]
  congr 2
  · funext i
    exact dealt_possession B hT H params (List.ofFn (totalCoefficients honest cs secrets)) List.length_ofFn i (ys i)
  · funext i j
    exact dealt_share B hT H params (List.ofFn (totalCoefficients honest cs secrets)) List.length_ofFn i _ (xs i j)

/-! ## Proofs of participants -/

/-- All indexes. -/
def electionIndexes (shares o : ℕ) : List (ElectionIndex shares o) :=
  (List.ofFn fun i : Fin shares => [.inl i]).flatten ++
    (List.ofFn fun i : Fin shares => (List.ofFn fun j : Fin o => [.inr (i, j)]).flatten).flatten

theorem mem_electionIndexes {shares o : ℕ} (i : ElectionIndex shares o) : i ∈ electionIndexes shares o := by
  simp only [electionIndexes, List.mem_append, List.mem_flatten, List.mem_ofFn', Set.mem_range]
  rcases i with i | ⟨i, j⟩
  · exact .inl ⟨_, ⟨i, rfl⟩, by simp⟩
  · refine .inr ⟨_, ⟨i, rfl⟩, ?_⟩
    rw [List.mem_flatten]
    exact ⟨_, (List.mem_ofFn' _ _).mpr ⟨j, rfl⟩, by simp⟩

theorem length_electionIndexes (shares o : ℕ) : (electionIndexes shares o).length = shares + shares * o := by
  rw [electionIndexes, List.length_append, length_flatten_ofFn (k := 1) _ fun _ => rfl,
    length_flatten_ofFn (k := o) _ fun _ => by rw [length_flatten_ofFn (k := 1) _ fun _ => rfl, mul_one], mul_one]

theorem nodup_electionIndexes (shares o : ℕ) : (electionIndexes shares o).Nodup := by
  have h : (electionIndexes shares o).toFinset = Finset.univ := by
    ext i
    simp [mem_electionIndexes]
  have h1 := congrArg Finset.card h
  rw [Finset.card_univ, Fintype.card_sum, Fintype.card_prod, Fintype.card_fin, Fintype.card_fin] at h1
  have h2 : ((electionIndexes shares o : Multiset (ElectionIndex shares o)).toFinset).card =
      Multiset.card (electionIndexes shares o : Multiset (ElectionIndex shares o)) := by
    rw [Multiset.coe_card, length_electionIndexes]
    exact h1
  exact Multiset.coe_nodup.mp (Multiset.toFinset_card_eq_card_iff_nodup.mp h2)

/-- Simulated proofs. -/
def simulatedElection {β : Type} {n c : ℕ} (cs : Fin params.threshold → F) (info : List E × ProofOfPossession F)
    (corrupted : Fin c → F) (totals : (Fin n → Option β) → Fin o → Ciphertext E)
    (guess : (List Entry → F) → ThresholdView F E β n o c params.shares → ℚ) (H : List Entry → F)
    (ballots : Fin n → Option β) : ℚ :=
  mean fun ss : ∀ i : ElectionIndex params.shares o, ProofScalars F params.threshold (.inr i) =>
    electionGuess B params cs info corrupted guess
      (program H (familyPoints (fun i => proofQuery B params cs (totals ballots) (.inr i)) (fun i => proofAnswer (.inr i))
        (electionIndexes params.shares o) ss))
      ballots fun i => proofDec params cs (totals ballots) (.inr i) (ss i)

open Classical in
include hB hT in
/-- Proofs of participants can be simulated up to collisions. -/
theorem election_simulation [Finite E] (hm : 0 < params.threshold) {n c : ℕ} {kind : ChoiceKind} (ho : o ≠ 0)
    (cs : Fin params.threshold → F) (info : List E × ProofOfPossession F)
    (corrupted : Fin c → F) (K : PublicKey E) (k : F) (hk : K.element = k • B.gen)
    (D : Finset (List Entry)) (hD : ∀ (cs : Fin params.threshold → F) (cts : Fin o → Ciphertext E)
      (i : ElectionIndex params.shares o) s, proofQuery B params cs cts (.inr i) s ∈ D) (H₀ : List Entry → F)
    (votes : Fin n → Fin o → Bool) (hone : ∀ v, kind = .single → (List.ofFn (votes v)).count true = 1)
    (guess : (List Entry → F) → ThresholdView F E (EncryptedChoice F E kind) n o c params.shares → ℚ)
    (hg : ∀ H view, 0 ≤ guess H view ∧ guess H view ≤ 1) :
    |(meanHash D H₀ fun H => mean fun tapes : Fin n → Fin (choiceDraws o kind) → F =>
        mean fun ts : ∀ i : ElectionIndex params.shares o, ProofTape F params.threshold (.inr i) =>
        electionGuess B params cs info corrupted guess H (honestBallots B H kind K votes tapes) fun i =>
          proofOut B params cs (optionTotal (honestBallots B H kind K votes tapes)) (.inr i) H (ts i)) -
      meanHash D H₀ fun H => mean fun tapes : Fin n → Fin (choiceDraws o kind) → F =>
        simulatedElection B params cs info corrupted optionTotal guess H (honestBallots B H kind K votes tapes)| ≤
    ((params.shares + params.shares * o).choose 2 : ℚ) / Fintype.card F := by
  have hone1 := mean_honestBallots B hB hT ho K k hk D H₀ votes hone fun _ _ => 1
  simp only [mean_const, meanHash_const] at hone1
  rw [mean_honestBallots B hB hT ho K k hk D H₀ votes hone fun H b =>
      mean fun ts : ∀ i : ElectionIndex params.shares o, ProofTape F params.threshold (.inr i) =>
      electionGuess B params cs info corrupted guess H b fun i => proofOut B params cs (optionTotal b) (.inr i) H (ts i),
    mean_honestBallots B hB hT ho K k hk D H₀ votes hone fun H b =>
      simulatedElection B params cs info corrupted optionTotal guess H b,
    ← sub_div, ← Finset.sum_sub_distrib, abs_div, Nat.abs_cast]
  refine (div_le_div_of_nonneg_right (Finset.abs_sum_le_sum_abs _ _) (Nat.cast_nonneg _)).trans ?_
  have key : ∀ ss : Fin n → (Fin o → F) × ChoiceProofs F o kind,
      |(meanHash D H₀ fun H => if ValidBallots B K votes H ss then
          mean fun ts : ∀ i : ElectionIndex params.shares o, ProofTape F params.threshold (.inr i) =>
          electionGuess B params cs info corrupted guess H (madeBallots B K votes ss) fun i =>
            proofOut B params cs (optionTotal (madeBallots B K votes ss)) (.inr i) H (ts i) else 0) -
        meanHash D H₀ fun H => if ValidBallots B K votes H ss then
          simulatedElection B params cs info corrupted optionTotal guess H (madeBallots B K votes ss) else 0| ≤
      ((params.shares + params.shares * o).choose 2 : ℚ) / Fintype.card F *
        meanHash D H₀ fun H => if ValidBallots B K votes H ss then 1 else 0 := by
    intro ss
    have hvalid : ∀ H scalars, ValidBallots B K votes (program H (familyPoints (fun i : ElectionIndex params.shares o =>
        proofQuery B params cs (optionTotal (madeBallots B K votes ss)) (.inr i)) (fun i => proofAnswer (.inr i))
        (electionIndexes params.shares o) scalars)) ss ↔ ValidBallots B K votes H ss := by
      intro H scalars
      refine forall_congr' fun v => notInBallots_congr B hT ho K _ _ _ _ fun q hq => program_of_notMem fun hq' => hq ?_
      simp only [familyPoints, List.map_map, List.mem_map, Function.comp_apply] at hq'
      obtain ⟨i, -, rfl⟩ := hq'
      exact proofQuery_notInBallots B params cs _ hm _ _
    have := family_simulation (nodup_electionIndexes params.shares o) mem_electionIndexes
      (fun i => proof_hashOnce B hB hT params cs (optionTotal (madeBallots B K votes ss)) hm (.inr i)) D
      (fun i s => hD cs _ i s) H₀
      (fun H outs => if ValidBallots B K votes H ss then
        electionGuess B params cs info corrupted guess H (madeBallots B K votes ss) outs
        else 0) (fun H => if ValidBallots B K votes H ss then 1 else 0) ?_ ?_
    · rw [length_electionIndexes] at this
      convert this using 3
      · congr 1
        funext H
        split
        · rfl
        · rw [mean_const]
      · rw [← meanHash_mean]
        congr 1
        funext H
        simp only [hvalid]
        split
        · rfl
        · simp [mean]
    · intro H outs
      split
      · exact hg _ _
      · simp
    · intro H scalars
      simp only [hvalid]
  refine (div_le_div_of_nonneg_right (Finset.sum_le_sum fun ss _ => key ss) (Nat.cast_nonneg _)).trans ?_
  rw [← Finset.mul_sum, mul_div_assoc, ← hone1, mul_one]

include hT in
/-- The values programmed by the simulation. -/
theorem electionPoints_eq (H : List Entry → F) (cs : Fin params.threshold → F) (cts : Fin o → Ciphertext E)
    (proofs : (Fin params.shares → F × F) × (Fin params.shares → Fin o → LogEqualityProof F))
    (dhs : Fin params.shares → Fin o → E) (hd : ∀ i j, dhs i j = dealtSecret params cs i • (cts j).random) :
      (List.ofFn fun i : Fin params.shares => popPoint (B.withHash H)
        [keyOf B (polyAt ((i : F) + 1) (dealtPoly B params cs))] ((keySetOf B params (dealtPoly B params cs)).popTranscript i)
        ⟨(proofs.1 i).1, [(proofs.1 i).2]⟩).flatten ++
      (List.ofFn fun i : Fin params.shares => (List.ofFn fun j : Fin o => sharePoint (B.withHash H)
        (keySetOf B params (dealtPoly B params cs)) i (polyAt ((i : F) + 1) (dealtPoly B params cs)) (cts j)
        (⟨dhs i j⟩, proofs.2 i j)).flatten).flatten =
    familyPoints (fun i => proofQuery B params cs cts (.inr i)) (fun i => proofAnswer (.inr i))
      (electionIndexes params.shares o)
      (fun i => proofFamily (S := ProofScalars F params.threshold) ((0, 0) : F × (Fin params.threshold → F))
        proofs.1 proofs.2 (.inr i)) := by
  have h := familyPoints_eq B hT params cs cts H ((0, 0), proofs) dhs hd
  simp only [familyPoints, proofIndexes, List.append_assoc, List.map_append] at h
  have h2 := (List.append_inj h (by
    rw [dealtPoly_map, popPoint_eq B hT H _ _ ((0, 0) : F × (Fin params.threshold → F))]
    rfl)).2
  refine h2.trans ?_
  simp only [familyPoints, electionIndexes, List.map_append, List.map_flatten, List.map_ofFn, Function.comp_def,
    List.map_cons, List.map_nil]
  rfl

include hT in
/-- The reduction simulates proofs. -/
theorem withDkg_eq {β : Type} {n c : ℕ} (bad : Fin c → ℕ)
    (K : PublicKey E) (k : F) (hk : K.element = k • B.gen)
    (totals : (Fin n → Option β) → Fin o → Ciphertext E) (counts : PublicKey E → Fin o → ℕ)
    (guess : (List Entry → F) → ThresholdView F E β n o c params.shares → ℚ) (H : List Entry → F)
    (ballots : Fin n → Option β) (hd : ∀ j, k • (totals ballots j).random =
      (totals ballots j).blinded - (counts K j : F) • B.gen)
    (shares : Fin c → F) (gen : KeyGen F E) (cs : Fin params.threshold → F)
    (hcs : List.ofFn cs = sharePolynomial (F := F) bad k fun a => shares a + gen.offset ((bad a : F) + 1)) :
    withDkg B params bad totals counts guess shares gen H K ballots =
      simulatedElection B params cs gen.publicInfo shares totals guess H ballots := by
  rw [withDkg]
  have hpoly : (sharePolynomial (F := F) bad K.element fun a => (shares a + gen.offset ((bad a : F) + 1)) • B.gen) =
      dealtPoly B params cs := by
    rw [dealtPoly, hcs, sharePolynomial_smul, hk]
  have hdh : ∀ (i : Fin params.shares) (j : Fin o), polyAt ((i : F) + 1) (sharePolynomial (F := F) bad
      ((totals ballots j).blinded - (counts K j : F) • B.gen)
      fun a => (shares a + gen.offset ((bad a : F) + 1)) • (totals ballots j).random) =
      dealtSecret params cs i • (totals ballots j).random := by
    intro i j
    rw [← hd, ← sharePolynomial_smul, polyAt_smul, dealtSecret, hcs]
  let e : (Fin params.shares → F × F) × (Fin params.shares → Fin o → LogEqualityProof F) ≃
      (∀ i : ElectionIndex params.shares o, ProofScalars F params.threshold (.inr i)) :=
    { toFun := fun q i => proofFamily (S := ProofScalars F params.threshold) ((0, 0) : F × (Fin params.threshold → F))
        q.1 q.2 (.inr i)
      invFun := fun g => (fun i => g (.inl i), fun i j => g (.inr (i, j)))
      left_inv := fun _ => rfl
      right_inv := fun g => by
        funext i
        rcases i with i | ⟨i, j⟩ <;> rfl }
  rw [simulatedElection, ← mean_equiv e]
  congr 1
  funext proofs
  have hp := electionPoints_eq B hT params H cs (totals ballots) proofs
    (fun i j => dealtSecret params cs i • (totals ballots j).random) fun _ _ => rfl
  simp only [hpoly, hdh]
  rw [hp]
  rfl

/-! ## Ballots with a shifted key -/

/-- The key shifted by an offset that depends on it. -/
def shiftedKey (γ : E → F) (X : E) : PublicKey E := keyOf B (X + γ X • B.gen)

include hB hT in
theorem shifted_choice_private [Finite E] (ho : o ≠ 0) (D : Finset (List Entry))
    (hD : (choiceData_finite B o).toFinset ⊆ D) (base : E → List Entry → F) (γ : E → F) {kind : ChoiceKind}
    (votes votes' : PublicKey E → Fin o → Bool)
    (hone : ∀ K, kind = .single → (List.ofFn (votes K)).count true = 1)
    (hone' : ∀ K, kind = .single → (List.ofFn (votes' K)).count true = 1)
    (guess : E → (List Entry → F) → PublicKey E → Option (EncryptedChoice F E kind) → ℚ) :
    let game := fun w : PublicKey E → Fin o → Bool => mean fun k : F =>
      meanHash D (base (k • B.gen)) fun H => mean fun tape : Fin (choiceDraws o kind) → F =>
        guess (k • B.gen) H (shiftedKey B γ (k • B.gen)) ((EncryptedChoice.new (B.withHash H).withTape
          ⟨o, shiftedKey B γ (k • B.gen)⟩ (List.ofFn (w (shiftedKey B γ (k • B.gen)))) (List.ofFn tape)).map Prod.fst)
    let reduction := fun w : PublicKey E → Fin o → Bool =>
      hybridReduction B (fun X j => if w (shiftedKey B γ X) j then B.gen else 0)
        (fun X cts => simulatedGuess B D (base X) (guess X) (shiftedKey B γ X) fun j => shiftCiphertext (γ X) (cts j))
    game votes - game votes' = ∑ i, (ddhGap B (reduction votes i) - ddhGap B (reduction votes' i)) := by
  intro game reduction
  have hgame : ∀ w : PublicKey E → Fin o → Bool, (∀ K, kind = .single → (List.ofFn (w K)).count true = 1) →
      game w = mean fun k : F => mean fun rs : Fin o → F =>
        simulatedGuess B D (base (k • B.gen)) (guess (k • B.gen)) (shiftedKey B γ (k • B.gen)) fun j =>
          shiftCiphertext (γ (k • B.gen)) ⟨rs j • B.gen, (if w (shiftedKey B γ (k • B.gen)) j then B.gen else 0) +
            rs j • k • B.gen⟩ := by
    intro w hw
    simp only [game]
    congr 1
    funext k
    have hel : (shiftedKey B γ (k • B.gen)).element = (k + γ (k • B.gen)) • B.gen := by
      rw [shiftedKey, keyOf_element hT, add_smul]
    have hK : (shiftedKey B γ (k • B.gen)).bytes = encOf B (shiftedKey B γ (k • B.gen)).element := by
      rw [shiftedKey, keyOf_element hT]
      exact (encOf_eq (keyOf_isKey hT _).2).symm
    rw [choice_simulation B hB hT ho _ _ hel hK D hD _ _ (hw _) (guess (k • B.gen))]
    congr 1
    funext rs
    congr 1
    funext j
    simp only [shiftCiphertext, hel]
    congr 1
    module
  rw [hgame votes hone, hgame votes' hone', Finset.sum_sub_distrib, ← hybrid_total B hB, ← hybrid_total B hB]
  ring

/-- The game with several voters. -/
noncomputable def shiftedGame (D : Finset (List Entry)) (base : E → List Entry → F) (γ : E → F) {β : Type} {n d : ℕ}
    (guess : E → (List Entry → F) → PublicKey E → (Fin n → Option β) → ℚ) (poll : Poll F E β n o d) : ℚ :=
  mean fun k : F => meanHash D (base (k • B.gen)) fun H => mean fun tapes : Fin n → Fin d → F =>
    guess (k • B.gen) H (shiftedKey B γ (k • B.gen)) (poll.ballots (B.withHash H) (shiftedKey B γ (k • B.gen)) tapes)

theorem shifted_embed (D : Finset (List Entry)) (base : E → List Entry → F) (γ : E → F) {kind : ChoiceKind} {n : ℕ}
    (votes votes' : PublicKey E → Fin n → Fin o → Bool)
    (guess : E → (List Entry → F) → PublicKey E → (Fin n → Option (EncryptedChoice F E kind)) → ℚ) (v : Fin n)
    (w : PublicKey E → Fin o → Bool) : (mean fun k : F =>
      meanHash D (base (k • B.gen)) fun H => mean fun tape : Fin (choiceDraws o kind) → F =>
        embedBallot B votes votes' (guess (k • B.gen)) v H (shiftedKey B γ (k • B.gen))
          ((EncryptedChoice.new (B.withHash H).withTape ⟨o, shiftedKey B γ (k • B.gen)⟩
            (List.ofFn (w (shiftedKey B γ (k • B.gen)))) (List.ofFn tape)).map Prod.fst)) =
      shiftedGame B D base γ guess (choicePoll kind fun K i => if i = v then w K else if i < v then votes' K i else votes K i) := by
  rw [shiftedGame]
  congr 1
  funext k
  congr 1
  funext H
  simp only [embedBallot]
  rw [mean_comm]
  refine Eq.trans ?_ (mean_update v _)
  congr 1
  funext tapes
  congr 1
  funext tape
  congr 1
  funext i
  by_cases hi : i = v
  · subst hi; simp [choicePoll]
  · simp [choicePoll, hi]

/-- Changing the vote of one voter. -/
theorem shifted_mix {α γ : Type} {n : ℕ} (votes votes' : α → Fin n → γ) (v : Fin n) :
    (fun K i => if i.1 < v.1 then votes' K i else votes K i) =
      (fun K i => if i = v then votes K v else if i < v then votes' K i else votes K i) ∧
    (fun K i => if i.1 < v.1 + 1 then votes' K i else votes K i) =
      fun K i => if i = v then votes' K v else if i < v then votes' K i else votes K i := by
  constructor
  · funext K i
    by_cases hi : i = v
    · subst hi; simp
    · simp [hi]
  · funext K i
    by_cases hi : i = v
    · subst hi; simp
    · have : i.1 < v.1 + 1 ↔ i < v := by
        rw [Fin.lt_def]
        have : i.1 ≠ v.1 := fun h => hi (Fin.ext h)
        omega
      simp [hi, this]

include hB hT in
theorem shifted_choices_private [Finite E] (ho : o ≠ 0) (D : Finset (List Entry))
    (hD : (choiceData_finite B o).toFinset ⊆ D) (base : E → List Entry → F) (γ : E → F) {kind : ChoiceKind} {n : ℕ}
    (votes votes' : PublicKey E → Fin n → Fin o → Bool)
    (hone : ∀ K v, kind = .single → (List.ofFn (votes K v)).count true = 1)
    (hone' : ∀ K v, kind = .single → (List.ofFn (votes' K v)).count true = 1)
    (guess : E → (List Entry → F) → PublicKey E → (Fin n → Option (EncryptedChoice F E kind)) → ℚ) :
    shiftedGame B D base γ guess (choicePoll kind votes) - shiftedGame B D base γ guess (choicePoll kind votes') =
      ∑ v, ∑ i, (ddhGap B (hybridReduction B (fun X j => if votes (shiftedKey B γ X) v j then B.gen else 0)
          (fun X cts => simulatedGuess B D (base X) (embedBallot B votes votes' (guess X) v) (shiftedKey B γ X) fun j =>
            shiftCiphertext (γ X) (cts j)) i) -
        ddhGap B (hybridReduction B (fun X j => if votes' (shiftedKey B γ X) v j then B.gen else 0)
          (fun X cts => simulatedGuess B D (base X) (embedBallot B votes votes' (guess X) v) (shiftedKey B γ X) fun j =>
            shiftCiphertext (γ X) (cts j)) i)) := by
  let mix : ℕ → ℚ := fun t => shiftedGame B D base γ guess (choicePoll kind fun K i => if i.1 < t then votes' K i else votes K i)
  have h0 : shiftedGame B D base γ guess (choicePoll kind votes) = mix 0 := by simp [mix]
  have hn : shiftedGame B D base γ guess (choicePoll kind votes') = mix n := by simp [mix]
  rw [h0, hn, ← Finset.sum_range_sub' mix, ← Fin.sum_univ_eq_sum_range fun i => mix i - mix (i + 1)]
  refine Finset.sum_congr rfl fun v _ => ?_
  have h := shifted_choice_private B hB hT ho D hD base γ (fun K => votes K v) (fun K => votes' K v)
    (fun K => hone K v) (fun K => hone' K v) (fun X => embedBallot B votes votes' (guess X) v)
  obtain ⟨h1, h2⟩ := shifted_mix votes votes' v
  have e1 : mix v = _ := (congrArg (fun w => shiftedGame B D base γ guess (choicePoll kind w)) h1).trans
    (shifted_embed B D base γ votes votes' guess v fun K => votes K v).symm
  have e2 : mix (v + 1) = _ := (congrArg (fun w => shiftedGame B D base γ guess (choicePoll kind w)) h2).trans
    (shifted_embed B D base γ votes votes' guess v fun K => votes' K v).symm
  rw [e1, e2]
  exact h

theorem ddhGap_mean {α : Type} [Fintype α] (f : α → E → E → E → ℚ) :
    ddhGap B (fun X Y Z => mean fun a => f a X Y Z) = mean fun a => ddhGap B (f a) := by
  simp only [ddhGap]
  rw [mean_sub]
  congr 1
  · exact mean_comm _
  · exact mean_comm _

theorem ddhGap_meanHash (D : Finset (List Entry)) (H₀ : List Entry → F) (f : (List Entry → F) → E → E → E → ℚ) :
    ddhGap B (fun X Y Z => meanHash D H₀ fun H => f H X Y Z) = meanHash D H₀ fun H => ddhGap B (f H) := by
  simp only [ddhGap]
  rw [show ∀ g g' : (List Entry → F) → ℚ, (meanHash D H₀ fun H => g H - g' H) = meanHash D H₀ g - meanHash D H₀ g' from
    fun _ _ => by simp only [meanHash, Finset.sum_sub_distrib, sub_div], meanHash_mean, meanHash_mean]

/-! ## Key generation followed by an election -/

theorem electionData_of_head {label : String} (h : label ∈ electionLabels) {l : List Entry} :
    ElectionData (.msg "dom-sep" (asciiBytes label) :: l) :=
  ⟨label, h, l, rfl⟩

/-- Data hashed for proofs of participants. -/
theorem proofQuery_electionData (cs : Fin params.threshold → F) (cts : Fin o → Ciphertext E)
    (i : ElectionIndex params.shares o) (s : ProofScalars F params.threshold (.inr i)) :
    ElectionData (proofQuery B params cs cts (.inr i) s) := by
  rcases i with i | ⟨i, j⟩
  · exact ⟨"elgamal_participant_pop", by decide, _, rfl⟩
  · exact ⟨"elgamal_decryption_share", by decide, _, rfl⟩

/-- Data hashed for the proof of the honest participant during key generation. -/
theorem popInput_not_electionData {m : ℕ} (keys : Fin m → PublicKey E) (s : F × (Fin m → F)) :
    ¬ ElectionData (popInput B keys (sharePolyTranscript params) s) := by
  rintro ⟨label, hl, l, h⟩
  have h1 : Entry.msg "dom-sep" (asciiBytes label) = .msg "dom-sep" (asciiBytes "elgamal_share_poly") :=
    (List.cons_eq_cons.mp h).1
  simp only [electionLabels, List.mem_cons, List.not_mem_nil, or_false] at hl
  rcases hl with rfl | rfl | rfl | rfl | rfl | rfl | rfl <;> exact absurd h1 (by decide)

/-- Data hashed for ballots. -/
theorem choiceData_electionData [Finite E] {q : List Entry} (hq : q ∈ (choiceData_finite B o).toFinset) :
    ElectionData q := by
  rw [Set.Finite.mem_toFinset] at hq
  rcases hq with ⟨p, rfl⟩ | ⟨p, rfl⟩
  · exact ⟨"encrypted_choice_ranges", by decide, _, rfl⟩
  · exact ⟨"choice_encryption_sum", by decide, _, rfl⟩

include hB hT in
/-- Key generation with a given polynomial of the honest participant. -/
theorem dkg_fixed (p : ℕ) [CharP F p] (hv : ValidParams params) (hp : params.shares < p) {β : Type} {n c d : ℕ}
    (honest : Fin params.shares) (bad : Fin c → ℕ) (hbad : ∀ a, bad a < params.shares) (others : DkgStrategy F E params c)
    (hothers : ∀ H H', (∀ q, ¬ ElectionData q → H q = H' q) → others H = others H')
    (D : Finset (List Entry)) (hD : ∀ (cs : Fin params.threshold → F) s,
      popInput B (fun a => keyOf B (cs a • B.gen)) (sharePolyTranscript params) s ∈ D) (H₀ : List Entry → F)
    (poll : Poll F E β n o d) (guess : (List Entry → F) → ThresholdView F E β n o c params.shares → ℚ)
    (cs : Fin params.threshold → F) :
    (meanHash D H₀ fun H => mean fun ns : Fin params.threshold → F =>
      dkgRun B params honest bad others poll guess H (List.ofFn cs ++ List.ofFn ns)) =
    mean fun s : F × (Fin params.threshold → F) => meanHash (D.filter fun q => ¬ ElectionData q) H₀ fun H =>
      let corrupted := fun a => polyAt ((bad a : F) + 1) (List.ofFn cs)
      let info : List E × ProofOfPossession F := (dealtPoly B params cs, ⟨s.1, List.ofFn s.2⟩)
      let H' := program H [(popInput B (fun a => keyOf B (cs a • B.gen)) (sharePolyTranscript params) s, s.1)]
      meanHash (D.filter ElectionData) H' fun H =>
        electionMean B params poll (totalCoefficients honest cs (others H' info corrupted)) info corrupted guess H := by
  have hd := dealer_hashOnce B hB hT params hv.1 cs
  let g : (List Entry → F) → (List Entry → F) → Option (ProofOfPossession F) → ℚ := fun H₁ H out =>
    match out with
    | none => 0
    | some pop => electionMean B params poll (totalCoefficients honest cs (others H₁ (dealtPoly B params cs, pop)
        fun a => polyAt ((bad a : F) + 1) (List.ofFn cs))) (dealtPoly B params cs, pop)
        (fun a => polyAt ((bad a : F) + 1) (List.ofFn cs)) guess H
  rw [meanHash_split D ElectionData]
  have h1 : ∀ H₁, (meanHash (D.filter ElectionData) H₁ fun H => mean fun ns : Fin params.threshold → F =>
      dkgRun B params honest bad others poll guess H (List.ofFn cs ++ List.ofFn ns)) =
      mean fun ns : Fin params.threshold → F => meanHash (D.filter ElectionData) H₁ fun H =>
        g H₁ H (dealerOut B params cs H₁ ns) := by
    intro H₁
    rw [← meanHash_mean]
    refine meanHash_congr fun H hH => ?_
    have hagree : ∀ q, ¬ ElectionData q → H q = H₁ q := fun q hq => hH q fun hc => hq (Finset.mem_filter.mp hc).2
    have hrun : (mean fun ns : Fin params.threshold → F =>
        dkgRun B params honest bad others poll guess H (List.ofFn cs ++ List.ofFn ns)) =
        mean fun ns => g H₁ H (dealerOut B params cs H ns) := by
      congr 1
      funext ns
      obtain ⟨s, -, hs⟩ := hd.cover H ns
      rw [dkgRun_eq B hB hT params p hv hp honest bad hbad others poll guess H cs ns _ hs, hs]
      simp only [g, hothers H H₁ hagree]
    rw [hrun]
    exact hd.mean_congr (fun s => hagree _ (popInput_not_electionData B params _ s)) (g H₁ H)
  simp only [h1]
  exact hd.simulation (D.filter fun q => ¬ ElectionData q)
    (fun s => Finset.mem_filter.mpr ⟨hD cs s, popInput_not_electionData B params _ s⟩) H₀
    fun H₁ out => meanHash (D.filter ElectionData) H₁ fun H => g H₁ H out

include hT in
/-- Simulated key generation. -/
theorem simulatedKeyGen_eq {c : ℕ} (honest : Fin params.shares) (bad : Fin c → ℕ) (others : DkgStrategy F E params c)
    (shares : Fin c → F) (s : F × (Fin params.threshold → F)) (H : List Entry → F) (k : F) (cs : Fin params.threshold → F)
    (hcs : List.ofFn cs = sharePolynomial (F := F) bad k shares) :
    simulatedKeyGen B params honest bad others shares s H (k • B.gen) =
      let info : List E × ProofOfPossession F := (dealtPoly B params cs, ⟨s.1, List.ofFn s.2⟩)
      let H' := program H [(popInput B (fun a => keyOf B (cs a • B.gen)) (sharePolyTranscript params) s, s.1)]
      ⟨H', info, offsetAt honest (others H' info shares)⟩ := by
  have hpoly : (sharePolynomial (F := F) bad (k • B.gen) fun a => shares a • B.gen) = dealtPoly B params cs := by
    rw [dealtPoly, hcs, sharePolynomial_smul]
  simp only [simulatedKeyGen, hpoly, dealtPoly_map, popPoint_eq B hT]

/-- The game simulated. -/
noncomputable def simulatedDkg {β : Type} {n c d : ℕ} (D : Finset (List Entry)) (H₀ : List Entry → F)
    (honest : Fin params.shares) (bad : Fin c → ℕ) (others : DkgStrategy F E params c)
    (counts : PublicKey E → Fin o → ℕ) (guess : (List Entry → F) → ThresholdView F E β n o c params.shares → ℚ)
    (poll : Poll F E β n o d) : ℚ :=
  mean fun shares : Fin c → F => mean fun s : F × (Fin params.threshold → F) =>
  meanHash (D.filter fun q => ¬ ElectionData q) H₀ fun H =>
    let gen := simulatedKeyGen B params honest bad others shares s H
    shiftedGame B (D.filter ElectionData) (fun X => (gen X).hash) (fun X => (gen X).offset 0)
      (fun X => withDkg B params bad poll.totals counts guess shares (gen X)) poll

/-- The proofs of participants in a poll can be simulated up to an error. -/
def PollSimulated {β : Type} {n d : ℕ} (poll : Poll F E β n o d) (c : ℕ) (D : Finset (List Entry)) (ε : ℚ) : Prop :=
  ∀ (cs : Fin params.threshold → F) (info : List E × ProofOfPossession F) (corrupted : Fin c → F) (X : E)
    (H₀ : List Entry → F) (guess : (List Entry → F) → ThresholdView F E β n o c params.shares → ℚ),
    (∀ H view, 0 ≤ guess H view ∧ guess H view ≤ 1) →
    |(meanHash D H₀ fun H => mean fun tapes : Fin n → Fin d → F =>
        mean fun ts : ∀ i : ElectionIndex params.shares o, ProofTape F params.threshold (.inr i) =>
        electionGuess B params cs info corrupted guess H (poll.ballots (B.withHash H) (keyOf B X) tapes) fun i =>
          proofOut B params cs (poll.totals (poll.ballots (B.withHash H) (keyOf B X) tapes)) (.inr i) H (ts i)) -
      meanHash D H₀ fun H => mean fun tapes : Fin n → Fin d → F =>
        simulatedElection B params cs info corrupted poll.totals guess H
          (poll.ballots (B.withHash H) (keyOf B X) tapes)| ≤ ε

/-- The totals of a poll have the given plaintexts. -/
def PollCounts {β : Type} {n d : ℕ} (poll : Poll F E β n o d) (counts : PublicKey E → Fin o → ℕ) : Prop :=
  ∀ (k : F) (H : List Entry → F) (tapes : Fin n → Fin d → F) (j : Fin o),
    k • (poll.totals (poll.ballots (B.withHash H) (keyOf B (k • B.gen)) tapes) j).random =
      (poll.totals (poll.ballots (B.withHash H) (keyOf B (k • B.gen)) tapes) j).blinded -
        (counts (keyOf B (k • B.gen)) j : F) • B.gen

include hT in
/-- Elections after key generation can be simulated. -/
theorem dkg_election {β : Type} {n c d : ℕ} (hc : params.threshold = c + 1) (honest : Fin params.shares) (bad : Fin c → ℕ)
    (hi : Function.Injective (badNodes F bad)) (D : Finset (List Entry)) (poll : Poll F E β n o d) {ε : ℚ}
    (hsim : PollSimulated B params poll c (D.filter ElectionData) ε)
    (counts : PublicKey E → Fin o → ℕ) (hcount : PollCounts B poll counts)
    (guess : (List Entry → F) → ThresholdView F E β n o c params.shares → ℚ)
    (hg : ∀ H view, 0 ≤ guess H view ∧ guess H view ≤ 1) (cs : Fin params.threshold → F) (k : F) (shares : Fin c → F)
    (hcs : List.ofFn cs = sharePolynomial (F := F) bad k shares) (gen : KeyGen F E)
    (secrets : Fin params.shares → Fin params.threshold → F) (hgen : gen.offset = offsetAt honest secrets) :
      |(meanHash (D.filter ElectionData) gen.hash fun H' =>
        electionMean B params poll (totalCoefficients honest cs secrets) gen.publicInfo shares guess H') -
      meanHash (D.filter ElectionData) gen.hash fun H' => mean fun tapes : Fin n → Fin d → F =>
        withDkg B params bad poll.totals counts guess shares gen H'
          (gen.key B (k • B.gen)) (poll.ballots (B.withHash H') (gen.key B (k • B.gen)) tapes)| ≤ ε := by
  have hvalue : ∀ x, polyAt x (List.ofFn (totalCoefficients honest cs secrets)) =
      polyAt x (sharePolynomial (F := F) bad k shares) + gen.offset x := by
    intro x
    rw [polyAt_total, hcs, hgen]
  have hkey : gen.key B (k • B.gen) =
      keyOf B (polyAt (0 : F) (dealtPoly B params (totalCoefficients honest cs secrets))) := by
    rw [dealtPoly, polyAt_smul, hvalue, sharePolynomial_zero hi, add_smul]
    rfl
  have hkey' : gen.key B (k • B.gen) = keyOf B ((k + gen.offset 0) • B.gen) := by
    rw [KeyGen.key, add_smul]
  have hel : (gen.key B (k • B.gen)).element = (k + gen.offset 0) • B.gen := by
    rw [hkey', keyOf_element hT]
  have htotal : List.ofFn (totalCoefficients honest cs secrets) = sharePolynomial (F := F) bad (k + gen.offset 0)
      fun a => shares a + gen.offset ((bad a : F) + 1) := by
    refine (eq_interpolating (v := badNodes F bad) (s := Finset.univ) hi.injOn _ (by
      simp [hc])).trans ?_
    refine interpolating_congr fun i _ => ?_
    rw [hvalue]
    induction i using Fin.cases with
    | zero =>
      change polyAt (0 : F) _ + gen.offset 0 = _
      rw [sharePolynomial_zero hi]
      rfl
    | succ a =>
      change polyAt ((bad a : F) + 1) _ + gen.offset ((bad a : F) + 1) = _
      rw [sharePolynomial_bad hi]
      rfl
  have h3 := hsim (totalCoefficients honest cs secrets) gen.publicInfo shares (k • B.gen + gen.offset 0 • B.gen)
    gen.hash guess hg
  have h4 : ∀ H' tapes, withDkg B params bad poll.totals counts guess shares gen H'
        (gen.key B (k • B.gen)) (poll.ballots (B.withHash H') (gen.key B (k • B.gen)) tapes) =
      simulatedElection B params (totalCoefficients honest cs secrets) gen.publicInfo shares poll.totals guess H'
        (poll.ballots (B.withHash H') (gen.key B (k • B.gen)) tapes) := by
    intro H' tapes
    refine withDkg_eq B hT params bad _ _ hel poll.totals _ guess H' _ (fun j => ?_) shares gen _ htotal
    rw [hkey']
    exact hcount (k + gen.offset 0) H' tapes j
  have h5 : ∀ H', electionMean B params poll (totalCoefficients honest cs secrets) gen.publicInfo shares
      guess H' = mean fun tapes : Fin n → Fin d → F =>
        mean fun ts : ∀ i : ElectionIndex params.shares o, ProofTape F params.threshold (.inr i) =>
        electionGuess B params (totalCoefficients honest cs secrets) gen.publicInfo shares guess H'
          (poll.ballots (B.withHash H') (gen.key B (k • B.gen)) tapes) fun i =>
          proofOut B params (totalCoefficients honest cs secrets)
            (poll.totals (poll.ballots (B.withHash H') (gen.key B (k • B.gen)) tapes))
            (.inr i) H' (ts i) := by
    intro H'
    rw [electionMean, ← hkey]
  simp only [h4, h5]
  exact h3

/-- The game after key generation, for a given key of the honest participant. -/
noncomputable def dkgElection {β : Type} {n c d : ℕ} (D : Finset (List Entry))
    (honest : Fin params.shares) (others : DkgStrategy F E params c)
    (guess : (List Entry → F) → ThresholdView F E β n o c params.shares → ℚ)
    (poll : Poll F E β n o d) (cs : Fin params.threshold → F) (shares : Fin c → F)
    (gen : KeyGen F E) : ℚ :=
  meanHash (D.filter ElectionData) gen.hash fun H =>
    electionMean B params poll
      (totalCoefficients honest cs (others gen.hash gen.publicInfo shares)) gen.publicInfo shares guess H

include hB hT in
/-- The game with key generation simulated. -/
theorem dkgGame_eq [Finite E] (p : ℕ) [CharP F p] (hv : ValidParams params) (hp : params.shares < p) {β : Type}
    {n c d : ℕ} (hc : params.threshold = c + 1) (honest : Fin params.shares) (bad : Fin c → ℕ)
    (hi : Function.Injective (badNodes F bad)) (hbad : ∀ a, bad a < params.shares) (others : DkgStrategy F E params c)
    (hothers : ∀ H H', (∀ q, ¬ ElectionData q → H q = H' q) → others H = others H')
    (D : Finset (List Entry)) (hD : (proofData_finite B params o).toFinset ⊆ D) (H₀ : List Entry → F)
    (poll : Poll F E β n o d) (guess : (List Entry → F) → ThresholdView F E β n o c params.shares → ℚ)
    (cs : F → (Fin c → F) → Fin params.threshold → F)
    (hcs : ∀ k shares, List.ofFn (cs k shares) = sharePolynomial (F := F) bad k shares) :
    dkgGame B D H₀ params honest bad others poll guess =
      mean fun k : F => mean fun shares : Fin c → F => mean fun s : F × (Fin params.threshold → F) =>
      meanHash (D.filter fun q => ¬ ElectionData q) H₀ fun H =>
        dkgElection B params D honest others guess poll (cs k shares) shares
          (simulatedKeyGen B params honest bad others shares s H (k • B.gen)) := by
  have hpop : ∀ (cs : Fin params.threshold → F) s,
      popInput B (fun a => keyOf B (cs a • B.gen)) (sharePolyTranscript params) s ∈ D := fun cs s =>
    hD (proofQuery_mem B params cs (fun _ : Fin o => ⟨0, 0⟩) (.inl ()) s)
  have h2 : ∀ H, (mean fun coefficients : Fin params.threshold → F => mean fun nonces : Fin params.threshold → F =>
      dkgRun B params honest bad others poll guess H (List.ofFn coefficients ++ List.ofFn nonces)) =
      mean fun k : F => mean fun shares : Fin c → F => mean fun nonces : Fin params.threshold → F =>
        dkgRun B params honest bad others poll guess H
          (List.ofFn (cs k shares) ++ List.ofFn nonces) := by
    intro H
    have h3 := mean_sharePolynomial hi fun l => mean fun nonces : Fin params.threshold → F =>
      dkgRun B params honest bad others poll guess H (l ++ List.ofFn nonces)
    simp only [← hcs] at h3
    rw [← h3, ← mean_equiv (Equiv.arrowCongr (finCongr hc) (Equiv.refl F))]
    congr 1
    funext coefficients
    congr 1
    funext nonces
    congr 2
    refine List.ext_getElem (by simp [hc]) fun i h1 h2 => ?_
    simp only [List.getElem_ofFn]
    rfl
  have h3 : ∀ (k : F) (shares : Fin c → F), (meanHash D H₀ fun H => mean fun nonces : Fin params.threshold → F =>
        dkgRun B params honest bad others poll guess H
          (List.ofFn (cs k shares) ++ List.ofFn nonces)) = mean fun s : F × (Fin params.threshold → F) =>
      meanHash (D.filter fun q => ¬ ElectionData q) H₀ fun H =>
        dkgElection B params D honest others guess poll (cs k shares) shares
          (simulatedKeyGen B params honest bad others shares s H (k • B.gen)) := by
    intro k shares
    refine (dkg_fixed B hB hT params p hv hp honest bad hbad others hothers D hpop H₀ poll guess
      (cs k shares)).trans (congrArg mean (funext fun s => congrArg (meanHash _ H₀) (funext fun H => ?_)))
    have hcor : (fun a => polyAt ((bad a : F) + 1) (List.ofFn (cs k shares))) = shares := by
      funext a
      rw [hcs, sharePolynomial_bad hi]
    rw [simulatedKeyGen_eq B hT params honest bad others shares s H k (cs k shares) (hcs k shares), dkgElection]
    simp only [hcor]
  calc _ = meanHash D H₀ fun H => mean fun k : F => mean fun shares : Fin c → F =>
          mean fun nonces : Fin params.threshold → F =>
          dkgRun B params honest bad others poll guess H
            (List.ofFn (cs k shares) ++ List.ofFn nonces) := congrArg (meanHash D H₀) (funext h2)
    _ = mean fun k : F => mean fun shares : Fin c → F => meanHash D H₀ fun H =>
          mean fun nonces : Fin params.threshold → F =>
          dkgRun B params honest bad others poll guess H
            (List.ofFn (cs k shares) ++ List.ofFn nonces) := by
        rw [meanHash_mean]
        exact congrArg mean (funext fun k => meanHash_mean _ _ _)
    _ = _ := congrArg mean (funext fun k => congrArg mean (funext fun shares => h3 k shares))

include hB hT in
/-- Key generation and elections can be simulated. -/
theorem dkg_simulation [Finite E] (p : ℕ) [CharP F p] (hv : ValidParams params) (hp : params.shares < p) {β : Type}
    {n c d : ℕ} (hc : params.threshold = c + 1) (honest : Fin params.shares) (bad : Fin c → ℕ)
    (hi : Function.Injective (badNodes F bad)) (hbad : ∀ a, bad a < params.shares) (others : DkgStrategy F E params c)
    (hothers : ∀ H H', (∀ q, ¬ ElectionData q → H q = H' q) → others H = others H')
    (D : Finset (List Entry)) (hD : (proofData_finite B params o).toFinset ⊆ D) (H₀ : List Entry → F)
    (poll : Poll F E β n o d) {ε : ℚ} (hsim : PollSimulated B params poll c (D.filter ElectionData) ε)
    (counts : PublicKey E → Fin o → ℕ) (hcount : PollCounts B poll counts)
    (guess : (List Entry → F) → ThresholdView F E β n o c params.shares → ℚ)
    (hg : ∀ H view, 0 ≤ guess H view ∧ guess H view ≤ 1) :
    |dkgGame B D H₀ params honest bad others poll guess -
      simulatedDkg B params D H₀ honest bad others counts guess poll| ≤ ε := by
  have hex : ∀ (k : F) (shares : Fin c → F), ∃ cs : Fin params.threshold → F,
      List.ofFn cs = sharePolynomial (F := F) bad k shares := by
    intro k shares
    have hl := sharePolynomial_length (F := F) (bad := bad) k shares
    refine ⟨fun i => (sharePolynomial (F := F) bad k shares)[i.1]'(by rw [hl, ← hc]; exact i.2), ?_⟩
    exact List.ext_getElem (by simp [hl, hc]) fun i h1 h2 => by simp only [List.getElem_ofFn]
  choose cs hcs using hex
  have h2 : simulatedDkg B params D H₀ honest bad others counts guess poll =
      mean fun k : F => mean fun shares : Fin c → F => mean fun s : F × (Fin params.threshold → F) =>
      meanHash (D.filter fun q => ¬ ElectionData q) H₀ fun H =>
        meanHash (D.filter ElectionData) (simulatedKeyGen B params honest bad others shares s H (k • B.gen)).hash fun H' =>
        mean fun tapes : Fin n → Fin d → F =>
        withDkg B params bad poll.totals counts guess shares
          (simulatedKeyGen B params honest bad others shares s H (k • B.gen)) H'
          ((simulatedKeyGen B params honest bad others shares s H (k • B.gen)).key B (k • B.gen))
          (poll.ballots (B.withHash H')
            ((simulatedKeyGen B params honest bad others shares s H (k • B.gen)).key B (k • B.gen)) tapes) := by
    rw [mean_comm]
    rw [simulatedDkg]
    congr 1
    funext shares
    rw [mean_comm]
    congr 1
    funext s
    rw [← meanHash_mean]
    rfl
  rw [dkgGame_eq B hB hT params p hv hp hc honest bad hi hbad others hothers D hD H₀ poll guess cs hcs, h2, ← mean_sub]
  refine (abs_mean_le _).trans ?_
  rw [← mean_const (α := F) ε]
  refine mean_le_mean fun k => ?_
  rw [← mean_sub]
  refine (abs_mean_le _).trans ?_
  rw [← mean_const (α := Fin c → F) ε]
  refine mean_le_mean fun shares => ?_
  rw [← mean_sub]
  refine (abs_mean_le _).trans ?_
  rw [← mean_const (α := F × (Fin params.threshold → F)) ε]
  refine mean_le_mean fun s => ?_
  refine abs_meanHash_sub_le _ _ fun H => ?_
  exact dkg_election B hT params hc honest bad hi D poll hsim counts hcount guess hg (cs k shares) k shares
    (hcs k shares) _ _ rfl

include hB hT in
/-- Polls with single or multiple choice. -/
theorem choicePoll_simulated [Finite E] (hm : 0 < params.threshold) (ho : o ≠ 0) {n c : ℕ} {kind : ChoiceKind}
    (D : Finset (List Entry)) (hD : (proofData_finite B params o).toFinset ⊆ D)
    (votes : PublicKey E → Fin n → Fin o → Bool)
    (hone : ∀ K v, kind = .single → (List.ofFn (votes K v)).count true = 1) :
    PollSimulated B params (choicePoll kind votes) c (D.filter ElectionData)
      (((params.shares + params.shares * o).choose 2 : ℚ) / Fintype.card F) ∧
    PollCounts B (choicePoll kind votes) fun K => voteCounts (votes K) := by
  constructor
  · intro cs info corrupted X H₀ guess hg
    obtain ⟨k, hk⟩ := hB.gen_spans X
    exact election_simulation B hB hT params hm ho cs info corrupted (keyOf B X) k ((keyOf_element hT _).trans hk)
      (D.filter ElectionData) (fun cs cts i s => Finset.mem_filter.mpr
        ⟨hD (proofQuery_mem B params cs cts (.inr i) s), proofQuery_electionData B params cs cts i s⟩)
      H₀ (votes (keyOf B X)) (hone _) guess hg
  · intro k H tapes j
    obtain ⟨ss, hss⟩ := honest_eq_made B hB hT ho (keyOf B (k • B.gen)) k (keyOf_element hT _)
      (votes (keyOf B (k • B.gen))) (hone _) H tapes
    have := totals_dh B hB (keyOf B (k • B.gen)) k (keyOf_element hT _) (votes (keyOf B (k • B.gen))) ss j
    rw [← hss] at this
    exact this

include hB hT in
/-- Differences of simulated games. -/
theorem simulatedDkg_sub [Finite E] (ho : o ≠ 0) {n c : ℕ} {kind : ChoiceKind} (D : Finset (List Entry))
    (hD : (choiceData_finite B o).toFinset ⊆ D) (H₀ : List Entry → F)
    (honest : Fin params.shares) (bad : Fin c → ℕ) (others : DkgStrategy F E params c)
    (votes votes' : PublicKey E → Fin n → Fin o → Bool)
    (hone : ∀ K v, kind = .single → (List.ofFn (votes K v)).count true = 1)
    (hone' : ∀ K v, kind = .single → (List.ofFn (votes' K v)).count true = 1)
    (guess : (List Entry → F) → ThresholdView F E (EncryptedChoice F E kind) n o c params.shares → ℚ) :
    simulatedDkg B params D H₀ honest bad others (fun K => voteCounts (votes K)) guess (choicePoll kind votes) -
      simulatedDkg B params D H₀ honest bad others (fun K => voteCounts (votes K)) guess (choicePoll kind votes') =
    ∑ v, ∑ i, (ddhGap B (dkgReduction B D H₀ params honest bad others votes votes' votes guess v i) -
      ddhGap B (dkgReduction B D H₀ params honest bad others votes votes' votes' guess v i)) := by
  have hD' : (choiceData_finite B o).toFinset ⊆ D.filter ElectionData := fun q hq =>
    Finset.mem_filter.mpr ⟨hD hq, choiceData_electionData B hq⟩
  have hsub : ∀ (D : Finset (List Entry)) (g g' : (List Entry → F) → ℚ), meanHash D H₀ g - meanHash D H₀ g' =
      meanHash D H₀ fun H => g H - g' H := fun _ _ _ => by simp only [meanHash, Finset.sum_sub_distrib, sub_div]
  have hsum : ∀ {α ι : Type} [Fintype α] [Fintype ι] (g : α → ι → ℚ), (mean fun a => ∑ i, g a i) =
      ∑ i, mean fun a => g a i := fun g => by
    simp only [mean, Finset.sum_div]
    exact Finset.sum_comm
  have hsumH : ∀ {ι : Type} [Fintype ι] (D : Finset (List Entry)) (g : (List Entry → F) → ι → ℚ),
      (meanHash D H₀ fun H => ∑ i, g H i) = ∑ i, meanHash D H₀ fun H => g H i := fun D g => by
    simp only [meanHash, Finset.sum_div]
    exact Finset.sum_comm
  have ht : ∀ w : PublicKey E → Fin n → Fin o → Bool, (choicePoll kind w : Poll F E _ n o _).totals = optionTotal :=
    fun _ => rfl
  simp only [simulatedDkg, ht]
  rw [← mean_sub]
  simp only [← mean_sub, hsub]
  have h := fun (shares : Fin c → F) (s : F × (Fin params.threshold → F)) (H : List Entry → F) =>
    shifted_choices_private B hB hT ho (D.filter ElectionData) hD'
      (fun X => (simulatedKeyGen B params honest bad others shares s H X).hash)
      (fun X => (simulatedKeyGen B params honest bad others shares s H X).offset 0) votes votes' hone hone'
      (fun X => withDkg B params bad optionTotal (fun K => voteCounts (votes K)) guess shares
        (simulatedKeyGen B params honest bad others shares s H X))
  simp only [h, hsum, hsumH]
  refine Finset.sum_congr rfl fun v _ => Finset.sum_congr rfl fun i _ => ?_
  unfold dkgReduction
  simp only [ddhGap_mean, ddhGap_meanHash, ← hsub, mean_sub]
  rfl

end

end ElasticElgamal
