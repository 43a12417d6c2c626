import Verif.Lemmas.ApproxSimulation
import Verif.Lemmas.Points
import Verif.Props.Possession
import Verif.Props.LogEq

/-!
# Lemmas: proofs of possession and log equality proofs as provers that hash once
-/

set_option autoImplicit false
set_option linter.unusedSectionVars false

namespace ElasticElgamal

open Spec

namespace HashOnce

variable {Q A S T O : Type} [Fintype A] [Fintype S] [Fintype T] [DecidableEq Q] {out : (Q → A) → T → O} {dec : S → O}
  {query : S → Q} {answer : S → A}

/-- An injective function of the output. -/
theorem comp (h : HashOnce out dec query answer) {O' : Type} {g : O → O'} (hg : Function.Injective g) :
    HashOnce (fun H t => g (out H t)) (fun s => g (dec s)) query answer where
  inj := hg.comp h.inj
  unique H s hs := by
    obtain ⟨t, ht, hu⟩ := h.unique H s hs
    exact ⟨t, congrArg g ht, fun t' ht' => hu _ (hg ht')⟩
  cover H t := by
    obtain ⟨s, hs, ht⟩ := h.cover H t
    exact ⟨s, hs, congrArg g ht⟩
  card := h.card
  spread := h.spread

/-- Other descriptions of scalars and tapes. -/
theorem equiv (h : HashOnce out dec query answer) {S' T' : Type} [Fintype S'] [Fintype T'] (eS : S' ≃ S) (eT : T' ≃ T) :
    HashOnce (fun H t => out H (eT t)) (fun s => dec (eS s)) (fun s => query (eS s)) fun s => answer (eS s) where
  inj := h.inj.comp eS.injective
  unique H s hs := by
    obtain ⟨t, ht, hu⟩ := h.unique H (eS s) hs
    exact ⟨eT.symm t, by simpa using ht, fun t' ht' => by rw [← hu _ ht', Equiv.symm_apply_apply]⟩
  cover H t := by
    obtain ⟨s, hs, ht⟩ := h.cover H (eT t)
    exact ⟨eS.symm s, by simpa using hs, by simpa using ht⟩
  card := by rw [Fintype.card_congr eS, Fintype.card_congr eT, h.card]
  spread q := by
    rw [Fintype.card_congr eS]
    refine le_trans (Nat.mul_le_mul_right _ ?_) (h.spread q)
    exact Finset.card_le_card_of_injOn eS (fun s hs => by simpa using hs) eS.injective.injOn

end HashOnce

variable {F E : Type} [Field F] [AddCommGroup E] [Module F E] [DecidableEq F] [DecidableEq E]

theorem serElem_encOf {B : Backend F E} (hT : B.TotalSer) (x : E) : B.serElem x = some (encOf B x) := by
  obtain ⟨b, hb⟩ := hT x
  rw [encOf_eq hb, hb]

theorem encOf_inj {B : Backend F E} (hB : B.Lawful) (hT : B.TotalSer) {x y : E} (h : encOf B x = encOf B y) : x = y :=
  hB.serElem_inj (serElem_encOf hT x) (h ▸ serElem_encOf hT y)

/-- The data hashed when verifying a log equality proof. -/
def logEqInput (B : Backend F E) (K : PublicKey E) (powers : E × E) (t : Transcript) (proof : LogEqualityProof F) :
    List Entry :=
  logEqData B t.log K.bytes (powers, (proof.response • B.gen - proof.challenge • powers.1,
    proof.response • K.element - proof.challenge • powers.2))

theorem logEq_verify_eq (B : Backend F E) (hT : B.TotalSer) (H : List Entry → F) (K : PublicKey E) (powers : E × E)
    (t : Transcript) (proof : LogEqualityProof F) : proof.verify (B.withHash H) K powers t =
      some (checkChallenge (H (logEqInput B K powers t proof)) proof.challenge, ⟨logEqInput B K powers t proof⟩) :=
  LogEqualityProof.verify_eq_some.mpr ⟨_, _, _, _, serElem_encOf hT _, serElem_encOf hT _, serElem_encOf hT _,
    serElem_encOf hT _, rfl, rfl⟩

/-- The data hashed when verifying a proof of possession. -/
def popInput (B : Backend F E) {m : ℕ} (keys : Fin m → PublicKey E) (t : Transcript) (s : F × (Fin m → F)) : List Entry :=
  popQuery t.log (List.ofFn fun i => (keys i).bytes)
    (List.ofFn fun i => encOf B (s.2 i • B.gen - s.1 • (keys i).element))

theorem pop_verify_eq (B : Backend F E) (hT : B.TotalSer) {m : ℕ} (keys : Fin m → PublicKey E)
    (t : Transcript) (s : F × (Fin m → F)) :
    (⟨s.1, List.ofFn s.2⟩ : ProofOfPossession F).verify B (List.ofFn keys) t =
      some (checkChallenge (B.challenge (popInput B keys t s)) s.1, ⟨popInput B keys t s⟩) := by
  refine (ProofOfPossession.verify_eq_some (by simp)).mpr ⟨List.ofFn fun i =>
    encOf B (s.2 i • B.gen - s.1 • (keys i).element), ?_, ?_, ?_⟩
  · rw [forall₂_zip (by simp)]
    refine ⟨by simp, fun i h1 h2 h3 => ?_⟩
    simp only [List.getElem_ofFn]
    exact serElem_encOf hT _
  · rw [List.map_ofFn]
    rfl
  · rw [List.map_ofFn]
    rfl

section
variable [Fintype F]

/-- Log equality proofs. -/
theorem logEq_hashOnce (B : Backend F E) (hB : B.Lawful) (hT : B.TotalSer) (K : PublicKey E) (r : F) (t : Transcript) :
    HashOnce (fun H (x : F) => (LogEqualityProof.new (B.withHash H).withTape K r (r • B.gen, r • K.element) t [x]).map
      Prod.fst) some (logEqInput B K (r • B.gen, r • K.element) t) LogEqualityProof.challenge where
  inj := Option.some_injective _
  unique H p hp := by
    have hv := logEq_verify_eq B hT H K (r • B.gen, r • K.element) t p
    rw [checkChallenge_ok.mpr hp] at hv
    obtain ⟨x, hx, hu⟩ := C51_log_eq_zk (B.withHash H) K r p _ _ hv
    have hx' : LogEqualityProof.new (B.withHash H).withTape K r (r • B.gen, r • K.element) t [x] = _ := hx
    refine ⟨x, by simp only [hx', Option.map_some], ?_⟩
    intro y hy
    simp only [Option.map_eq_some_iff, Prod.exists] at hy
    obtain ⟨p', t2, rest, hy, rfl⟩ := hy
    obtain ⟨-, -, -, -, -, -, -, -, -, -, e1, -⟩ := LogEqualityProof.new_eq_some.mp hx'
    obtain ⟨-, -, -, -, -, -, -, -, -, -, e2, -⟩ := LogEqualityProof.new_eq_some.mp hy
    rw [e1] at e2
    simpa using e2.symm
  cover H x := by
    obtain ⟨⟨p, t', rest⟩, hn⟩ := C11_log_eq_new_total (B.withHash H).withTape hT K r (r • B.gen, r • K.element) t [x]
    refine ⟨p, ?_, by simp only [hn, Option.map_some]⟩
    have := C11_log_eq_complete (B.withHash H).withTape K r _ t' _ rest p hn
    have h2 := logEq_verify_eq B hT H K (r • B.gen, r • K.element) t p
    exact checkChallenge_ok.mp (Prod.mk.inj (Option.some.inj (h2.symm.trans this))).1
  card := by
    rw [Fintype.card_congr (⟨fun p => (p.challenge, p.response), fun p => ⟨p.1, p.2⟩, fun _ => rfl, fun _ => rfl⟩ :
      LogEqualityProof F ≃ F × F), Fintype.card_prod]
  spread q := by
    rw [Fintype.card_congr (⟨fun p => (p.challenge, p.response), fun p => ⟨p.1, p.2⟩, fun _ => rfl, fun _ => rfl⟩ :
      LogEqualityProof F ≃ F × F), Fintype.card_prod]
    refine Nat.mul_le_mul_right _ ?_
    rw [← Finset.card_univ]
    refine Finset.card_le_card_of_injOn LogEqualityProof.challenge (fun _ _ => Finset.mem_coe.mpr (Finset.mem_univ _)) ?_
    intro p hp p' hp' hc
    simp only [Finset.coe_filter, Finset.mem_univ, true_and, Set.mem_ofPred_eq] at hp hp'
    have h := hp.trans hp'.symm
    simp only [logEqInput, logEqData, logEqQuery] at h
    have h1 := (List.append_inj' h (by simp)).2
    simp only [List.cons.injEq, Entry.msg.injEq, true_and, and_true] at h1
    have h2 := encOf_inj hB hT h1.1
    rw [hc] at h2
    have h3 := hB.smul_gen_inj (sub_left_injective h2)
    cases p; cases p'
    simp_all

theorem pop_tape_responses {B : Backend F E} {secrets xs : List F} {keys : List (PublicKey E)} {t t' : Transcript}
    {rest : List F} {p : ProofOfPossession F} (hl : xs.length = keys.length)
    (h : ProofOfPossession.fromKeys B.withTape secrets keys t xs = some (p, t', rest)) :
    p.responses = (secrets.zip xs).map fun q => q.2 + q.1 * p.challenge := by
  simp only [ProofOfPossession.fromKeys, Option.bind_eq_bind, Option.bind_eq_some_iff, Option.pure_def,
    Option.some.injEq, Prod.mk.injEq, Prod.exists, ← hl] at h
  obtain ⟨zs, t1, u, h1, rfl, -, -⟩ := h
  rw [ProofOfPossession.drawRandomScalars_tape_inv h1]
  rfl

/-- Proofs of possession. -/
theorem pop_hashOnce (B : Backend F E) (hB : B.Lawful) (hT : B.TotalSer) {m : ℕ} (hm : 0 < m) (secrets : Fin m → F)
    (keys : Fin m → PublicKey E) (hk : ∀ i, (keys i).element = secrets i • B.gen) (t : Transcript) :
    HashOnce (fun H (xs : Fin m → F) => (ProofOfPossession.fromKeys (B.withHash H).withTape (List.ofFn secrets)
        (List.ofFn keys) t (List.ofFn xs)).map Prod.fst)
      (fun s : F × (Fin m → F) => some ⟨s.1, List.ofFn s.2⟩) (popInput B keys t) Prod.fst where
  inj := by
    rintro ⟨c, r⟩ ⟨c', r'⟩ h
    simpa using h
  unique H s hs := by
    have hv := pop_verify_eq (B.withHash H) hT keys t s
    rw [show checkChallenge ((B.withHash H).challenge (popInput (B.withHash H) keys t s)) s.1 = .ok () from
      checkChallenge_ok.mpr hs] at hv
    obtain ⟨xs, ⟨hl, hx⟩, hu⟩ := C51_pop_zk (B.withHash H) (List.ofFn fun i => ⟨secrets i, keys i⟩)
      (by
        intro kp hkp
        obtain ⟨i, rfl⟩ := (List.mem_ofFn' _ _).mp hkp
        exact hk i) s.1 (List.ofFn s.2) t _ (by
        rw [List.map_ofFn]
        exact hv)
    simp only [ProofOfPossession.new, List.map_ofFn, Function.comp_def, List.length_ofFn] at hx hl hu
    obtain ⟨xs, rfl⟩ : ∃ f : Fin m → F, xs = List.ofFn f := ⟨fun i => xs[i.1]'(by omega), by
      refine List.ext_getElem (by simp [hl]) fun i h1 h2 => ?_
      simp⟩
    refine ⟨xs, by simp only [hx, Option.map_some], fun ys hy => ?_⟩
    simp only [Option.map_eq_some_iff, Prod.exists] at hy
    obtain ⟨p', t2, rest, hy, rfl⟩ := hy
    have h1 := pop_tape_responses (by simp) hx
    have h2 := pop_tape_responses (by simp) hy
    simp only at h1 h2
    rw [h1] at h2
    funext i
    have h3 := congrArg (·[i.1]?) h2
    simp only [List.getElem?_map, List.getElem?_ofFn, Fin.is_lt, dif_pos, List.zip,
      List.getElem?_zipWith, Option.map_some, Option.some.injEq] at h3
    exact (add_right_cancel h3).symm
  cover H xs := by
    obtain ⟨⟨p, t', rest⟩, hn⟩ := C14_pop_new_total (B.withHash H).withTape hT (List.ofFn fun i => ⟨secrets i, keys i⟩) t
      (List.ofFn xs)
    have hc := C14_pop_complete (B.withHash H).withTape (List.ofFn fun i => ⟨secrets i, keys i⟩)
      (by
        intro kp hkp
        obtain ⟨i, rfl⟩ := (List.mem_ofFn' _ _).mp hkp
        exact hk i) t _ _ _ _ hn
    simp only [ProofOfPossession.new, List.map_ofFn, Function.comp_def] at hn hc
    have hl := ProofOfPossession.verify_ok hc
    simp only [List.length_ofFn] at hl
    obtain ⟨c, rs⟩ := p
    obtain ⟨rs, rfl⟩ : ∃ f : Fin m → F, rs = List.ofFn f := ⟨fun i => rs[i.1]'(by have := i.2; simp at hl; omega), by
      refine List.ext_getElem (by simpa using hl) fun i h1 h2 => ?_
      simp⟩
    have h2 := pop_verify_eq (B.withHash H).withTape hT keys t (c, rs)
    exact ⟨(c, rs), checkChallenge_ok.mp (Prod.mk.inj (Option.some.inj (h2.symm.trans hc))).1, by
      simp only [hn, Option.map_some]⟩
  card := by rw [Fintype.card_prod, mul_comm]
  spread q := by
    have : (Finset.univ.filter fun s : F × (Fin m → F) => popInput B keys t s = q).card ≤ Fintype.card F := by
      rw [← Finset.card_univ]
      refine Finset.card_le_card_of_injOn Prod.fst (fun _ _ => Finset.mem_coe.mpr (Finset.mem_univ _)) ?_
      rintro ⟨c, r⟩ hp ⟨c', r'⟩ hp' (rfl : c = c')
      simp only [Finset.coe_filter, Finset.mem_univ, true_and, Set.mem_ofPred_eq] at hp hp'
      obtain ⟨-, -, h⟩ := popQuery_inj (by simp) (by simp) (hp.trans hp'.symm)
      have h := List.ofFn_injective h
      refine Prod.ext rfl (funext fun i => ?_)
      have h2 := encOf_inj hB hT (congrFun h i)
      exact hB.smul_gen_inj (sub_left_injective h2)
    rw [Fintype.card_prod, Fintype.card_fun, Fintype.card_fin]
    calc _ ≤ Fintype.card F * Fintype.card F := Nat.mul_le_mul_right _ this
      _ ≤ _ := Nat.mul_le_mul_left _ (Nat.le_self_pow hm.ne' _)

end

end ElasticElgamal
