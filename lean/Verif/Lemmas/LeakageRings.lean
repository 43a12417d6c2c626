import Verif.Lemmas.LeakageTrace

/-!
# Operations performed by ring proofs

`Cost x pre m post`: the operations of a run of `x` that does not panic, together with those that are still to be
performed afterwards (`post`), are those that were to be performed before (`pre`) and `m`, in some order.
-/

set_option autoImplicit false
set_option linter.unusedSectionVars false

namespace ElasticElgamal

open Traced

variable {F E : Type}

namespace Traced
variable {α β : Type}

/-- Operations performed and still to be performed. -/
def Cost (x : Traced F E α) (pre m : Multiset (Op F E)) (post : α → Multiset (Op F E)) : Prop :=
  ∀ a, x.val = some a → (x.ops : Multiset (Op F E)) + post a = pre + m

theorem Cost.bind {x : Traced F E α} {f : α → Traced F E β} {pre m m' : Multiset (Op F E)}
    {mid : α → Multiset (Op F E)} {post : β → Multiset (Op F E)} (hx : Cost x pre m mid)
    (hf : ∀ a, x.val = some a → Cost (f a) (mid a) m' post) : Cost (x >>= f) pre (m + m') post := by
  intro b h
  rw [val_bind] at h
  obtain ⟨a, ha, hb⟩ := Option.bind_eq_some_iff.1 h
  have h1 := hx a ha
  have h2 := hf a ha b hb
  have h3 : (x >>= f).ops = x.ops ++ (f a).ops := by
    show (Traced.bind x f).ops = _
    unfold Traced.bind
    rw [ha]
  rw [h3, ← Multiset.coe_add, add_assoc, h2, ← add_assoc, h1, add_assoc]

/-- A step with known operations. -/
theorem Cost.does {x : Traced F E α} {tr : List (Op F E)} (h : Does x tr) (pre : Multiset (Op F E)) :
    Cost x pre (tr : Multiset (Op F E)) (fun _ => pre) := by
  intro a ha
  rw [h a ha, add_comm]

theorem Cost.pure (a : α) (post : α → Multiset (Op F E)) : Cost (pure a : Traced F E α) (post a) 0 post := by
  intro b hb
  cases hb
  simp [Pure.pure]

theorem Cost.perm {x y : Traced F E α} {m : Multiset (Op F E)} {a b : α} (hx : Cost x 0 m fun _ => 0)
    (hy : Cost y 0 m fun _ => 0) (ha : x.val = some a) (hb : y.val = some b) : x.ops.Perm y.ops := by
  have h1 := hx a ha
  have h2 := hy b hb
  simp only [add_zero, zero_add] at h1 h2
  exact Multiset.coe_eq_coe.1 (h1.trans h2.symm)

end Traced

section
variable [Field F] [AddCommGroup E] [Module F E] (B : Backend F E)

/-- Operations known already. -/
local macro "prim" : tactic => `(tactic| first
  | exact does_appendElement B _ _ _
  | exact does_fromElement B _
  | exact does_multiMul2 _ _ _
  | exact Does.of _ _
  | assumption
  | solve_by_elim only [*])

/-- A sequence of operations. -/
local macro "seq" : tactic => `(tactic| ((repeat (apply Does.bind; (focus prim); rintro _ -)); try prim))

/-- The operations are found by unification; they cannot mention what is introduced afterwards. -/
local macro "find" : tactic => `(tactic| apply Exists.intro)

/-- A step with known operations. -/
local macro "cstep" : tactic => `(tactic| (apply Cost.bind; (focus (apply Cost.does; prim)); intro _ _))

/-- Operations that turn commitments into a challenge. -/
def hashOps : List (Op F E) :=
  [.append "j" 8, .encode, .append "R_G" B.elementSize, .encode, .append "R_K" B.elementSize, .challenge "c"]

/-- Operations that turn a challenge into commitments. -/
def commitOps : List (Op F E) := [.genScalar, .subElem, .mulGen, .mulElem, .subElem, .negScalar, .multiMul 2]

/-- Operations for an equation. -/
def eqOps : Multiset (Op F E) := (hashOps B ++ commitOps : List (Op F E))

theorem coe_flatten (n : Nat) (l : List (Op F E)) :
    ((List.replicate n l).flatten : Multiset (Op F E)) = n • (l : Multiset (Op F E)) := by
  induction n with
  | zero => rfl
  | succ n ih => rw [List.replicate_succ, List.flatten_cons, ← Multiset.coe_add, ih, succ_nsmul, add_comm]

theorem does_newLoop (K : E) (c : Ciphertext E) (t : Transcript) (i : Nat) (vs : List E) (cm : E × E)
    (rs : List F) (rng : B.Rng) :
    Does (Ring.newLoopTraced B K c t i vs cm rs rng)
      (List.replicate vs.length (hashOps B ++ commitOps)).flatten := by
  induction vs generalizing i cm rs rng with
  | nil => unfold Ring.newLoopTraced; exact Does.of _ _
  | cons v vs ih =>
    have h : ∃ tr, ∀ i cm rs rng, Does (Ring.newLoopTraced B K c t i (v :: vs) cm rs rng) tr ∧ 
      tr = hashOps B ++ commitOps ++ (List.replicate vs.length (hashOps B ++ commitOps)).flatten := by
      find
      intro i cm rs rng
      constructor
      · unfold Ring.newLoopTraced
        seq
      · simp [hashOps, commitOps]
    obtain ⟨tr, h⟩ := h
    obtain ⟨h1, rfl⟩ := h i cm rs rng
    exact h1

theorem does_finalizeLoop (K : E) (c : Ciphertext E) (t : Transcript) (i : Nat) (vs : List E) (ch : F)
    (rs : List F) (rng : B.Rng) :
    Does (Ring.finalizeLoopTraced B K c t i vs ch rs rng)
      (List.replicate vs.length (commitOps ++ hashOps B)).flatten := by
  induction vs generalizing i ch rs rng with
  | nil => unfold Ring.finalizeLoopTraced; exact Does.of _ _
  | cons v vs ih =>
    have h : ∃ tr, ∀ i ch rs rng, Does (Ring.finalizeLoopTraced B K c t i (v :: vs) ch rs rng) tr ∧ 
      tr = commitOps ++ hashOps B ++ (List.replicate vs.length (commitOps ++ hashOps B)).flatten := by
      find
      intro i ch rs rng
      constructor
      · unfold Ring.finalizeLoopTraced
        seq
      · simp [hashOps, commitOps]
    obtain ⟨tr, h⟩ := h
    obtain ⟨h1, rfl⟩ := h i ch rs rng
    exact h1

theorem cost_newLoop (K : E) (c : Ciphertext E) (t : Transcript) (i : Nat) (vs : List E) (cm : E × E)
    (rs : List F) (rng : B.Rng) (pre : Multiset (Op F E)) :
    Cost (Ring.newLoopTraced B K c t i vs cm rs rng) pre (vs.length • eqOps B) fun _ => pre := by
  have := Cost.does (does_newLoop B K c t i vs cm rs rng) pre
  rwa [coe_flatten] at this

theorem cost_finalizeLoop (K : E) (c : Ciphertext E) (t : Transcript) (i : Nat) (vs : List E) (ch : F)
    (rs : List F) (rng : B.Rng) (pre : Multiset (Op F E)) :
    Cost (Ring.finalizeLoopTraced B K c t i vs ch rs rng) pre (vs.length • eqOps B) fun _ => pre := by
  have := Cost.does (does_finalizeLoop B K c t i vs ch rs rng) pre
  rw [coe_flatten] at this
  rwa [eqOps, Multiset.coe_eq_coe.2 List.perm_append_comm]

/-- Operations still to be performed for equations of a ring when it has been created. -/
def Ring.owed (r : Ring F E) : Multiset (Op F E) := (r.admissibleValues.take r.valueIndex).length • eqOps B

/-- Operations still to be performed for equations of the rings of a builder. -/
def RingProofBuilder.owed (b : RingProofBuilder B) : Multiset (Op F E) := (b.rings.map (Ring.owed B)).sum

theorem does_toBytes : ∃ tr, ∀ c : Ciphertext E, Does (c.toBytesTraced B : Traced F E _) tr := by
  find; intro c; unfold Ciphertext.toBytesTraced; seq

section
variable [DecidableEq E]

theorem assert_val {p : Prop} [Decidable p] {u : Unit} (h : (assert p : Traced F E Unit).val = some u) : p := by
  by_contra hn
  simp [assert, hn] at h

theorem cost_ringNew (n : Nat) :
    ∃ m : Multiset (Op F E), ∀ pre i K c vs, vs.length = n → ∀ vi t rs rng,
      Cost (Ring.newTraced B i K c vs vi t rs rng) pre m fun a => pre + a.1.owed B := by
  obtain ⟨t1, h1⟩ := does_toBytes B
  find
  intro pre i K c vs hn vi t rs rng
  unfold Ring.newTraced
  cstep
  apply Cost.bind; (focus (apply Cost.does; prim)); intro _ ha
  cstep
  cstep
  cstep
  cstep
  cstep
  cstep
  cstep
  cstep
  cstep
  cstep
  have h2 : vi < vs.length := assert_val ha
  have h3 : (n - 1) • eqOps B =
      (vs.drop (vi + 1)).length • eqOps B + (vs.take vi).length • eqOps B := by
    rw [← add_nsmul, List.length_drop, List.length_take]
    congr 1
    omega
  have h4 : ∀ {α : Type} (x : Traced F E α) f, Cost x pre ((vs.drop (vi + 1)).length • eqOps B + (vs.take vi).length • eqOps B) f →
      Cost x pre ((n - 1) • eqOps B) f := fun x f h => h3 ▸ h
  apply h4
  apply Cost.bind; (focus exact cost_newLoop B _ _ _ _ _ _ _ _ _); rintro ⟨cm, rs, rng⟩ -
  intro a ha
  cases ha
  simp [Pure.pure, Ring.owed]

theorem cost_addPrecomputed (n : Nat) :
    ∃ m : Multiset (Op F E), ∀ (b : RingProofBuilder B) c vs, vs.length = n → ∀ vi,
      Cost (b.addPrecomputedValueTraced B c vs vi) (b.owed B) m fun b' => b'.owed B := by
  obtain ⟨m1, h1⟩ := cost_ringNew B n
  find
  intro b c vs hn vi
  unfold RingProofBuilder.addPrecomputedValueTraced
  cstep
  apply Cost.bind; (focus exact h1 _ _ _ _ vs hn _ _ _ _); rintro ⟨r, rng⟩ -
  have h2 : b.owed B + r.owed B =
      RingProofBuilder.owed B { b with rings := b.rings ++ [r], ringResponses := b.ringResponses.drop vs.length, rng } := by
    simp [RingProofBuilder.owed]
  show Cost _ (b.owed B + r.owed B) _ _
  rw [h2]
  exact Cost.pure _ _

theorem rings_addPrecomputed {b b' : RingProofBuilder B} {c : ExtendedCiphertext F E} {vs : List E} {vi : Nat}
    (h : (b.addPrecomputedValueTraced B c vs vi).val = some b') : b'.rings.length = b.rings.length + 1 := by
  unfold RingProofBuilder.addPrecomputedValueTraced at h
  simp only [val_bind] at h
  obtain ⟨_, _, h⟩ := Option.bind_eq_some_iff.1 h
  obtain ⟨_, _, h⟩ := Option.bind_eq_some_iff.1 h
  cases h
  simp

theorem owed_addPrecomputed {b b' : RingProofBuilder B} {c : ExtendedCiphertext F E} {vs : List E} {vi : Nat}
    (h : (b.addPrecomputedValueTraced B c vs vi).val = some b') :
    vi < vs.length ∧ b'.owed B = b.owed B + vi • eqOps B := by
  unfold RingProofBuilder.addPrecomputedValueTraced at h
  simp only [val_bind] at h
  obtain ⟨_, _, h⟩ := Option.bind_eq_some_iff.1 h
  obtain ⟨⟨r, rng⟩, hr, h⟩ := Option.bind_eq_some_iff.1 h
  unfold Ring.newTraced at hr
  simp only [val_bind] at hr
  obtain ⟨_, _, hr⟩ := Option.bind_eq_some_iff.1 hr
  obtain ⟨_, hi, hr⟩ := Option.bind_eq_some_iff.1 hr
  obtain ⟨_, _, hr⟩ := Option.bind_eq_some_iff.1 hr
  obtain ⟨_, _, hr⟩ := Option.bind_eq_some_iff.1 hr
  obtain ⟨_, _, hr⟩ := Option.bind_eq_some_iff.1 hr
  obtain ⟨_, _, hr⟩ := Option.bind_eq_some_iff.1 hr
  obtain ⟨_, _, hr⟩ := Option.bind_eq_some_iff.1 hr
  obtain ⟨_, _, hr⟩ := Option.bind_eq_some_iff.1 hr
  obtain ⟨_, _, hr⟩ := Option.bind_eq_some_iff.1 hr
  obtain ⟨_, _, hr⟩ := Option.bind_eq_some_iff.1 hr
  obtain ⟨_, _, hr⟩ := Option.bind_eq_some_iff.1 hr
  obtain ⟨_, _, hr⟩ := Option.bind_eq_some_iff.1 hr
  obtain ⟨_, _, hr⟩ := Option.bind_eq_some_iff.1 hr
  have hi : vi < vs.length := assert_val hi
  cases hr
  cases h
  refine ⟨hi, ?_⟩
  have : min vi vs.length = vi := by omega
  simp [RingProofBuilder.owed, Ring.owed, this]

theorem cost_addValue (n : Nat) :
    ∃ m : Multiset (Op F E), ∀ (b : RingProofBuilder B) vs, vs.length = n → ∀ vi,
      Cost (b.addValueTraced B vs vi) (b.owed B) m fun a => a.2.owed B := by
  obtain ⟨t1, h1⟩ := does_extNew B
  obtain ⟨m2, h2⟩ := cost_addPrecomputed B n
  find
  intro b vs hn vi
  unfold RingProofBuilder.addValueTraced
  cstep
  apply Cost.bind; (focus exact Cost.does (h1 _ _ _) _); rintro ⟨c, rng⟩ -
  have h3 := h2 { b with rng } c vs hn vi
  apply Cost.bind; (focus exact h3); rintro b' -
  exact Cost.pure (c, b') fun a => a.2.owed B

theorem rings_addValue {b b' : RingProofBuilder B} {c : ExtendedCiphertext F E} {vs : List E} {vi : Nat}
    (h : (b.addValueTraced B vs vi).val = some (c, b')) : b'.rings.length = b.rings.length + 1 := by
  unfold RingProofBuilder.addValueTraced at h
  simp only [val_bind] at h
  obtain ⟨_, _, h⟩ := Option.bind_eq_some_iff.1 h
  obtain ⟨p, _, h⟩ := Option.bind_eq_some_iff.1 h
  obtain ⟨b'', h', h⟩ := Option.bind_eq_some_iff.1 h
  have h2 := rings_addPrecomputed B (b := { b with rng := p.2 }) h'
  cases h
  exact h2

theorem owed_addValue {b b' : RingProofBuilder B} {c : ExtendedCiphertext F E} {vs : List E} {vi : Nat}
    (h : (b.addValueTraced B vs vi).val = some (c, b')) :
    vi < vs.length ∧ b'.owed B = b.owed B + vi • eqOps B := by
  unfold RingProofBuilder.addValueTraced at h
  simp only [val_bind] at h
  obtain ⟨_, _, h⟩ := Option.bind_eq_some_iff.1 h
  obtain ⟨p, _, h⟩ := Option.bind_eq_some_iff.1 h
  obtain ⟨b'', h', h⟩ := Option.bind_eq_some_iff.1 h
  have h2 := owed_addPrecomputed B (b := { b with rng := p.2 }) h'
  cases h
  exact h2

end

theorem does_appendTerminal (n : Nat) :
    ∃ tr, ∀ (rings : List (Ring F E)), rings.length = n → ∀ t, Does (Ring.appendTerminalTraced B rings t) tr := by
  induction n with
  | zero =>
    find; intro rings hn t
    obtain rfl := List.length_eq_zero_iff.1 hn
    unfold Ring.appendTerminalTraced; seq
  | succ n ih =>
    obtain ⟨t1, h1⟩ := ih
    find; intro rings hn t
    obtain ⟨r, rings, rfl⟩ := List.exists_cons_of_length_eq_add_one hn
    have h2 := h1 rings (by simpa using hn)
    unfold Ring.appendTerminalTraced; seq

section
variable [DecidableEq F]

theorem cost_finalize :
    ∃ m : Multiset (Op F E), ∀ (r : Ring F E) pre K ch rng,
      Cost (r.finalizeTraced B K ch rng) (pre + r.owed B) m fun _ => pre := by
  find
  intro r pre K ch rng
  unfold Ring.finalizeTraced
  apply Cost.bind (m := 0) (mid := fun _ => pre)
  · intro a ha
    have := cost_finalizeLoop B _ _ _ _ _ _ _ _ pre a ha
    rw [this, add_zero]; rfl
  rintro ⟨ch, rs, rng⟩ -
  cstep
  cstep
  cstep
  cstep
  cstep
  apply Cost.does; prim

theorem cost_finalizeAll (n : Nat) :
    ∃ m : Multiset (Op F E), ∀ (rings : List (Ring F E)), rings.length = n → ∀ pre K ch rng,
      Cost (Ring.finalizeAllTraced B K ch rings rng) (pre + (rings.map (Ring.owed B)).sum) m fun _ => pre := by
  obtain ⟨m1, h1⟩ := cost_finalize B
  induction n with
  | zero =>
    find; intro rings hn pre K ch rng
    obtain rfl := List.length_eq_zero_iff.1 hn
    unfold Ring.finalizeAllTraced
    simp only [List.map_nil, List.sum_nil, add_zero]
    apply Cost.does; prim
  | succ n ih =>
    obtain ⟨m2, h2⟩ := ih
    find; intro rings hn pre K ch rng
    obtain ⟨r, rings, rfl⟩ := List.exists_cons_of_length_eq_add_one hn
    have h3 := h2 rings (by simpa using hn)
    unfold Ring.finalizeAllTraced
    rw [List.map_cons, List.sum_cons, add_comm (r.owed B), ← add_assoc]
    apply Cost.bind; (focus exact h1 _ _ _ _ _); rintro ⟨l, rng⟩ -
    apply Cost.bind; (focus exact h3 _ _ _ _); rintro ⟨l', rng⟩ -
    apply Cost.does; prim

theorem cost_build (n : Nat) :
    ∃ m : Multiset (Op F E), ∀ (b : RingProofBuilder B), b.rings.length = n →
      Cost (b.buildTraced B) (b.owed B) m fun _ => 0 := by
  obtain ⟨t1, h1⟩ := does_appendTerminal B n
  obtain ⟨m2, h2⟩ := cost_finalizeAll B n
  find; intro b hn
  have h3 := h1 b.rings hn
  have h4 := h2 b.rings hn 0
  simp only [zero_add] at h4
  unfold RingProofBuilder.buildTraced
  cstep
  apply Cost.bind (mid := fun _ => 0)
  focus
    unfold Ring.aggregateTraced
    cstep
    apply Cost.bind; (focus exact Cost.does (h3 _) _); rintro t -
    cstep
    apply Cost.bind; (focus exact h4 _ _ _); rintro ⟨l, rng⟩ -
    apply Cost.does; prim
  rintro ⟨c, l, t, rng⟩ -
  apply Cost.does; prim

end

section
variable [DecidableEq F] [DecidableEq E]

theorem cost_encryptBool (K : PublicKey E) :
    ∃ m : Multiset (Op F E), ∀ v rng, Cost (K.encryptBoolTraced B v rng) 0 m fun _ => 0 := by
  obtain ⟨m1, h1⟩ := cost_addValue B 2
  obtain ⟨m2, h2⟩ := cost_build B 1
  find; intro v rng
  unfold PublicKey.encryptBoolTraced
  cstep
  apply Cost.bind
  focus
    unfold RingProofBuilder.newTraced
    apply Cost.does; seq
  rintro b hb
  have hb' : b.rings = [] := by
    rw [val_builderNew] at hb; cases hb; rfl
  have ho : b.owed B = 0 := by simp [RingProofBuilder.owed, hb']
  have h3 := h1 b [0, B.gen] rfl
  rw [ho] at h3
  apply Cost.bind; (focus exact h3 _); rintro ⟨c, b'⟩ h'
  have h4 := h2 b' (by rw [rings_addValue B h', hb']; rfl)
  apply Cost.bind; (focus exact h4); rintro ⟨ch, rs, t, rng⟩ -
  apply Cost.does; prim

theorem map_snd_zip_take {α β : Type} (l : List α) (l' : List β) : (l.zip l').map Prod.snd = l'.take l.length := by
  induction l generalizing l' with
  | nil => rfl
  | cons a l ih =>
    cases l' with
    | nil => rfl
    | cons b l' => simp [ih]

theorem does_decomposeLoop (d : Bool) (rings : List RingSpec) :
    ∃ tr, ∀ v, Does (RangeDecomposition.decomposeLoopTraced d rings v : Traced F E _) tr := by
  induction rings with
  | nil => find; intro v; unfold RangeDecomposition.decomposeLoopTraced; seq
  | cons r rings ih =>
    obtain ⟨t1, h1⟩ := ih
    find; intro v; unfold RangeDecomposition.decomposeLoopTraced
    seq

theorem length_decomposeLoop {d : Bool} {rings : List RingSpec} {v : Nat} {l : List Nat} {r : Nat}
    (h : (RangeDecomposition.decomposeLoopTraced d rings v : Traced F E _).val = some (l, r)) :
    l.length = rings.length := by
  induction rings generalizing v l r with
  | nil => unfold RangeDecomposition.decomposeLoopTraced at h; cases h; rfl
  | cons r rings ih =>
    unfold RangeDecomposition.decomposeLoopTraced at h
    simp only [val_bind] at h
    obtain ⟨_, _, h⟩ := Option.bind_eq_some_iff.1 h
    obtain ⟨_, _, h⟩ := Option.bind_eq_some_iff.1 h
    obtain ⟨_, _, h⟩ := Option.bind_eq_some_iff.1 h
    obtain ⟨_, _, h⟩ := Option.bind_eq_some_iff.1 h
    obtain ⟨_, _, h⟩ := Option.bind_eq_some_iff.1 h
    obtain ⟨_, _, h⟩ := Option.bind_eq_some_iff.1 h
    obtain ⟨_, _, h⟩ := Option.bind_eq_some_iff.1 h
    obtain ⟨_, h', h⟩ := Option.bind_eq_some_iff.1 h
    have := ih h'
    cases h
    simp [this]

theorem does_decompose (d : Bool) (range : PreparedRange E) :
    ∃ tr, ∀ v, Does (range.decomposeTraced d v : Traced F E _) tr := by
  obtain ⟨t1, h1⟩ := does_decomposeLoop (F := F) (E := E) d range.inner.rings
  find; intro v; unfold PreparedRange.decomposeTraced
  seq

theorem length_decompose {d : Bool} {range : PreparedRange E} {v : Nat} {l : List Nat}
    (h : (range.decomposeTraced d v : Traced F E _).val = some l) : l.length = range.inner.rings.length := by
  unfold PreparedRange.decomposeTraced at h
  simp only [val_bind] at h
  obtain ⟨_, _, h⟩ := Option.bind_eq_some_iff.1 h
  obtain ⟨_, _, h⟩ := Option.bind_eq_some_iff.1 h
  obtain ⟨_, h', h⟩ := Option.bind_eq_some_iff.1 h
  obtain ⟨_, _, h⟩ := Option.bind_eq_some_iff.1 h
  cases h
  exact length_decomposeLoop h'

theorem cost_addValues (ls : List (List E)) :
    ∃ m : Multiset (Op F E), ∀ (items : List (Nat × List E)), items.map Prod.snd = ls → ∀ c (b : RingProofBuilder B),
      Cost (RangeProof.addValuesTraced B items c b) (b.owed B) m fun a => a.2.2.owed B := by
  induction ls with
  | nil =>
    find; intro items hi c b
    obtain rfl := List.map_eq_nil_iff.1 hi
    unfold RangeProof.addValuesTraced
    exact Cost.pure ([], c, b) fun a => a.2.2.owed B
  | cons vs ls ih =>
    obtain ⟨m1, h1⟩ := cost_addValue B vs.length
    obtain ⟨t2, h2⟩ := does_extAdd (F := F) (E := E)
    obtain ⟨m3, h3⟩ := ih
    find; intro items hi c b
    obtain ⟨⟨i, vs'⟩, items, rfl, hv, hi⟩ := List.map_eq_cons_iff.1 hi
    have h4 := h1 b vs' (by rw [← hv]) i
    unfold RangeProof.addValuesTraced
    apply Cost.bind; (focus exact h4); rintro ⟨c', b'⟩ -
    apply Cost.bind; (focus exact Cost.does (h2 _ _) _); rintro c'' -
    apply Cost.bind; (focus exact h3 items hi _ _); rintro ⟨l, c, b⟩ -
    exact Cost.pure (c'.inner :: l, c, b) fun a => a.2.2.owed B

theorem rings_addValues {items : List (Nat × List E)} {c c' : ExtendedCiphertext F E} {b b' : RingProofBuilder B}
    {l : List (Ciphertext E)} (h : (RangeProof.addValuesTraced B items c b).val = some (l, c', b')) :
    b'.rings.length = b.rings.length + items.length := by
  induction items generalizing c c' b b' l with
  | nil => unfold RangeProof.addValuesTraced at h; cases h; rfl
  | cons x items ih =>
    obtain ⟨i, vs⟩ := x
    unfold RangeProof.addValuesTraced at h
    simp only [val_bind] at h
    obtain ⟨⟨c1, b1⟩, h1, h⟩ := Option.bind_eq_some_iff.1 h
    obtain ⟨_, _, h⟩ := Option.bind_eq_some_iff.1 h
    obtain ⟨⟨l2, c2, b2⟩, h2, h⟩ := Option.bind_eq_some_iff.1 h
    have e1 := rings_addValue B h1
    have e2 := ih h2
    cases h
    simp [e2, e1]; omega

theorem cost_fromCiphertext (K : PublicKey E) (range : PreparedRange E) :
    ∃ m : Multiset (Op F E), ∀ (c : CiphertextWithValue F E Nat) t rng,
      Cost (RangeProof.fromCiphertextTraced B K range c t rng) 0 m fun _ => 0 := by
  obtain ⟨t1, h1⟩ := does_decompose (F := F) B.debug range
  obtain ⟨m2, h2⟩ := cost_addValues B ((range.admissibleValues.take range.inner.rings.length).take
    (range.inner.rings.length - 1))
  obtain ⟨t3, h3⟩ := does_extSub (F := F) (E := E)
  obtain ⟨m4, h4⟩ := cost_addPrecomputed B
    ((((range.admissibleValues.take range.inner.rings.length).drop (range.inner.rings.length - 1)).head?).getD
      []).length
  obtain ⟨m5, h5⟩ := cost_build B (((range.admissibleValues.take range.inner.rings.length).take
    (range.inner.rings.length - 1)).length + 1)
  find; intro c t rng
  unfold RangeProof.fromCiphertextTraced
  apply Cost.bind; (focus exact Cost.does (h1 _) _); rintro is his
  have hl := length_decompose his
  have hm : (is.zip range.admissibleValues).map Prod.snd = range.admissibleValues.take range.inner.rings.length := by
    rw [← hl, map_snd_zip_take]
  rw [hl]
  cstep
  cstep
  cstep
  cstep
  apply Cost.bind
  focus
    unfold RingProofBuilder.newTraced
    apply Cost.does; seq
  rintro b hb
  have hb' : b.rings = [] := by
    rw [val_builderNew] at hb; cases hb; rfl
  have ho : b.owed B = 0 := by simp [RingProofBuilder.owed, hb']
  cstep
  have e1 : ((is.zip range.admissibleValues).take (range.inner.rings.length - 1)).map Prod.snd =
      (range.admissibleValues.take range.inner.rings.length).take (range.inner.rings.length - 1) := by
    rw [List.map_take, hm]
  have h6 := h2 ((is.zip range.admissibleValues).take (range.inner.rings.length - 1)) e1 ExtendedCiphertext.zero b
  rw [ho] at h6
  apply Cost.bind; (focus exact h6); rintro ⟨l, c', b'⟩ hb2
  apply Cost.bind; (focus exact Cost.does (h3 _ _) _); rintro c'' -
  apply Cost.bind; (focus (apply Cost.does; prim)); rintro ⟨i, vs⟩ hv
  have e2 : ((is.zip range.admissibleValues).drop (range.inner.rings.length - 1)).head? = some (i, vs) := hv
  have e3 : ((range.admissibleValues.take range.inner.rings.length).drop (range.inner.rings.length - 1)).head? =
      some vs := by
    rw [← hm, ← List.map_drop, List.head?_map, e2]; rfl
  have h7 := h4 b' c'' vs (by rw [e3]; rfl) i
  apply Cost.bind; (focus exact h7); rintro b3 hb3
  have h8 := h5 b3 (by
    rw [rings_addPrecomputed B hb3, rings_addValues B hb2, hb', ← e1, List.length_map]; simp)
  apply Cost.bind; (focus exact h8); rintro ⟨ch, rs, t, rng⟩ -
  apply Cost.does; prim

theorem cost_rangeNew (K : PublicKey E) (range : PreparedRange E) :
    ∃ m : Multiset (Op F E), ∀ v t rng, Cost (RangeProof.newTraced B K range v t rng) 0 m fun _ => 0 := by
  obtain ⟨t1, h1⟩ := does_withValueU64 B
  obtain ⟨m2, h2⟩ := cost_fromCiphertext B K range
  find; intro v t rng
  unfold RangeProof.newTraced
  apply Cost.bind; (focus exact Cost.does (h1 _ _ _) _); rintro ⟨c, rng⟩ -
  apply Cost.bind; (focus exact h2 _ _ _); rintro ⟨p, t, rng⟩ -
  apply Cost.does; prim

theorem cost_encryptRange (K : PublicKey E) (range : PreparedRange E) :
    ∃ m : Multiset (Op F E), ∀ v rng, Cost (K.encryptRangeTraced B range v rng) 0 m fun _ => 0 := by
  obtain ⟨m2, h2⟩ := cost_rangeNew B K range
  find; intro v rng
  unfold PublicKey.encryptRangeTraced
  cstep
  apply Cost.bind; (focus exact h2 _ _ _); rintro ⟨p, t, rng⟩ -
  apply Cost.does; prim

theorem does_sumProof (kind : ChoiceKind) (K : PublicKey E) :
    ∃ tr, ∀ c rng, Does (SumProof.proveTraced B kind c K rng) tr := by
  cases kind with
  | single =>
    obtain ⟨t1, h1⟩ := does_logEq B K.bytes.length
    have h2 := h1 K rfl
    find; intro c rng; unfold SumProof.proveTraced; seq
  | multi => find; intro c rng; unfold SumProof.proveTraced; seq

theorem cost_addChoices (vs : List E) (n : Nat) :
    ∃ m : Multiset (Op F E), ∀ (flags : List Bool), flags.length = n → ∀ (b : RingProofBuilder B),
      Cost (EncryptedChoice.addChoicesTraced B vs flags b) (b.owed B) m fun a => a.2.owed B := by
  induction n with
  | zero =>
    find; intro flags hn b
    obtain rfl := List.length_eq_zero_iff.1 hn
    unfold EncryptedChoice.addChoicesTraced
    exact Cost.pure ([], b) fun a => a.2.owed B
  | succ n ih =>
    obtain ⟨m1, h1⟩ := cost_addValue B vs.length
    obtain ⟨m3, h3⟩ := ih
    find; intro flags hn b
    obtain ⟨f, flags, rfl⟩ := List.exists_cons_of_length_eq_add_one hn
    have h4 := h1 b vs rfl
    unfold EncryptedChoice.addChoicesTraced
    apply Cost.bind; (focus exact h4 _); rintro ⟨c', b'⟩ -
    apply Cost.bind; (focus exact h3 flags (by simpa using hn) _); rintro ⟨l, b⟩ -
    exact Cost.pure (c' :: l, b) fun a => a.2.owed B

theorem rings_addChoices {vs : List E} {flags : List Bool} {b b' : RingProofBuilder B}
    {l : List (ExtendedCiphertext F E)} (h : (EncryptedChoice.addChoicesTraced B vs flags b).val = some (l, b')) :
    b'.rings.length = b.rings.length + flags.length ∧ l.length = flags.length := by
  induction flags generalizing b b' l with
  | nil => unfold EncryptedChoice.addChoicesTraced at h; cases h; exact ⟨rfl, rfl⟩
  | cons x flags ih =>
    unfold EncryptedChoice.addChoicesTraced at h
    simp only [val_bind] at h
    obtain ⟨⟨c1, b1⟩, h1, h⟩ := Option.bind_eq_some_iff.1 h
    obtain ⟨⟨l2, b2⟩, h2, h⟩ := Option.bind_eq_some_iff.1 h
    have e1 := rings_addValue B h1
    obtain ⟨e2, e3⟩ := ih h2
    cases h
    simp [e2, e1, e3]; omega

theorem does_sum (n : Nat) :
    ∃ tr, ∀ flags : List Bool, flags.length = n → ∀ s, Does (EncryptedChoice.sumTraced flags s : Traced F E _) tr := by
  induction n with
  | zero =>
    find; intro flags hn s
    obtain rfl := List.length_eq_zero_iff.1 hn
    unfold EncryptedChoice.sumTraced; seq
  | succ n ih =>
    obtain ⟨t1, h1⟩ := ih
    find; intro flags hn s
    obtain ⟨f, flags, rfl⟩ := List.exists_cons_of_length_eq_add_one hn
    have h2 := h1 flags (by simpa using hn)
    unfold EncryptedChoice.sumTraced; seq

theorem does_sumCiphertexts (n : Nat) :
    ∃ tr, ∀ l : List (ExtendedCiphertext F E), l.length = n → ∀ s, Does (EncryptedChoice.sumCiphertextsTraced l s) tr := by
  induction n with
  | zero =>
    find; intro l hn s
    obtain rfl := List.length_eq_zero_iff.1 hn
    unfold EncryptedChoice.sumCiphertextsTraced; seq
  | succ n ih =>
    obtain ⟨t1, h1⟩ := ih
    obtain ⟨t3, h3⟩ := does_extAdd (F := F) (E := E)
    find; intro l hn s
    obtain ⟨f, l, rfl⟩ := List.exists_cons_of_length_eq_add_one hn
    have h2 := h1 l (by simpa using hn)
    unfold EncryptedChoice.sumCiphertextsTraced; seq

theorem cost_choice {kind : ChoiceKind} (params : ChoiceParams E kind) :
    ∃ m : Multiset (Op F E), ∀ flags rng, Cost (EncryptedChoice.newTraced B params flags rng) 0 m fun _ => 0 := by
  obtain ⟨t1, h1⟩ := does_sum (F := F) (E := E) params.optionsCount
  obtain ⟨m2, h2⟩ := cost_addChoices B [0, B.gen] params.optionsCount
  obtain ⟨m3, h3⟩ := cost_build B params.optionsCount
  obtain ⟨t4, h4⟩ := does_sumCiphertexts (F := F) (E := E) (params.optionsCount - 1)
  obtain ⟨t5, h5⟩ := does_sumProof B kind params.receiver
  find; intro flags rng
  unfold EncryptedChoice.newTraced
  cstep
  apply Cost.bind; (focus (apply Cost.does; prim)); rintro _ hn
  have hn : flags.length = params.optionsCount := assert_val hn
  cstep
  apply Cost.bind
  focus
    unfold RingProofBuilder.newTraced
    apply Cost.does; seq
  rintro b hb
  have hb' : b.rings = [] := by
    rw [val_builderNew] at hb; cases hb; rfl
  have ho : b.owed B = 0 := by simp [RingProofBuilder.owed, hb']
  apply Cost.bind; (focus exact Cost.does (h1 flags hn _) _); rintro sum -
  have h6 := h2 flags hn b
  rw [ho] at h6
  apply Cost.bind; (focus exact h6); rintro ⟨l, b'⟩ hb2
  obtain ⟨e1, e2⟩ := rings_addChoices B hb2
  have h7 := h3 b' (by rw [e1, hb', hn]; simp)
  apply Cost.bind; (focus exact h7); rintro ⟨ch, rs, t, rng⟩ -
  cstep
  have h8 := h4 l.tail (by rw [List.length_tail, e2, hn])
  apply Cost.bind; (focus exact Cost.does (h8 _) _); rintro c -
  apply Cost.bind; (focus exact Cost.does (h5 _ _) _); rintro ⟨p, rng⟩ -
  apply Cost.does; prim

theorem cost_single (params : ChoiceParams E .single) :
    ∃ m : Multiset (Op F E), ∀ c rng, Cost (EncryptedChoice.singleTraced B params c rng) 0 m fun _ => 0 := by
  obtain ⟨m1, h1⟩ := cost_choice B params
  find; intro c rng
  unfold EncryptedChoice.singleTraced
  cstep
  exact h1 _ _

theorem does_creditOf (d : Bool) (n : Nat) :
    ∃ tr, ∀ votes : List Nat, votes.length = n → ∀ s,
      Does (QuadraticVotingBallot.creditOfTraced d votes s : Traced F E _) tr := by
  induction n with
  | zero =>
    find; intro votes hn s
    obtain rfl := List.length_eq_zero_iff.1 hn
    unfold QuadraticVotingBallot.creditOfTraced; seq
  | succ n ih =>
    obtain ⟨t1, h1⟩ := ih
    find; intro votes hn s
    obtain ⟨f, votes, rfl⟩ := List.exists_cons_of_length_eq_add_one hn
    have h2 := h1 votes (by simpa using hn)
    unfold QuadraticVotingBallot.creditOfTraced; seq

theorem cost_encryptVotes (K : PublicKey E) (range : PreparedRange E) (n : Nat) :
    ∃ m : Multiset (Op F E), ∀ votes : List Nat, votes.length = n → ∀ rng,
      Cost (QuadraticVotingBallot.encryptVotesTraced B K range votes rng) 0 m fun _ => 0 := by
  induction n with
  | zero =>
    find; intro votes hn rng
    obtain rfl := List.length_eq_zero_iff.1 hn
    unfold QuadraticVotingBallot.encryptVotesTraced
    apply Cost.does; prim
  | succ n ih =>
    obtain ⟨m1, h1⟩ := cost_rangeNew B K range
    obtain ⟨m3, h3⟩ := ih
    find; intro votes hn rng
    obtain ⟨f, votes, rfl⟩ := List.exists_cons_of_length_eq_add_one hn
    unfold QuadraticVotingBallot.encryptVotesTraced
    cstep
    apply Cost.bind; (focus exact h1 _ _ _); rintro ⟨⟨c, p⟩, t, rng⟩ -
    apply Cost.bind; (focus exact h3 votes (by simpa using hn) _); rintro ⟨l, rng⟩ -
    apply Cost.does; prim

theorem length_encryptVotes {K : PublicKey E} {range : PreparedRange E} {votes : List Nat} {rng rng' : B.Rng}
    {l : List (CiphertextWithValue F E × RangeProof F E)}
    (h : (QuadraticVotingBallot.encryptVotesTraced B K range votes rng).val = some (l, rng')) :
    l.length = votes.length := by
  induction votes generalizing rng rng' l with
  | nil => unfold QuadraticVotingBallot.encryptVotesTraced at h; cases h; rfl
  | cons x votes ih =>
    unfold QuadraticVotingBallot.encryptVotesTraced at h
    simp only [val_bind] at h
    obtain ⟨_, _, h⟩ := Option.bind_eq_some_iff.1 h
    obtain ⟨_, _, h⟩ := Option.bind_eq_some_iff.1 h
    obtain ⟨⟨l2, b2⟩, h2, h⟩ := Option.bind_eq_some_iff.1 h
    have e2 := ih h2
    cases h
    simp [e2]

theorem cost_ballot (params : QuadraticVotingParams E) :
    ∃ m : Multiset (Op F E), ∀ votes rng, Cost (QuadraticVotingBallot.newTraced B params votes rng) 0 m fun _ => 0 := by
  obtain ⟨t1, h1⟩ := does_creditOf (F := F) (E := E) B.debug params.optionsCount
  obtain ⟨m2, h2⟩ := cost_encryptVotes B params.receiver params.voteCountRange params.optionsCount
  obtain ⟨m3, h3⟩ := cost_rangeNew B params.receiver params.creditRange
  obtain ⟨t4, h4⟩ := does_sumOfSquares B params.optionsCount params.receiver
  find; intro votes rng
  unfold QuadraticVotingBallot.newTraced
  apply Cost.bind; (focus (apply Cost.does; prim)); rintro _ hn
  have hn : votes.length = params.optionsCount := assert_val hn
  apply Cost.bind; (focus exact Cost.does (h1 votes hn _) _); rintro credit -
  apply Cost.bind; (focus exact h2 votes hn _); rintro ⟨l, rng⟩ hl
  have hl := length_encryptVotes B hl
  cstep
  apply Cost.bind; (focus exact h3 _ _ _); rintro ⟨⟨c, p⟩, t, rng⟩ -
  cstep
  have h5 := h4 (l.map Prod.fst) (by rw [List.length_map, hl, hn])
  apply Cost.bind; (focus exact Cost.does (h5 _ _ _) _); rintro ⟨p, t, rng⟩ -
  apply Cost.does; prim

end

end

end ElasticElgamal
