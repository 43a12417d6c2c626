import Verif.Model.Group.Ed25519
import Verif.Lemmas.Curves.EdInverses
import Verif.Lemmas.Curves.Weierstrass
import Mathlib.LinearAlgebra.FreeModule.Finite.Basic
import Mathlib.FieldTheory.Finiteness
import Mathlib.LinearAlgebra.Dimension.Free

/-!
# The group of Curve25519

The points killed by `ℓ` are the `ℓ` multiples of the base point.
-/

set_option autoImplicit false
set_option linter.unusedSectionVars false

namespace ElasticElgamal.Curves

/-- The product of the coordinates in the denominators. -/
def edDeltaN (p d x₁ y₁ x₂ y₂ : ℕ) : ℕ := d * x₁ % p * x₂ % p * y₁ % p * y₂ % p

/-- Abscissa of the sum; `w` is the inverse of `1 - δ²`. -/
def edXN (p w δ x₁ y₁ x₂ y₂ : ℕ) : ℕ := (x₁ * y₂ + y₁ * x₂) % p * (1 + (p - δ)) % p * w % p

/-- Ordinate of the sum. -/
def edYN (p w δ x₁ y₁ x₂ y₂ : ℕ) : ℕ := (y₁ * y₂ + x₁ * x₂) % p * (1 + δ) % p * w % p

/-- Check of an inverse. -/
def edInvOk (p w δ : ℕ) : Prop := (1 + δ) * (1 + (p - δ)) % p * w % p = 1

instance (p w δ : ℕ) : Decidable (edInvOk p w δ) := inferInstanceAs (Decidable (_ = _))

/-- Double-and-add with given inverses. Succeeds if the final point is the identity, and then returns the multiple. -/
def edChain (p d gx gy : ℕ) : List (ℕ × Option ℕ) → ℕ → ℕ → ℕ → Option ℕ
  | [], x, y, k => if x = 0 ∧ y = 1 then some k else none
  | (w, none) :: rest, x, y, k =>
    (fun δ => if edInvOk p w δ then edChain p d gx gy rest (edXN p w δ x y x y) (edYN p w δ x y x y) (2 * k) else none)
      (edDeltaN p d x y x y)
  | (w, some w') :: rest, x, y, k =>
    (fun δ => if edInvOk p w δ then
        (fun x' y' => (fun δ' => if edInvOk p w' δ' then
            edChain p d gx gy rest (edXN p w' δ' x' y' gx gy) (edYN p w' δ' x' y' gx gy) (2 * k + 1) else none)
          (edDeltaN p d x' y' gx gy))
        (edXN p w δ x y x y) (edYN p w δ x y x y)
      else none)
      (edDeltaN p d x y x y)

section
variable {p : ℕ} [Fact p.Prime] {d : ℕ} [EdwardsComplete (d : ZMod p)]

theorem cast_edDeltaN (x₁ y₁ x₂ y₂ : ℕ) :
    ((edDeltaN p d x₁ y₁ x₂ y₂ : ℕ) : ZMod p) = edDelta (d : ZMod p) x₁ y₁ x₂ y₂ := by
  simp only [edDeltaN, ZMod.natCast_mod, Nat.cast_mul, edDelta]

theorem edDeltaN_lt (x₁ y₁ x₂ y₂ : ℕ) : edDeltaN p d x₁ y₁ x₂ y₂ < p := Nat.mod_lt _ pos_of_prime

theorem ed_step {P Q : EdPoint (d : ZMod p)} {w x₁ y₁ x₂ y₂ : ℕ} (hx₁ : P.x = x₁) (hy₁ : P.y = y₁)
    (hx₂ : Q.x = x₂) (hy₂ : Q.y = y₂) (hw : edInvOk p w (edDeltaN p d x₁ y₁ x₂ y₂)) :
    (P + Q).x = (edXN p w (edDeltaN p d x₁ y₁ x₂ y₂) x₁ y₁ x₂ y₂ : ℕ) ∧
      (P + Q).y = (edYN p w (edDeltaN p d x₁ y₁ x₂ y₂) x₁ y₁ x₂ y₂ : ℕ) := by
  have hlt := (edDeltaN_lt (p := p) (d := d) x₁ y₁ x₂ y₂).le
  have hw' := congrArg (fun m : ℕ => (m : ZMod p)) hw
  simp only [ZMod.natCast_mod, Nat.cast_mul, Nat.cast_add, Nat.cast_sub hlt, CharP.cast_eq_zero, Nat.cast_one,
    cast_edDeltaN] at hw'
  have hX := edX_den_ne_zero P.onCurve Q.onCurve
  have hY := edY_den_ne_zero P.onCurve Q.onCurve
  rw [hx₁, hy₁, hx₂, hy₂] at hX hY
  simp only [EdPoint.add_x, EdPoint.add_y, hx₁, hy₁, hx₂, hy₂, edX, edY, edXN, edYN, ZMod.natCast_mod, Nat.cast_mul,
    Nat.cast_add, Nat.cast_sub hlt, CharP.cast_eq_zero, Nat.cast_one, cast_edDeltaN]
  generalize edDelta (d : ZMod p) x₁ y₁ x₂ y₂ = δ at *
  constructor
  · rw [div_eq_iff hX]
    linear_combination -((x₁ : ZMod p) * y₂ + y₁ * x₂) * hw'
  · rw [div_eq_iff hY]
    linear_combination -((y₁ : ZMod p) * y₂ + x₁ * x₂) * hw'

theorem edChain_sound {gx gy : ℕ} {G : EdPoint (d : ZMod p)} (hgx : G.x = gx) (hgy : G.y = gy) (n : ℕ) :
    ∀ (steps : List (ℕ × Option ℕ)) (x y k : ℕ), (k • G).x = x → (k • G).y = y →
      edChain p d gx gy steps x y k = some n → n • G = 0
  | [], x, y, k, hx, hy, hs => by
    simp only [edChain] at hs
    split at hs
    · next hc =>
      have hk := Option.some.inj hs
      subst hk
      ext
      · rw [hx, hc.1, Nat.cast_zero]; rfl
      · rw [hy, hc.2, Nat.cast_one]; rfl
    · cases hs
  | (w, none) :: rest, x, y, k, hx, hy, hs => by
    simp only [edChain] at hs
    split at hs
    · next hc =>
      obtain ⟨h1, h2⟩ := ed_step hx hy hx hy hc
      refine edChain_sound hgx hgy n rest _ _ _ ?_ ?_ hs
      · rw [mul_nsmul', two_nsmul]; exact h1
      · rw [mul_nsmul', two_nsmul]; exact h2
    · cases hs
  | (w, some w') :: rest, x, y, k, hx, hy, hs => by
    simp only [edChain] at hs
    split at hs
    · next hc =>
      split at hs
      · next hc' =>
        obtain ⟨h1, h2⟩ := ed_step hx hy hx hy hc
        obtain ⟨h3, h4⟩ := ed_step h1 h2 hgx hgy hc'
        refine edChain_sound hgx hgy n rest _ _ _ ?_ ?_ hs
        · rw [succ_nsmul, mul_nsmul', two_nsmul]; exact h3
        · rw [succ_nsmul, mul_nsmul', two_nsmul]; exact h4
      · cases hs
    · cases hs

end

/-- Square roots are equal if their parities are. -/
theorem eq_of_sq_eq_of_parity {p : ℕ} [Fact p.Prime] (hp : p ≠ 2) {y y' : ZMod p} (hsq : y ^ 2 = y' ^ 2)
    (hpar : y.val % 2 = y'.val % 2) : y = y' := by
  have : NeZero p := ⟨pos_of_prime.ne'⟩
  rcases sq_eq_sq_iff_eq_or_eq_neg.mp hsq with h | hn
  · exact h
  · by_cases hz : y' = 0
    · rw [hn, hz, neg_zero]
    · exfalso
      have hv := ZMod.neg_val y'
      rw [if_neg hz, ← hn] at hv
      have hlt := ZMod.val_lt y'
      have hodd := (Fact.out : p.Prime).eq_two_or_odd
      have h1 : y'.val ≠ 0 := by rwa [Ne, ZMod.val_eq_zero]
      omega

/-- A point is determined by its abscissa and the parity of the ordinate, so there are at most `2p` points. -/
theorem card_edPoint_le {p : ℕ} [Fact p.Prime] (hp : p ≠ 2) (d : ZMod p) [hd : EdwardsComplete d] :
    Finite (EdPoint d) ∧ Nat.card (EdPoint d) ≤ 2 * p := by
  have : NeZero p := ⟨pos_of_prime.ne'⟩
  let f : EdPoint d → ZMod p × Bool := fun P => (P.x, decide (P.y.val % 2 = 1))
  have hf : Function.Injective f := by
    intro P Q he
    simp only [f, Prod.mk.injEq, decide_eq_decide] at he
    obtain ⟨hx, hpar⟩ := he
    have e1 := P.onCurve
    have e2 := Q.onCurve
    unfold OnEdwards at e1 e2
    rw [← hx] at e2
    have hne : 1 - d * P.x ^ 2 ≠ 0 := by
      intro h0
      by_cases hx0 : P.x = 0
      · rw [hx0] at h0; simp at h0
      · refine hd.nonsquare (1 / P.x) ?_
        rw [div_mul_div_comm, div_eq_iff (mul_ne_zero hx0 hx0)]
        linear_combination h0
    have hsq : P.y ^ 2 = Q.y ^ 2 := by
      refine mul_left_cancel₀ hne ?_
      linear_combination e1 - e2
    exact EdPoint.ext hx (eq_of_sq_eq_of_parity hp hsq (by omega))
  have hfin := Finite.of_injective f hf
  refine ⟨hfin, ?_⟩
  have := Nat.card_le_card_of_injective f hf
  rw [Nat.card_eq_fintype_card (α := ZMod p × Bool), Fintype.card_prod, ZMod.card, Fintype.card_bool] at this
  omega

end ElasticElgamal.Curves

namespace ElasticElgamal.Ed25519

open Curves

theorem p_ne_two : p ≠ 2 := by decide +kernel

theorem sqrtM1_sq : (sqrtM1 : ZMod p) * sqrtM1 = -1 := by
  have h : ((sqrtM1 * sqrtM1 + 1 : ℕ) : ZMod p) = 0 := by
    rw [ZMod.natCast_eq_zero_iff]
    decide +kernel
  push_cast at h
  linear_combination h

/-- The coefficient is not a square. -/
theorem d_nonsquare (r : ZMod p) : r * r ≠ (d : ZMod p) := by
  intro h
  have hr : r ≠ 0 := by
    rintro rfl
    have h0 : ((d : ℕ) : ZMod p) = 0 := by rw [← h, mul_zero]
    rw [ZMod.natCast_eq_zero_iff] at h0
    exact absurd h0 (by decide +kernel)
  have h1 := ZMod.pow_card_sub_one_eq_one hr
  have h3 : p - 1 = 2 * ((p - 1) / 2) := by decide +kernel
  rw [h3, pow_mul, sq, h, ← powMod_cast p d 255 _ (by decide +kernel)] at h1
  have h2 : ((powMod p d 255 ((p - 1) / 2) : ℕ) : ZMod p) = ((1 : ℕ) : ZMod p) := by
    rw [h1, Nat.cast_one]
  rw [ZMod.natCast_eq_natCast_iff] at h2
  unfold Nat.ModEq at h2
  exact absurd h2 (by decide +kernel)

instance : EdwardsComplete (d : ZMod p) where
  two_ne_zero := by
    intro h0
    have h0' : ((2 : ℕ) : ZMod p) = 0 := by exact_mod_cast h0
    rw [ZMod.natCast_eq_zero_iff] at h0'
    exact absurd h0' (by decide +kernel)
  nonsquare := d_nonsquare
  sqrt_neg_one := ⟨sqrtM1, sqrtM1_sq⟩

/-- `d` is the quotient in the definition of the curve. -/
theorem d_eq : (d : ZMod p) * 121666 = -121665 := by
  have h : ((d * 121666 + 121665 : ℕ) : ZMod p) = 0 := by
    rw [ZMod.natCast_eq_zero_iff]
    decide +kernel
  push_cast at h
  linear_combination h

/-- The base point. -/
def base : Point := ⟨bx, by', base_onCurve⟩

theorem base_ne_zero : base ≠ 0 := by
  intro h
  have h' := congrArg EdPoint.x h
  have h0 : ((bx : ℕ) : ZMod p) = 0 := h'
  rw [ZMod.natCast_eq_zero_iff] at h0
  exact absurd h0 (by decide +kernel)

theorem order_nsmul_base : ℓ • base = 0 := by
  have hs : edChain p d bx by' edInverses bx by' 1 = some ℓ := by decide +kernel
  exact edChain_sound (G := base) rfl rfl ℓ edInverses bx by' 1 (by rw [one_nsmul]; rfl) (by rw [one_nsmul]; rfl) hs

/-- The subgroup has `ℓ` elements. -/
theorem card_subgroup : Nat.card (Curve25519.Subgroup Point ℓ) = ℓ := by
  obtain ⟨hfin, hcard⟩ := card_edPoint_le p_ne_two (d : ZMod p)
  have hle : Nat.card (Curve25519.Subgroup Point ℓ) ≤ 2 * p :=
    (Nat.card_le_card_of_injective _ Subtype.val_injective).trans hcard
  have hpow : Nat.card (Curve25519.Subgroup Point ℓ) =
      ℓ ^ Module.finrank (ZMod ℓ) (Curve25519.Subgroup Point ℓ) := by
    have := Module.natCard_eq_pow_finrank (K := ZMod ℓ) (V := Curve25519.Subgroup Point ℓ)
    rwa [Nat.card_zmod] at this
  have hbase : (⟨base, order_nsmul_base⟩ : Curve25519.Subgroup Point ℓ) ≠ 0 := fun h =>
    base_ne_zero (congrArg Subtype.val h)
  have h1 : 0 < Module.finrank (ZMod ℓ) (Curve25519.Subgroup Point ℓ) := by
    have : Nontrivial (Curve25519.Subgroup Point ℓ) := ⟨_, _, hbase⟩
    exact Module.finrank_pos
  have h2 : Module.finrank (ZMod ℓ) (Curve25519.Subgroup Point ℓ) < 2 := by
    by_contra h
    have h3 : ℓ ^ 2 ≤ ℓ ^ Module.finrank (ZMod ℓ) (Curve25519.Subgroup Point ℓ) :=
      Nat.pow_le_pow_right (by decide +kernel) (by omega)
    rw [← hpow] at h3
    have h4 : 2 * p < ℓ ^ 2 := by decide +kernel
    omega
  rw [hpow, show Module.finrank (ZMod ℓ) (Curve25519.Subgroup Point ℓ) = 1 by omega, pow_one]

theorem base_spans (e : Point) (he : ℓ • e = 0) : ∃ k : ℕ, e = k • base := by
  have hbase : (⟨base, order_nsmul_base⟩ : Curve25519.Subgroup Point ℓ) ≠ 0 := fun h =>
    base_ne_zero (congrArg Subtype.val h)
  obtain ⟨k, hk⟩ := mem_multiples_of_prime_card (p := ℓ) card_subgroup
    (g := (⟨base, order_nsmul_base⟩ : Curve25519.Subgroup Point ℓ)) (g' := ⟨e, he⟩) hbase
  exact ⟨k, congrArg Subtype.val hk.symm⟩

/-! ## Square roots -/

theorem ctAbs_sq (x : ZMod p) : ctAbs x ^ 2 = x ^ 2 := by
  unfold ctAbs
  split
  · rw [neg_sq]
  · rfl

theorem neg_parity {x : ZMod p} (hx : x ≠ 0) : (-x).val % 2 = 1 - x.val % 2 := by
  have : NeZero p := ⟨pos_of_prime.ne'⟩
  have hv := ZMod.neg_val x
  rw [if_neg hx] at hv
  have hlt := ZMod.val_lt x
  have hodd : p % 2 = 1 := by decide +kernel
  have h1 : x.val ≠ 0 := by rwa [Ne, ZMod.val_eq_zero]
  omega

theorem isNegative_ctAbs (x : ZMod p) : isNegative (ctAbs x) = false := by
  unfold ctAbs
  split
  · next h =>
    have hx : x ≠ 0 := by rintro rfl; simp [isNegative] at h
    simp only [isNegative, decide_eq_true_eq, decide_eq_false_iff_not] at h ⊢
    rw [neg_parity hx]
    omega
  · next h => simpa using h

theorem ctAbs_of_nonneg {x : ZMod p} (h : isNegative x = false) : ctAbs x = x := by
  simp [ctAbs, h]

theorem ctAbs_neg (x : ZMod p) : ctAbs (-x) = ctAbs x := by
  by_cases hx : x = 0
  · rw [hx, neg_zero]
  · have h := neg_parity hx
    have hlt := Nat.mod_lt x.val (by norm_num : 2 > 0)
    unfold ctAbs isNegative
    simp only [decide_eq_true_eq]
    split <;> split
    · omega
    · rw [neg_neg]
    · rfl
    · omega

/-- Nonnegative elements with the same square are equal. -/
theorem eq_of_sq_eq {x y : ZMod p} (h : x ^ 2 = y ^ 2) (hx : isNegative x = false) (hy : isNegative y = false) :
    x = y := by
  rcases sq_eq_sq_iff_eq_or_eq_neg.mp h with h | h
  · exact h
  · rw [← ctAbs_of_nonneg hx, ← ctAbs_of_nonneg hy, h, ctAbs_neg]

theorem sqrtRatioI_spec (u : ZMod p) {v : ZMod p} (hv : v ≠ 0) :
    ((sqrtRatioI u v).1 = true ↔ ∃ s, v * s ^ 2 = u) ∧
      ((sqrtRatioI u v).1 = true → v * (sqrtRatioI u v).2 ^ 2 = u) ∧
      ((sqrtRatioI u v).1 = false → v * (sqrtRatioI u v).2 ^ 2 = sqrtM1 * u) := by
  have hE : 8 * ((p - 5) / 8) + 5 = p := by decide +kernel
  have hi := sqrtM1_sq
  simp only [sqrtRatioI, power_eq, ctAbs_sq]
  generalize (p - 5) / 8 = E at *
  generalize ((sqrtM1 : ℕ) : ZMod p) = i at *
  have hch : v * (u * v ^ 3 * (u * v ^ 7) ^ E) ^ 2 = u * (u * v ^ 7) ^ (2 * E + 1) := by
    have e : (u * v ^ 7) ^ (2 * E + 1) = ((u * v ^ 7) ^ E) ^ 2 * (u * v ^ 7) := by rw [pow_succ, pow_mul']
    rw [e]
    ring
  set c := (u * v ^ 7) ^ (2 * E + 1) with hc
  set r := u * v ^ 3 * (u * v ^ 7) ^ E with hr
  rw [hch]
  have hroots : u ≠ 0 → c = 1 ∨ c = -1 ∨ c = i ∨ c = -i := by
    intro hu
    have ht : u * v ^ 7 ≠ 0 := mul_ne_zero hu (pow_ne_zero 7 hv)
    have h1 := ZMod.pow_card_sub_one_eq_one ht
    have h4 : c ^ 4 = 1 := by
      rw [hc, ← pow_mul, show (2 * E + 1) * 4 = p - 1 by omega, h1]
    have h5 : (c - 1) * ((c + 1) * ((c - i) * (c + i))) = 0 := by
      linear_combination h4 - (c ^ 2 - 1) * hi
    rcases mul_eq_zero.mp h5 with h | h
    · exact .inl (sub_eq_zero.mp h)
    rcases mul_eq_zero.mp h with h | h
    · exact .inr (.inl (eq_neg_of_add_eq_zero_left h))
    rcases mul_eq_zero.mp h with h | h
    · exact .inr (.inr (.inl (sub_eq_zero.mp h)))
    · exact .inr (.inr (.inr (eq_neg_of_add_eq_zero_left h)))
  have hsound : (u * c = u ∨ u * c = -u) →
      v * (if u * c = -u ∨ u * c = -u * i then i * r else r) ^ 2 = u := by
    intro h
    by_cases hu : u = 0
    · have : r = 0 := by rw [hr, hu]; ring
      rw [this, hu]
      simp
    split
    · next h' =>
      rw [mul_pow]
      rcases h' with h' | h'
      · linear_combination i ^ 2 * hch - u * hi * 1 + i ^ 2 * h'
      · exfalso
        have hci : c = -i := mul_left_cancel₀ hu (by linear_combination h')
        rcases h with h | h
        · have : c = 1 := mul_left_cancel₀ hu (by linear_combination h)
          have h2 : (2 : ZMod p) = 0 := by
            linear_combination -(1 - i) * (this - hci) + hi
          exact EdwardsComplete.two_ne_zero (d := (d : ZMod p)) h2
        · have : c = -1 := mul_left_cancel₀ hu (by linear_combination h)
          have h2 : (2 : ZMod p) = 0 := by
            linear_combination (1 + i) * (this - hci) + hi
          exact EdwardsComplete.two_ne_zero (d := (d : ZMod p)) h2
    · next h' =>
      have : u * c = u := by
        rcases h with h | h
        · exact h
        · exact absurd (.inl h) h'
      rw [hch, this]
  refine ⟨?_, ?_, ?_⟩
  · simp only [decide_eq_true_eq]
    constructor
    · intro h
      exact ⟨_, hsound h⟩
    · rintro ⟨s, hs⟩
      by_cases hu : u = 0
      · left; rw [hu, zero_mul]
      have hs0 : s ≠ 0 := by rintro rfl; apply hu; rw [← hs]; ring
      have hsq : c ^ 2 = 1 := by
        have ht : s * v ^ 4 ≠ 0 := mul_ne_zero hs0 (pow_ne_zero 4 hv)
        have h1 := ZMod.pow_card_sub_one_eq_one ht
        have e : u * v ^ 7 = (s * v ^ 4) ^ 2 := by rw [← hs]; ring
        rw [hc, e, ← pow_mul, ← pow_mul, show 2 * ((2 * E + 1) * 2) = p - 1 by omega, h1]
      rcases sq_eq_sq_iff_eq_or_eq_neg.mp (hsq.trans (one_pow 2).symm) with h | h
      · left; rw [h, mul_one]
      · right; rw [h]; ring
  · simpa only [decide_eq_true_eq] using hsound
  · intro h
    simp only [decide_eq_false_iff_not, not_or] at h
    have hu : u ≠ 0 := by rintro rfl; simp at h
    rcases hroots hu with h' | h' | h' | h'
    · exact absurd (by rw [h', mul_one]) h.1
    · exact absurd (by rw [h']; ring) h.2
    · have : ¬ (u * c = -u ∨ u * c = -u * i) := by
        rintro (h2 | h2)
        · exact h.2 h2
        · have h3 : c = -i := mul_left_cancel₀ hu (by linear_combination h2)
          have h4 : (2 : ZMod p) = 0 := by
            linear_combination i * (h' - h3) + 2 * hi
          exact EdwardsComplete.two_ne_zero (d := (d : ZMod p)) h4
      rw [if_neg this, hch, h', mul_comm]
    · have : u * c = -u ∨ u * c = -u * i := .inr (by rw [h']; ring)
      rw [if_pos this, mul_pow]
      linear_combination i ^ 2 * hch + i ^ 2 * u * h' - i * u * hi

theorem sqrtRatioI_nonneg (u v : ZMod p) : isNegative (sqrtRatioI u v).2 = false := by
  simp only [sqrtRatioI]
  exact isNegative_ctAbs _

attribute [local irreducible] sqrtRatioI

theorem sqrtRatio_iff (u v r : ZMod p) (hv : v ≠ 0) :
    (if (sqrtRatioI u v).1 then some (sqrtRatioI u v).2 else none) = some r ↔ v * r ^ 2 = u ∧ r.val % 2 = 0 := by
  obtain ⟨h1, h2, -⟩ := sqrtRatioI_spec u hv
  have hn := sqrtRatioI_nonneg u v
  constructor
  · intro h
    split at h
    · next ht =>
      rw [← Option.some.inj h]
      refine ⟨h2 ht, ?_⟩
      simp only [isNegative, decide_eq_false_iff_not] at hn
      omega
    · cases h
  · rintro ⟨hr, hpar⟩
    have ht := h1.mpr ⟨r, hr⟩
    rw [if_pos ht]
    congr 1
    refine eq_of_sq_eq (mul_left_cancel₀ hv ((h2 ht).trans hr.symm)) hn ?_
    simp only [isNegative, decide_eq_false_iff_not]
    omega

theorem p_le : 2 * p ≤ 256 ^ 32 := by decide +kernel
theorem ℓ_le : ℓ ≤ 256 ^ 32 := by decide +kernel

theorem params_ok (X : Externals) (hX : X.Ok) : Curve25519.Edwards.Ok ℓ (params X) := by
  constructor
  · exact p_ne_two
  · decide +kernel
  · exact p_le
  · exact ℓ_le
  · exact fun e => e.onCurve
  · intro x y e
    simp only [params]
    constructor
    · intro h
      split at h
      · rw [← Option.some.inj h]
      · cases h
    · intro h
      obtain ⟨rfl, rfl⟩ := Prod.mk.inj h
      exact dif_pos e.onCurve
  · exact fun x y h => ⟨⟨x, y, h⟩, rfl⟩
  · intro y h
    change (d : ZMod p) * y ^ 2 + 1 = 0 at h
    have hy : y ≠ 0 := by rintro rfl; simp at h
    refine d_nonsquare (sqrtM1 / y) ?_
    rw [div_mul_div_comm, div_eq_iff (mul_ne_zero hy hy), sqrtM1_sq]
    linear_combination -h
  · rfl
  · exact fun _ => rfl
  · exact sqrtRatio_iff
  · exact base_ne_zero
  · exact order_nsmul_base
  · exact base_spans
  · exact hX

end ElasticElgamal.Ed25519
