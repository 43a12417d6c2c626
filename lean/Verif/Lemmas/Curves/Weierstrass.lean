import Verif.Model.Group.Generic
import Mathlib.GroupTheory.OrderOfElement
import Mathlib.GroupTheory.SpecificGroups.Cyclic
import Mathlib.GroupTheory.Perm.Cycle.Type
import Mathlib.Tactic.LinearCombination
import Mathlib.Tactic.FieldSimp

/-!
# Points of a short Weierstrass curve

Multiples of a point by slopes that are found elsewhere, and the order of a curve from the order of one point.
-/

set_option autoImplicit false
set_option linter.unusedSectionVars false

namespace ElasticElgamal.Curves

open WeierstrassCurve.Affine

section
variable {p : ℕ} [Fact p.Prime] {a b : ZMod p}

/-- Sum of points with different abscissas, by the slope of the line. -/
theorem add_of_slope {x₁ y₁ x₂ y₂ x₃ y₃ l : ZMod p} {h₁ : (Generic.curve a b).Nonsingular x₁ y₁}
    {h₂ : (Generic.curve a b).Nonsingular x₂ y₂} (hx : x₁ ≠ x₂) (hl : l * (x₁ - x₂) = y₁ - y₂)
    (hx₃ : x₃ = l * l - x₁ - x₂) (hy₃ : y₃ = l * (x₁ - x₃) - y₁) :
    ∃ h, (Point.some x₁ y₁ h₁ + Point.some x₂ y₂ h₂ : Generic.Point a b) = Point.some x₃ y₃ h := by
  have hs : (Generic.curve a b).slope x₁ x₂ y₁ y₂ = l := by
    rw [slope_of_X_ne hx, ← hl, mul_div_assoc, div_self (sub_ne_zero.mpr hx), mul_one]
  have h := Point.add_of_X_ne (h₁ := h₁) (h₂ := h₂) hx
  have e1 : (Generic.curve a b).addX x₁ x₂ ((Generic.curve a b).slope x₁ x₂ y₁ y₂) = x₃ := by
    rw [hs, hx₃]; simp only [addX]; ring
  have e2 : (Generic.curve a b).addY x₁ x₂ y₁ ((Generic.curve a b).slope x₁ x₂ y₁ y₂) = y₃ := by
    rw [hs, hy₃, hx₃]; simp only [addX, addY, negY, negAddY]; ring
  revert h
  generalize_proofs g
  revert g
  rw [e1, e2]
  exact fun g h => ⟨g, h⟩

/-- Double of a point, by the slope of the tangent. -/
theorem double_of_slope {x y x₃ y₃ l : ZMod p} {h₁ : (Generic.curve a b).Nonsingular x y}
    (hy : 2 * y ≠ 0) (hl : l * (2 * y) = 3 * x * x + a)
    (hx₃ : x₃ = l * l - x - x) (hy₃ : y₃ = l * (x - x₃) - y) :
    ∃ h, (Point.some x y h₁ + Point.some x y h₁ : Generic.Point a b) = Point.some x₃ y₃ h := by
  have hn : y ≠ (Generic.curve a b).negY x y := by
    intro h
    apply hy
    have h' : y = -y - 0 * x - 0 := h
    linear_combination h'
  have hs : (Generic.curve a b).slope x x y y = l := by
    rw [slope_of_Y_ne rfl hn]
    have e : y - (Generic.curve a b).negY x y = 2 * y := by simp only [negY]; ring
    rw [e, div_eq_iff hy, hl]
    ring
  have h := Point.add_self_of_Y_ne (h₁ := h₁) hn
  have e1 : (Generic.curve a b).addX x x ((Generic.curve a b).slope x x y y) = x₃ := by
    rw [hs, hx₃]; simp only [addX]; ring
  have e2 : (Generic.curve a b).addY x x y ((Generic.curve a b).slope x x y y) = y₃ := by
    rw [hs, hy₃, hx₃]; simp only [addX, addY, negY, negAddY]; ring
  revert h
  generalize_proofs g
  revert g
  rw [e1, e2]
  exact fun g h => ⟨g, h⟩

end

/-- Abscissa on the line with slope `l` through points with abscissas `x₁` and `x₂`. -/
def lineX (p l x₁ x₂ : ℕ) : ℕ := (l * l + (p - x₁) + (p - x₂)) % p

/-- Ordinate (up to the sign) on the line with slope `l` through `(x₁, y₁)`. -/
def lineY (p l x₁ y₁ x₃ : ℕ) : ℕ := (l * (x₁ + (p - x₃)) + (p - y₁)) % p

/-- Double-and-add with given slopes. The items are the slope for the doubling and, if the bit is set, the slope for
the addition of `(gx, gy)`. Succeeds if the final point is `-(gx, gy)`, and then returns the multiple. -/
def slopeChain (p a gx gy : ℕ) : List (ℕ × Option ℕ) → ℕ → ℕ → ℕ → Option ℕ
  | [], x, y, k => if x = gx ∧ (y + gy) % p = 0 then some k else none
  | (l, none) :: rest, x, y, k =>
    if 2 * y % p ≠ 0 ∧ l * (2 * y) % p = (3 * x * x + a) % p then
      slopeChain p a gx gy rest (lineX p l x x) (lineY p l x y (lineX p l x x)) (2 * k)
    else none
  | (l, some l') :: rest, x, y, k =>
    if 2 * y % p ≠ 0 ∧ l * (2 * y) % p = (3 * x * x + a) % p then
      (fun x' y' =>
        if x' ≠ gx ∧ (l' * (x' + (p - gx)) + gy) % p = y' then
          slopeChain p a gx gy rest (lineX p l' x' gx) (lineY p l' x' y' (lineX p l' x' gx)) (2 * k + 1)
        else none) (lineX p l x x) (lineY p l x y (lineX p l x x))
    else none

section
variable {p : ℕ} [Fact p.Prime]

theorem pos_of_prime : 0 < p := (Fact.out : p.Prime).pos

theorem cast_lineX {l x₁ x₂ : ℕ} (h₁ : x₁ ≤ p) (h₂ : x₂ ≤ p) :
    ((lineX p l x₁ x₂ : ℕ) : ZMod p) = (l : ZMod p) * l - x₁ - x₂ := by
  simp only [lineX, ZMod.natCast_mod, Nat.cast_add, Nat.cast_mul, Nat.cast_sub h₁, Nat.cast_sub h₂,
    CharP.cast_eq_zero]
  ring

theorem cast_lineY {l x₁ y₁ x₃ : ℕ} (h₁ : y₁ ≤ p) (h₃ : x₃ ≤ p) :
    ((lineY p l x₁ y₁ x₃ : ℕ) : ZMod p) = (l : ZMod p) * (x₁ - x₃) - y₁ := by
  simp only [lineY, ZMod.natCast_mod, Nat.cast_add, Nat.cast_mul, Nat.cast_sub h₁, Nat.cast_sub h₃,
    CharP.cast_eq_zero]
  ring

theorem lineX_lt {l x₁ x₂ : ℕ} : lineX p l x₁ x₂ < p := Nat.mod_lt _ pos_of_prime
theorem lineY_lt {l x₁ y₁ x₃ : ℕ} : lineY p l x₁ y₁ x₃ < p := Nat.mod_lt _ pos_of_prime

theorem cast_eq_of_mod {u v : ℕ} (h : u % p = v % p) : (u : ZMod p) = v := by
  rw [← ZMod.natCast_mod u, h, ZMod.natCast_mod]

theorem cast_ne_zero_of_mod {u : ℕ} (h : u % p ≠ 0) : (u : ZMod p) ≠ 0 := by
  intro h0
  exact h (Nat.mod_eq_zero_of_dvd ((ZMod.natCast_eq_zero_iff u p).mp h0))

theorem cast_ne_of_lt {u v : ℕ} (hu : u < p) (hv : v < p) (h : u ≠ v) : (u : ZMod p) ≠ v := by
  intro h0
  apply h
  have := (ZMod.natCast_eq_natCast_iff u v p).mp h0
  rwa [Nat.ModEq, Nat.mod_eq_of_lt hu, Nat.mod_eq_of_lt hv] at this

/-- What a successful chain shows. -/
theorem slopeChain_sound {a gx gy : ℕ} {b : ZMod p} (hgx : gx < p) (hgy : gy < p)
    (hg : (Generic.curve (a : ZMod p) b).Nonsingular (gx : ZMod p) (gy : ZMod p)) (n : ℕ) :
    ∀ (steps : List (ℕ × Option ℕ)) (x y k : ℕ), x < p → y < p →
      (∃ h, (k • Point.some _ _ hg : Generic.Point (a : ZMod p) b) = Point.some (x : ZMod p) (y : ZMod p) h) →
      slopeChain p a gx gy steps x y k = some n →
      ((n + 1) • Point.some _ _ hg : Generic.Point (a : ZMod p) b) = 0
  | [], x, y, k, hx, hy, ⟨h, hk⟩, hs => by
    simp only [slopeChain] at hs
    split at hs
    · next hc =>
      cases hs
      rw [succ_nsmul, hk]
      refine Point.add_of_Y_eq (by rw [hc.1]) ?_
      have h0 : ((y + gy : ℕ) : ZMod p) = 0 := (ZMod.natCast_eq_zero_iff _ _).mpr (Nat.dvd_of_mod_eq_zero hc.2)
      push_cast at h0
      simp only [negY]
      linear_combination h0
    · cases hs
  | (l, none) :: rest, x, y, k, hx, hy, ⟨h, hk⟩, hs => by
    simp only [slopeChain] at hs
    split at hs
    · next hc =>
      refine slopeChain_sound hgx hgy hg n rest _ _ _ lineX_lt lineY_lt ?_ hs
      rw [mul_nsmul', hk, two_nsmul]
      refine double_of_slope (l := (l : ZMod p)) ?_ ?_ (cast_lineX hx.le hx.le) (cast_lineY hy.le lineX_lt.le)
      · simpa using cast_ne_zero_of_mod hc.1
      · simpa using cast_eq_of_mod hc.2
    · cases hs
  | (l, some l') :: rest, x, y, k, hx, hy, ⟨h, hk⟩, hs => by
    simp only [slopeChain] at hs
    split at hs
    · next hc =>
      split at hs
      · next hc' =>
        refine slopeChain_sound hgx hgy hg n rest _ _ _ lineX_lt lineY_lt ?_ hs
        obtain ⟨h', hd⟩ := double_of_slope (l := (l : ZMod p)) (h₁ := h)
          (by simpa using cast_ne_zero_of_mod hc.1)
          (by simpa using cast_eq_of_mod hc.2)
          (cast_lineX hx.le hx.le) (cast_lineY (x₁ := x) hy.le lineX_lt.le)
        rw [succ_nsmul, mul_nsmul', hk, two_nsmul, hd]
        refine add_of_slope (l := (l' : ZMod p)) (cast_ne_of_lt lineX_lt hgx hc'.1) ?_
          (cast_lineX lineX_lt.le hgx.le) (cast_lineY lineY_lt.le lineX_lt.le)
        have h2 := congrArg (fun m : ℕ => (m : ZMod p)) hc'.2
        simp only [ZMod.natCast_mod, Nat.cast_add, Nat.cast_mul, Nat.cast_sub hgx.le, CharP.cast_eq_zero] at h2
        linear_combination h2
      · cases hs
    · cases hs

/-- A point is determined by its abscissa and the parity of the ordinate, so there are at most `2p + 1` points. -/
theorem card_point_le (hp : p ≠ 2) (a b : ZMod p) :
    Finite (Generic.Point a b) ∧ Nat.card (Generic.Point a b) ≤ 2 * p + 1 := by
  have : NeZero p := ⟨pos_of_prime.ne'⟩
  let f : Generic.Point a b → Option (ZMod p × Bool)
    | .zero => none
    | .some x y _ => some (x, decide (y.val % 2 = 1))
  have hf : Function.Injective f := by
    rintro (_ | ⟨x, y, h⟩) (_ | ⟨x', y', h'⟩) he
    · rfl
    · cases he
    · cases he
    · simp only [f, Option.some.injEq, Prod.mk.injEq] at he
      obtain ⟨rfl, hpar⟩ := he
      have e1 := (equation_iff _ _).mp h.1
      have e2 := (equation_iff _ _).mp h'.1
      have hsq : (y - y') * (y + y') = 0 := by
        simp only [zero_mul, add_zero] at e1 e2
        linear_combination e1 - e2
      have hyy : y = y' := by
        rcases mul_eq_zero.mp hsq with h0 | h0
        · exact sub_eq_zero.mp h0
        · have hn : y = -y' := eq_neg_of_add_eq_zero_left h0
          by_cases hz : y' = 0
          · rw [hn, hz, neg_zero]
          · exfalso
            have hv := ZMod.neg_val y'
            rw [if_neg hz, ← hn] at hv
            have hlt := ZMod.val_lt y'
            have hodd := (Fact.out : p.Prime).eq_two_or_odd
            have h1 : y'.val ≠ 0 := by rwa [Ne, ZMod.val_eq_zero]
            have h2 : decide (y.val % 2 = 1) = decide (y'.val % 2 = 1) := hpar
            rw [decide_eq_decide] at h2
            omega
      subst hyy
      rfl
  have hfin := Finite.of_injective f hf
  refine ⟨hfin, ?_⟩
  have := Nat.card_le_card_of_injective f hf
  rw [Nat.card_eq_fintype_card (α := Option (ZMod p × Bool)), Fintype.card_option, Fintype.card_prod,
    ZMod.card, Fintype.card_bool] at this
  omega

/-- A curve with a point of prime order `n > (2p + 1) / 3` and without points of order 2 has `n` points. -/
theorem card_point_eq {n : ℕ} (hp : p ≠ 2) (hn : n.Prime) (hpn : 2 * p + 1 < 3 * n) {a b : ZMod p}
    {g : Generic.Point a b} (hg : g ≠ 0) (hng : n • g = 0) (hroot : ∀ x : ZMod p, x * x * x + a * x + b ≠ 0) :
    Nat.card (Generic.Point a b) = n := by
  obtain ⟨hfin, hcard⟩ := card_point_le hp a b
  have hord : addOrderOf g = n := by
    have : Fact n.Prime := ⟨hn⟩
    exact addOrderOf_eq_prime hng hg
  obtain ⟨m, hm⟩ := hord ▸ addOrderOf_dvd_natCard g
  have hpos : 0 < Nat.card (Generic.Point a b) := Nat.card_pos
  have hm3 : m < 3 := by
    by_contra h3
    have : n * 3 ≤ n * m := Nat.mul_le_mul_left n (by omega)
    omega
  interval_cases m
  · omega
  · omega
  · exfalso
    have : Fact (Nat.Prime 2) := ⟨Nat.prime_two⟩
    obtain ⟨t, ht⟩ := exists_prime_addOrderOf_dvd_card' (G := Generic.Point a b) 2 ⟨n, by omega⟩
    have ht2 : t + t = 0 := by rw [← two_nsmul, ← ht]; exact addOrderOf_nsmul_eq_zero t
    rcases t with _ | ⟨x, y, h⟩
    · have h1 : addOrderOf (0 : Generic.Point a b) = 2 := ht
      rw [addOrderOf_zero] at h1
      omega
    · by_cases hy : y = (Generic.curve a b).negY x y
      · have h' : y = -y - 0 * x - 0 := hy
        have h2 : (2 : ZMod p) ≠ 0 := by
          intro h0
          have h0' : ((2 : ℕ) : ZMod p) = 0 := by exact_mod_cast h0
          have := (ZMod.natCast_eq_zero_iff 2 p).mp h0'
          exact hp ((Nat.prime_dvd_prime_iff_eq Fact.out Nat.prime_two).mp this)
        have hy0 : y = 0 := by
          have : (2 : ZMod p) * y = 0 := by linear_combination h'
          exact (mul_eq_zero.mp this).resolve_left h2
        have e := (equation_iff _ _).mp h.1
        apply hroot x
        simp only [hy0] at e
        linear_combination -e
      · rw [Point.add_self_of_Y_ne hy] at ht2
        exact absurd ht2 (Point.some_ne_zero _)

end

end ElasticElgamal.Curves
