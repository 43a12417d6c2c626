import Mathlib.Algebra.Group.Basic
import Mathlib.Algebra.Group.TypeTags.Basic

/-!
# Double-and-add
-/

set_option autoImplicit false

namespace ElasticElgamal.Curves

/-- A multiple of `q` by doubling and adding, from the most significant bit. -/
def doubleAdd {R : Type} (zero : R) (add : R → R → R) (q : R) : ℕ → R
  | 0 => zero
  | k + 1 =>
    let half := doubleAdd zero add q ((k + 1) / 2)
    let double := add half half
    if (k + 1) % 2 = 1 then add double q else double
decreasing_by omega

/-- If the operations on representations represent those of a group then `doubleAdd` represents multiples. -/
theorem doubleAdd_rep {R G : Type} [AddMonoid G] {zero : R} {add : R → R → R} {Rep : R → G → Prop}
    (hzero : Rep zero 0) (hadd : ∀ q r P Q, Rep q P → Rep r Q → Rep (add q r) (P + Q)) {q : R} {P : G}
    (hq : Rep q P) (k : ℕ) : Rep (doubleAdd zero add q k) (k • P) := by
  induction k using Nat.strongRecOn with
  | ind k ih =>
    match k with
    | 0 =>
      rw [doubleAdd, zero_nsmul]
      exact hzero
    | k + 1 =>
      have ih := ih ((k + 1) / 2) (by omega)
      have hd := hadd _ _ _ _ ih ih
      rw [← add_nsmul] at hd
      rw [doubleAdd]
      split
      · next h =>
        have := hadd _ _ _ _ hd hq
        rwa [← succ_nsmul, show (k + 1) / 2 + (k + 1) / 2 + 1 = k + 1 by omega] at this
      · next h =>
        rwa [show (k + 1) / 2 + (k + 1) / 2 = k + 1 by omega] at hd

/-- A power by squaring and multiplying. -/
def power {M : Type} [Monoid M] (x : M) (k : ℕ) : M := doubleAdd 1 (· * ·) x k

theorem power_eq {M : Type} [Monoid M] (x : M) (k : ℕ) : power x k = x ^ k :=
  doubleAdd_rep (G := Additive M) (Rep := fun q P => q = P.toMul) rfl
    (fun _ _ _ _ hq hr => by rw [hq, hr]; rfl) (P := Additive.ofMul x) rfl k

end ElasticElgamal.Curves
