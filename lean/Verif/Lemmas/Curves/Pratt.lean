import Mathlib.NumberTheory.LucasPrimality
import Mathlib.Data.Nat.Prime.Basic
import Mathlib.Data.List.Prime

/-!
# Primality certificates

Lucas's test with exponentiation that the kernel evaluates.
-/

set_option autoImplicit false

namespace ElasticElgamal.Curves

/-- `a ^ e` modulo `m`, for exponents of at most `k` bits. -/
def powMod (m a : ℕ) : ℕ → ℕ → ℕ
  | 0, _ => 1 % m
  | k + 1, e => (fun h => if e % 2 = 1 then h * h % m * a % m else h * h % m) (powMod m a k (e / 2))

theorem powMod_eq (m a : ℕ) : ∀ k e, e < 2 ^ k → powMod m a k e = a ^ e % m
  | 0, e, h => by
    have : e = 0 := by simpa using h
    simp [powMod, this]
  | k + 1, e, h => by
    have ih := powMod_eq m a k (e / 2) (by rw [pow_succ] at h; omega)
    simp only [powMod, ih]
    split
    · next h1 =>
      have : e = e / 2 + e / 2 + 1 := by omega
      conv_rhs => rw [this, pow_succ, pow_add]
      simp [Nat.mul_mod]
    · next h1 =>
      have : e = e / 2 + e / 2 := by omega
      conv_rhs => rw [this, pow_add]
      simp [Nat.mul_mod]

theorem powMod_cast (m a k e : ℕ) (h : e < 2 ^ k) : ((powMod m a k e : ℕ) : ZMod m) = (a : ZMod m) ^ e := by
  rw [powMod_eq m a k e h, ZMod.natCast_mod, Nat.cast_pow]

/-- The checks of Lucas's test: `fs` are the prime factors of `p - 1`. -/
def lucasCheck (p a k : ℕ) (fs : List ℕ) : Bool :=
  decide (1 < p) && decide (p < 2 ^ k) && decide (fs.prod = p - 1) && decide (powMod p a k (p - 1) = 1) &&
    fs.all fun q => decide (powMod p a k ((p - 1) / q) ≠ 1)

theorem prime_of_lucasCheck {p : ℕ} (a k : ℕ) (fs : List ℕ) (hf : ∀ q ∈ fs, q.Prime)
    (h : lucasCheck p a k fs = true) : p.Prime := by
  simp only [lucasCheck, Bool.and_eq_true, decide_eq_true_eq, List.all_eq_true] at h
  obtain ⟨⟨⟨⟨h1, hk⟩, hp⟩, ha⟩, hq⟩ := h
  refine lucas_primality p (a : ZMod p) ?_ fun q hqp hqd => ?_
  · rw [← powMod_cast p a k (p - 1) (by omega), ha, Nat.cast_one]
  · rw [← hp] at hqd
    obtain ⟨r, hr, hqr⟩ := (Nat.Prime.prime hqp).dvd_prod_iff.mp hqd
    have : q = r := (Nat.prime_dvd_prime_iff_eq hqp (hf r hr)).mp hqr
    subst this
    have hlt : (p - 1) / q < 2 ^ k := lt_of_le_of_lt (Nat.div_le_self _ _) (by omega)
    rw [← powMod_cast p a k _ hlt]
    intro h
    have hq' := hq q hr
    apply hq'
    have h2 := powMod_eq p a k _ hlt
    have h3 : powMod p a k ((p - 1) / q) < p := by rw [h2]; exact Nat.mod_lt _ (by omega)
    have h4 := congrArg ZMod.val (h.trans (Nat.cast_one (R := ZMod p)).symm)
    rw [ZMod.val_cast_of_lt h3, ZMod.val_cast_of_lt h1] at h4
    exact h4

end ElasticElgamal.Curves
