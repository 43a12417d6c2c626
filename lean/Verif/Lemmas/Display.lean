import Verif.Model.Proofs.RangeDecomposition
import Mathlib.Data.Nat.Digits.Lemmas

/-!
# Lemmas about the textual form of range decompositions
-/

set_option autoImplicit false

namespace ElasticElgamal

def isDigit (b : UInt8) : Bool := 48 ≤ b && b ≤ 57

theorem digit_byte {d : ℕ} (h : d < 10) :
    isDigit (UInt8.ofNat (48 + d)) = true ∧ (UInt8.ofNat (48 + d)).toNat = 48 + d := by
  have : ∀ d : Fin 10, isDigit (UInt8.ofNat (48 + d.val)) = true ∧
    (UInt8.ofNat (48 + d.val)).toNat = 48 + d.val := by decide
  exact this ⟨d, h⟩

theorem decimal_digits (n : ℕ) : ∀ b ∈ decimal n, isDigit b = true := by
  intro b hb
  unfold decimal at hb
  split at hb
  · simp only [List.mem_singleton] at hb; subst hb; decide
  · obtain ⟨d, hd, rfl⟩ := List.mem_map.mp hb
    exact (digit_byte (Nat.digits_lt_base (by norm_num) (List.mem_reverse.mp hd))).1

theorem decimal_inj {n m : ℕ} (h : decimal n = decimal m) : n = m := by
  have key : ∀ n, n ≠ 0 → (decimal n).map (fun b => b.toNat - 48) = (Nat.digits 10 n).reverse := by
    intro n hn
    rw [decimal, if_neg hn, List.map_map]
    conv_rhs => rw [← List.map_id (Nat.digits 10 n).reverse]
    apply List.map_congr_left
    intro d hd
    have := (digit_byte (Nat.digits_lt_base (by norm_num) (List.mem_reverse.mp hd))).2
    simp only [Function.comp_apply, this, id]
    omega
  have zero : ∀ m, m ≠ 0 → decimal 0 ≠ decimal m := by
    intro m hm h
    have h1 := key m hm
    rw [← h] at h1
    have h2 : Nat.digits 10 m = [0] := by
      have h3 : (decimal 0).map (fun b => b.toNat - 48) = [0] := by decide
      rw [h3] at h1
      have := congrArg List.reverse h1
      simpa using this.symm
    have := congrArg (Nat.ofDigits 10) h2
    rw [Nat.ofDigits_digits] at this
    simp at this
    exact hm this
  by_cases hn : n = 0
  · by_cases hm : m = 0
    · rw [hn, hm]
    · subst hn; exact absurd h (zero m hm)
  · by_cases hm : m = 0
    · subst hm; exact absurd h.symm (zero n hn)
    · have h1 := key n hn
      rw [h, key m hm] at h1
      exact (Nat.digits_inj_iff.mp (List.reverse_injective h1)).symm

/-- Runs of digits followed by a non-digit (or the end) can be split off. -/
theorem digits_cancel {d d' r r' : Bytes} (hd : ∀ b ∈ d, isDigit b = true)
    (hd' : ∀ b ∈ d', isDigit b = true) (hr : ∀ b ∈ r.head?, isDigit b = false)
    (hr' : ∀ b ∈ r'.head?, isDigit b = false) (h : d ++ r = d' ++ r') : d = d' ∧ r = r' := by
  have tw : ∀ {d r : Bytes}, (∀ b ∈ d, isDigit b = true) → (∀ b ∈ r.head?, isDigit b = false) →
      (d ++ r).takeWhile isDigit = d := by
    intro d r hd hr
    rw [List.takeWhile_append_of_pos hd]
    cases r with
    | nil => simp
    | cons b r => simp [hr b (by simp)]
  have h1 := tw hd hr
  rw [h, tw hd' hr'] at h1
  subst h1
  exact ⟨rfl, List.append_cancel_left h⟩

namespace RangeDecomposition

theorem displayRing_cancel {a b : RingSpec} {r r' : Bytes} (ha : 1 ≤ a.step) (hb : 1 ≤ b.step)
    (hr : ∀ b ∈ r.head?, isDigit b = false) (hr' : ∀ b ∈ r'.head?, isDigit b = false)
    (h : displayRing a ++ r = displayRing b ++ r') : a = b ∧ r = r' := by
  have fin : ∀ {a b : RingSpec}, a.step = b.step →
      decimal a.size ++ r = decimal b.size ++ r' → a = b ∧ r = r' := by
    intro a b hs h
    obtain ⟨h1, h2⟩ := digits_cancel (decimal_digits _) (decimal_digits _) hr hr' h
    obtain ⟨sa, ta⟩ := a
    obtain ⟨sb, tb⟩ := b
    exact ⟨by simp only [RingSpec.mk.injEq]; exact ⟨decimal_inj h1, hs⟩, h2⟩
  have hz : asciiBytes "0.." = [48] ++ asciiBytes ".." := by decide
  have zd : ∀ b ∈ ([48] : Bytes), isDigit b = true := by decide
  have hdot : ∀ (x : Bytes), ∀ b ∈ (asciiBytes ".." ++ x).head?, isDigit b = false := by
    intro x b hb
    have : asciiBytes ".." ++ x = 46 :: 46 :: x := by simp [asciiBytes]
    rw [this] at hb
    simp at hb; subst hb; decide
  have hstar : ∀ (x : Bytes), ∀ b ∈ (asciiBytes " * " ++ x).head?, isDigit b = false := by
    intro x b hb
    have : asciiBytes " * " ++ x = 32 :: 42 :: 32 :: x := by simp [asciiBytes]
    rw [this] at hb
    simp at hb; subst hb; decide
  have hne : ∀ x y : Bytes, asciiBytes " * " ++ x ≠ asciiBytes ".." ++ y := by
    intro x y h
    have h1 : asciiBytes " * " ++ x = 32 :: 42 :: 32 :: x := by simp [asciiBytes]
    have h2 : asciiBytes ".." ++ y = 46 :: 46 :: y := by simp [asciiBytes]
    rw [h1, h2] at h
    simp at h
  unfold displayRing at h
  by_cases h1 : a.step > 1 <;> by_cases h2 : b.step > 1
  · rw [if_pos h1, if_pos h2] at h
    simp only [List.append_assoc] at h
    obtain ⟨h3, h4⟩ := digits_cancel (decimal_digits _) (decimal_digits _) (hstar _) (hstar _) h
    have h5 := List.append_cancel_left (List.append_cancel_left h4)
    exact fin (decimal_inj h3) h5
  · rw [if_pos h1, if_neg h2] at h
    simp only [List.append_assoc, List.nil_append, hz] at h
    obtain ⟨-, h4⟩ := digits_cancel (decimal_digits _) zd (hstar _) (hdot _) h
    exact absurd h4 (hne _ _)
  · rw [if_neg h1, if_pos h2] at h
    simp only [List.append_assoc, List.nil_append, hz] at h
    obtain ⟨-, h4⟩ := digits_cancel zd (decimal_digits _) (hdot _) (hstar _) h
    exact absurd h4.symm (hne _ _)
  · rw [if_neg h1, if_neg h2] at h
    simp only [List.append_assoc, List.nil_append] at h
    exact fin (by omega) (List.append_cancel_left h)

theorem displayRing_ne_nil (a : RingSpec) : displayRing a ≠ [] := by
  unfold displayRing
  simp [asciiBytes]

/-- The text after a ring. -/
def tailText : List RingSpec → Bytes
  | [] => []
  | l => asciiBytes " + " ++ display.go l

theorem go_cons (a : RingSpec) (l : List RingSpec) :
    display.go (a :: l) = displayRing a ++ tailText l := by
  cases l with
  | nil => simp [display.go, tailText]
  | cons b l => simp [display.go, tailText]

theorem tailText_head (l : List RingSpec) : ∀ b ∈ (tailText l).head?, isDigit b = false := by
  intro b hb
  cases l with
  | nil => simp [tailText] at hb
  | cons a l =>
    have : asciiBytes " + " ++ display.go (a :: l) = 32 :: 43 :: 32 :: display.go (a :: l) := by
      simp [asciiBytes]
    rw [tailText, this] at hb
    · simp at hb; subst hb; decide
    · simp

theorem go_inj (l : List RingSpec) : ∀ {l' : List RingSpec}, (∀ s ∈ l, 1 ≤ s.step) →
    (∀ s ∈ l', 1 ≤ s.step) → display.go l = display.go l' → l = l' := by
  induction l with
  | nil =>
    intro l' _ _ h
    cases l' with
    | nil => rfl
    | cons a l' =>
      rw [go_cons] at h
      have := congrArg List.length h
      simp only [display.go, List.length_nil, List.length_append] at this
      have := List.length_pos_iff.mpr (displayRing_ne_nil a)
      omega
  | cons a l ih =>
    intro l' h1 h2 h
    cases l' with
    | nil =>
      rw [go_cons] at h
      have := congrArg List.length h
      simp only [display.go, List.length_nil, List.length_append] at this
      have := List.length_pos_iff.mpr (displayRing_ne_nil a)
      omega
    | cons b l' =>
      rw [go_cons, go_cons] at h
      obtain ⟨rfl, h3⟩ := displayRing_cancel (h1 a (by simp)) (h2 b (by simp)) (tailText_head _)
        (tailText_head _) h
      congr 1
      cases l with
      | nil =>
        cases l' with
        | nil => rfl
        | cons c l' => simp [tailText, asciiBytes] at h3
      | cons c l =>
        cases l' with
        | nil => simp [tailText, asciiBytes] at h3
        | cons d l' =>
          exact ih (fun s hs => h1 s (by simp [hs])) (fun s hs => h2 s (by simp [hs]))
            (List.append_cancel_left h3)

end RangeDecomposition

end ElasticElgamal
