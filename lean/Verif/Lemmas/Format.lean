import Verif.Model.Format
import Verif.Lemmas.Display

/-!
# Lemmas about text output
-/

set_option autoImplicit false
set_option linter.unusedSectionVars false

namespace ElasticElgamal

/-- A run of bytes with a property, followed by a byte without it, can be split off. -/
theorem run_cancel (P : UInt8 → Bool) {d d' r r' : Bytes} (hd : ∀ b ∈ d, P b = true) (hd' : ∀ b ∈ d', P b = true)
    (hr : ∀ b ∈ r.head?, P b = false) (hr' : ∀ b ∈ r'.head?, P b = false) (h : d ++ r = d' ++ r') : d = d' ∧ r = r' := by
  have tw : ∀ {d r : Bytes}, (∀ b ∈ d, P b = true) → (∀ b ∈ r.head?, P b = false) → (d ++ r).takeWhile P = d := by
    intro d r hd hr
    rw [List.takeWhile_append_of_pos hd]
    cases r with
    | nil => simp
    | cons b r => simp [hr b (by simp)]
  have h1 := tw hd hr
  rw [h, tw hd' hr'] at h1
  subst h1
  exact ⟨rfl, List.append_cancel_left h⟩

/-- The same at the end of the text. -/
theorem run_cancel_end (P : UInt8 → Bool) {p p' d d' : Bytes} {c c' : UInt8} (hd : ∀ b ∈ d, P b = true)
    (hd' : ∀ b ∈ d', P b = true) (hc : P c = false) (hc' : P c' = false) (h : p ++ [c] ++ d = p' ++ [c'] ++ d') :
    p = p' ∧ d = d' := by
  have h2 := congrArg List.reverse h
  simp only [List.reverse_append, List.reverse_cons, List.reverse_nil, List.nil_append] at h2
  have := run_cancel P (d := d.reverse) (d' := d'.reverse) (r := [c] ++ p.reverse) (r' := [c'] ++ p'.reverse)
    (by simpa using hd) (by simpa using hd') (by simpa using hc) (by simpa using hc') (by simpa using h2)
  refine ⟨?_, List.reverse_injective this.1⟩
  have h3 := this.2
  simp only [List.cons_append, List.nil_append, List.cons.injEq, List.reverse_inj] at h3
  exact h3.2

theorem utf8_inj {s t : String} (h : utf8 s = utf8 t) : s = t := by
  unfold utf8 at h
  apply String.toByteArray_inj.mp
  have := Array.toList_inj.mp h
  cases hs : s.toByteArray; cases ht : t.toByteArray
  simp_all

/-- Numbers separated by commas determine the numbers. -/
theorem commas_decimal_inj {l l' : List ℕ} (h : commas (l.map decimal) = commas (l'.map decimal)) : l = l' := by
  have hne : ∀ n, decimal n ≠ [] := by
    intro n
    unfold decimal
    split
    · simp
    · rename_i hn
      simpa [Nat.digits_eq_nil_iff_eq_zero] using hn
  have hc : ∀ (x : Bytes), asciiBytes ", " ++ x = 44 :: 32 :: x := by intro x; simp [asciiBytes]
  induction l generalizing l' with
  | nil =>
    cases l' with
    | nil => rfl
    | cons n' l' =>
      exfalso
      cases l' with
      | nil => exact hne n' (by simpa [commas] using h.symm)
      | cons m l' => simp [commas, hne] at h
  | cons n l ih =>
    cases l' with
    | nil =>
      exfalso
      cases l with
      | nil => exact hne n (by simpa [commas] using h)
      | cons m l => simp [commas, hne] at h
    | cons n' l' =>
      have key : ∀ (a : ℕ) (l : List ℕ), ∃ r, commas ((a :: l).map decimal) = decimal a ++ r ∧
          (∀ b ∈ r.head?, isDigit b = false) ∧ (r = match l with | [] => [] | _ => 44 :: 32 :: commas (l.map decimal)) := by
        intro a l
        cases l with
        | nil => exact ⟨[], by simp [commas]⟩
        | cons m l =>
          refine ⟨44 :: 32 :: commas ((m :: l).map decimal), ?_, ?_, rfl⟩
          · simp only [List.map_cons, commas, List.append_assoc, hc]
          · intro b hb; simp at hb; subst hb; decide
      obtain ⟨r, e1, hr, er⟩ := key n l
      obtain ⟨r', e2, hr', er'⟩ := key n' l'
      rw [e1, e2] at h
      obtain ⟨h1, h2⟩ := digits_cancel (decimal_digits _) (decimal_digits _) hr hr' h
      rw [decimal_inj h1]
      rw [er, er'] at h2
      cases l with
      | nil => cases l' with
        | nil => rfl
        | cons m' l' => simp at h2
      | cons m l => cases l' with
        | nil => simp at h2
        | cons m' l' =>
          simp only [List.cons.injEq, true_and] at h2
          rw [ih h2]

/-- Digits, commas and spaces. -/
def isListByte (b : UInt8) : Bool := isDigit b || b == 44 || b == 32

theorem commas_decimal_bytes (l : List ℕ) : ∀ b ∈ commas (l.map decimal), isListByte b = true := by
  have hd : ∀ n, ∀ b ∈ decimal n, isListByte b = true := fun n b hb => by
    simp [isListByte, decimal_digits n b hb]
  have hc : asciiBytes ", " = [44, 32] := by simp [asciiBytes]
  induction l with
  | nil => simp [commas]
  | cons n l ih =>
    cases l with
    | nil => simpa [commas] using hd n
    | cons m l =>
      intro b hb
      simp only [List.map_cons, commas, List.mem_append, hc] at hb ih
      rcases hb with (hb | hb) | hb
      · exact hd n b hb
      · simp at hb; rcases hb with rfl | rfl <;> decide
      · exact ih b hb

theorem renderItems_map (l : List DebugValue) : DebugValue.renderItems l = l.map DebugValue.render := by
  induction l with
  | nil => simp [DebugValue.renderItems]
  | cons v l ih => simp [DebugValue.renderItems, ih]

theorem render_bytes (b : Bytes) :
    (DebugValue.bytes b).render = asciiBytes "[" ++ commas ((b.map (·.toNat)).map decimal) ++ asciiBytes "]" := by
  rw [DebugValue.bytes, DebugValue.render, renderItems_map, List.map_map, List.map_map]
  rfl

theorem bytes_toNat_inj {b b' : Bytes} (h : b.map (·.toNat) = b'.map (·.toNat)) : b = b' :=
  List.map_injective_iff.mpr (fun _ _ h => UInt8.toNat_inj.mp h) h

theorem parens_inj {a b a' b' : ℕ} {p p' : Bytes}
    (h : p ++ asciiBytes " (" ++ decimal a ++ asciiBytes ") differs from expected (" ++ decimal b ++ asciiBytes ")" =
      p' ++ asciiBytes " (" ++ decimal a' ++ asciiBytes ") differs from expected (" ++ decimal b' ++ asciiBytes ")") :
    p = p' ∧ a = a' ∧ b = b' := by
  have e1 : asciiBytes ") differs from expected (" = asciiBytes ") differs from expected " ++ [40] := by
    simp [asciiBytes]
  have e2 : asciiBytes " (" = [32] ++ [40] := by simp [asciiBytes]
  have h1 := List.append_cancel_right h
  rw [e1] at h1
  simp only [← List.append_assoc] at h1
  obtain ⟨h2, h3⟩ := run_cancel_end isDigit (decimal_digits _) (decimal_digits _) (by decide) (by decide) h1
  have h4 := List.append_cancel_right h2
  rw [e2] at h4
  simp only [← List.append_assoc] at h4
  obtain ⟨h5, h6⟩ := run_cancel_end isDigit (decimal_digits _) (decimal_digits _) (by decide) (by decide) h4
  exact ⟨List.append_cancel_right h5, decimal_inj h6, decimal_inj h3⟩

theorem VerificationError.display_inj {e e' : VerificationError} (h : e.display = e'.display) : e = e' := by
  cases e with
  | ChallengeMismatch =>
    cases e' with
    | ChallengeMismatch => rfl
    | LenMismatch c x a => simp [VerificationError.display, asciiBytes] at h
  | LenMismatch c x a =>
    cases e' with
    | ChallengeMismatch => simp [VerificationError.display, asciiBytes] at h
    | LenMismatch c' x' a' =>
      obtain ⟨h1, h2, h3⟩ := parens_inj h
      rw [utf8_inj (List.append_cancel_left h1), h2, h3]

theorem SharingError.display_inj {e e' : SharingError} (h : e.display = e'.display) : e = e' := by
  cases e <;> cases e' <;> first
    | rfl
    | (exfalso; simp [SharingError.display, asciiBytes] at h; done)
    | rw [VerificationError.display_inj (List.append_cancel_left h)]

theorem DkgError.display_inj {e e' : DkgError} (h : e.display = e'.display) : e = e' := by
  cases e <;> cases e' <;> first
    | rfl
    | (exfalso; simp [DkgError.display, asciiBytes] at h; done)
    | rw [SharingError.display_inj (List.append_cancel_left h)]

theorem options_inj {a b a' b' : ℕ}
    (h : asciiBytes "number of options in the ballot (" ++ decimal a ++ asciiBytes ") differs from expected (" ++
        decimal b ++ asciiBytes ")" =
      asciiBytes "number of options in the ballot (" ++ decimal a' ++ asciiBytes ") differs from expected (" ++
        decimal b' ++ asciiBytes ")") : a = a' ∧ b = b' := by
  have e : asciiBytes "number of options in the ballot (" = asciiBytes "number of options in the ballot" ++
    asciiBytes " (" := by simp [asciiBytes]
  rw [e] at h
  exact (parens_inj h).2

theorem ChoiceVerificationError.display_inj {e e' : ChoiceVerificationError} (h : e.display = e'.display) : e = e' := by
  cases e <;> cases e' <;> first
    | (exfalso; simp [ChoiceVerificationError.display, asciiBytes] at h; done)
    | rw [VerificationError.display_inj (List.append_cancel_left h)]
    | rw [(options_inj h).1, (options_inj h).2]

theorem QuadraticVotingError.display_inj {e e' : QuadraticVotingError} (h : e.display = e'.display) : e = e' := by
  have hc : ∀ (x : Bytes), ∀ b ∈ (asciiBytes ": " ++ x).head?, isDigit b = false := by
    intro x b hb
    have : asciiBytes ": " ++ x = 58 :: 32 :: x := by simp [asciiBytes]
    rw [this] at hb
    simp at hb; subst hb; decide
  cases e <;> cases e' <;> first
    | (exfalso; simp [QuadraticVotingError.display, asciiBytes] at h; done)
    | rw [VerificationError.display_inj (List.append_cancel_left h)]
    | rw [(options_inj h).1, (options_inj h).2]
    | skip
  rename_i i err i' err'
  simp only [QuadraticVotingError.display, List.append_assoc] at h
  obtain ⟨h1, h2⟩ := digits_cancel (decimal_digits _) (decimal_digits _) (hc _) (hc _) (List.append_cancel_left h)
  have h3 := decimal_inj h1
  rw [VerificationError.display_inj (List.append_cancel_left h2), show i = i' by omega]

theorem PublicKeyConversionError.display_inj {e e' : PublicKeyConversionError} (h : e.display = e'.display) : e = e' := by
  cases e <;> cases e' <;> first
    | rfl
    | (exfalso; simp [PublicKeyConversionError.display, asciiBytes] at h)

end ElasticElgamal
