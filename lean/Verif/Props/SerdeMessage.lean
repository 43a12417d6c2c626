import Verif.Model.SerdeMessage
import Verif.Props.Base64

/-!
# C82: errors for malformed secret keys show the keys
-/

set_option autoImplicit false
set_option linter.unusedSectionVars false

namespace ElasticElgamal

open Spec Toy Serde

variable {F E : Type} [Field F] [AddCommGroup E] [Module F E]

/-- Finding: if something outside of the alphabet follows a secret key in text form (padding, a line break), then the error has a
message which contains the key, and tells different keys apart. -/
theorem C82_error_shows_secret (B : Backend F E) (hB : B.Lawful) (sizeHint : ℕ → Option ℕ) (suffix : Bytes) (c : UInt8)
    (hc : c ∈ suffix) (hc' : c ∉ base64Alphabet) (x y : F) :
    deserializeSecretKey B (Base64.textFormat sizeHint) (.str (Base64.encode (B.serScalar x) ++ suffix)) =
      .error .invalidValue ∧
    ∃ m m', secretKeyMessage (Base64.textFormat sizeHint) (Base64.encode (B.serScalar x) ++ suffix) = some m ∧
      secretKeyMessage (Base64.textFormat sizeHint) (Base64.encode (B.serScalar y) ++ suffix) = some m' ∧
      Base64.encode (B.serScalar x) <:+: m ∧ (m = m' → x = y) := by
  have hd (b : Bytes) : Base64.decode (b ++ suffix) = none := by
    cases h : Base64.decode (b ++ suffix) with
    | none => rfl
    | some b' => exact absurd (((C72_decode_iff _ _).mp h).1 c (List.mem_append_right _ hc)) hc'
  refine ⟨by simp [deserializeSecretKey, deserializeBytes, Base64.textFormat, hd, bind, Except.bind],
    invalidValueMessage (Base64.encode (B.serScalar x) ++ suffix) "base64url-encoded data",
    invalidValueMessage (Base64.encode (B.serScalar y) ++ suffix) "base64url-encoded data",
    by simp only [secretKeyMessage, base64Message, Base64.textFormat, hd],
    by simp only [secretKeyMessage, base64Message, Base64.textFormat, hd], ?_, ?_⟩
  · exact ⟨asciiBytes "invalid value: string \"", suffix ++ asciiBytes "\", expected " ++ asciiBytes "base64url-encoded data",
      by simp only [invalidValueMessage, List.append_assoc]⟩
  · intro h
    simp only [invalidValueMessage, List.append_assoc, List.append_cancel_left_eq] at h
    rw [← List.append_assoc, ← List.append_assoc (Base64.encode (B.serScalar y)), List.append_cancel_right_eq,
      List.append_cancel_right_eq] at h
    have h2 := congrArg Base64.decode h
    rw [Base64.decode_encode, Base64.decode_encode, Option.some.injEq] at h2
    exact hB.serScalar_inj h2

/-- Padding. -/
example : deserializeSecretKey B101 (Base64.textFormat some) (.str (Base64.encode (B101.serScalar 5) ++ [61])) =
    .error .invalidValue :=
  (C82_error_shows_secret B101 B101_lawful some [61] 61 (by simp) (by decide +kernel) 5 6).1

example : secretKeyMessage (Base64.textFormat some) (asciiBytes "Kg==") =
    some (asciiBytes "invalid value: string \"Kg==\", expected base64url-encoded data") := by decide +kernel

end ElasticElgamal
