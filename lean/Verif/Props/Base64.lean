import Verif.Props.Wire
import Verif.Model.Base64
import Verif.Spec.Base64

/-!
# Text representation of bytes (C72)

Base64url text is decoded exactly if it is the text of RFC 4648 for the result; hence text formats satisfy
the contract `Format.Lawful` and there is a single text for scalars and canonical elements.
-/

set_option autoImplicit false
set_option linter.unusedSectionVars false

namespace ElasticElgamal

open Spec Toy Serde

namespace Base64

/-! ## Helper lemmas -/

theorem encodeValues_lt (b : Bytes) : ∀ v ∈ encodeValues b, v < 64 := by
  fun_induction encodeValues b with
  | case1 => simp
  | case2 a =>
    have := a.toNat_lt
    simp only [List.mem_cons, List.not_mem_nil, or_false, forall_eq_or_imp, forall_eq]
    omega
  | case3 a b =>
    have := a.toNat_lt
    have := b.toNat_lt
    simp only [List.mem_cons, List.not_mem_nil, or_false, forall_eq_or_imp, forall_eq]
    omega
  | case4 a b c rest ih =>
    have := a.toNat_lt
    have := b.toNat_lt
    have := c.toNat_lt
    simp only [List.mem_cons, forall_eq_or_imp]
    exact ⟨by omega, by omega, by omega, by omega, ih⟩

theorem decodeValues_encodeValues (b : Bytes) : decodeValues (encodeValues b) = some b := by
  fun_induction encodeValues b with
  | case1 => rfl
  | case2 a =>
    have := a.toNat_lt
    rw [decodeValues, if_pos (by omega)]
    rw [show a.toNat / 4 * 4 + a.toNat % 4 * 16 / 16 = a.toNat by omega, UInt8.ofNat_toNat]
  | case3 a b =>
    have := a.toNat_lt
    have := b.toNat_lt
    rw [decodeValues, if_pos (by omega)]
    rw [show a.toNat / 4 * 4 + (a.toNat % 4 * 16 + b.toNat / 16) / 16 = a.toNat by omega,
      show (a.toNat % 4 * 16 + b.toNat / 16) % 16 * 16 + b.toNat % 16 * 4 / 4 = b.toNat by omega,
      UInt8.ofNat_toNat, UInt8.ofNat_toNat]
  | case4 a b c rest ih =>
    have := a.toNat_lt
    have := b.toNat_lt
    have := c.toNat_lt
    rw [decodeValues, ih]
    rw [show a.toNat / 4 * 4 + (a.toNat % 4 * 16 + b.toNat / 16) / 16 = a.toNat by omega,
      show (a.toNat % 4 * 16 + b.toNat / 16) % 16 * 16 + (b.toNat % 16 * 4 + c.toNat / 64) / 4 = b.toNat by omega,
      show (b.toNat % 16 * 4 + c.toNat / 64) % 4 * 64 + c.toNat % 64 = c.toNat by omega,
      UInt8.ofNat_toNat, UInt8.ofNat_toNat, UInt8.ofNat_toNat]
    rfl

theorem toNat_ofNat_lt {n : ℕ} (h : n < 256) : (UInt8.ofNat n).toNat = n := by
  rw [UInt8.toNat_ofNat']; omega

theorem encodeValues_decodeValues (l : List ℕ) (hl : ∀ v ∈ l, v < 64) (b : Bytes) (h : decodeValues l = some b) :
    encodeValues b = l := by
  match l with
  | [] => simp only [decodeValues, Option.some.injEq] at h; subst h; rfl
  | [x] => simp [decodeValues] at h
  | [x, y] =>
    simp only [decodeValues] at h
    split at h
    · simp only [Option.some.injEq] at h
      subst h
      have hx := hl x (by simp)
      have hy := hl y (by simp)
      rw [encodeValues, toNat_ofNat_lt (by omega)]
      congr 1
      · omega
      · congr 1; omega
    · cases h
  | [x, y, z] =>
    simp only [decodeValues] at h
    split at h
    · simp only [Option.some.injEq] at h
      subst h
      have hx := hl x (by simp)
      have hy := hl y (by simp)
      have hz := hl z (by simp)
      rw [encodeValues, toNat_ofNat_lt (by omega), toNat_ofNat_lt (by omega)]
      congr 1
      · omega
      · congr 1
        · omega
        · congr 1; omega
    · cases h
  | x :: y :: z :: w :: rest =>
    simp only [decodeValues, Option.bind_eq_bind, Option.bind_eq_some_iff, Option.pure_def, Option.some.injEq] at h
    obtain ⟨r, h, rfl⟩ := h
    have hx := hl x (by simp)
    have hy := hl y (by simp)
    have hz := hl z (by simp)
    have hw := hl w (by simp)
    rw [encodeValues, toNat_ofNat_lt (by omega), toNat_ofNat_lt (by omega), toNat_ofNat_lt (by omega),
      encodeValues_decodeValues rest (fun v hv => hl v (by simp [hv])) r h]
    congr 1
    · omega
    · congr 1
      · omega
      · congr 1
        · omega
        · congr 1; omega

theorem value_char : ∀ n < 64, value (char n) = some n := by decide +kernel

theorem char_value : ∀ n < 256, ∀ m ∈ value (UInt8.ofNat n), m < 64 ∧ char m = UInt8.ofNat n := by decide +kernel

theorem value_eq_some {c : UInt8} {n : ℕ} : value c = some n ↔ n < 64 ∧ char n = c := by
  constructor
  · intro h
    have := char_value c.toNat c.toNat_lt n
    rw [UInt8.ofNat_toNat] at this
    exact this h
  · rintro ⟨h, rfl⟩
    exact value_char n h

theorem mapM_value {s : Bytes} {l : List ℕ} : s.mapM value = some l ↔ (∀ v ∈ l, v < 64) ∧ l.map char = s := by
  induction s generalizing l with
  | nil =>
    simp only [List.mapM_nil, Option.pure_def, Option.some.injEq, List.map_eq_nil_iff]
    constructor
    · rintro rfl; simp
    · rintro ⟨-, rfl⟩; rfl
  | cons c s ih =>
    simp only [List.mapM_cons, Option.bind_eq_bind, Option.bind_eq_some_iff, Option.pure_def, Option.some.injEq,
      value_eq_some]
    constructor
    · rintro ⟨v, ⟨h1, h2⟩, l, h3, rfl⟩
      obtain ⟨h4, h5⟩ := ih.mp h3
      simp [h1, h2, h5]
      exact h4
    · rintro ⟨h1, h2⟩
      cases l with
      | nil => simp at h2
      | cons v l =>
        simp only [List.map_cons, List.cons.injEq] at h2
        exact ⟨v, ⟨h1 v (by simp), h2.1⟩, l, ih.mpr ⟨fun w hw => h1 w (by simp [hw]), h2.2⟩, rfl⟩

theorem decode_encode (b : Bytes) : decode (encode b) = some b := by
  unfold decode
  rw [show (encode b).mapM value = some (encodeValues b) from mapM_value.mpr ⟨encodeValues_lt b, rfl⟩]
  exact decodeValues_encodeValues b

theorem encode_of_decode {s b : Bytes} (h : decode s = some b) : s = encode b := by
  unfold decode at h
  simp only [Option.bind_eq_bind, Option.bind_eq_some_iff] at h
  obtain ⟨l, h1, h2⟩ := h
  obtain ⟨h3, rfl⟩ := mapM_value.mp h1
  rw [encode, encodeValues_decodeValues l h3 b h2]

/-! ## Bits -/

theorem alphabet_char : ∀ n < 64, char n ∈ base64Alphabet ∧ base64Alphabet.idxOf (char n) = n := by decide +kernel

theorem alphabet_idx (c : UInt8) (h : c ∈ base64Alphabet) : base64Alphabet.idxOf c < 64 ∧
    char (base64Alphabet.idxOf c) = c := by
  have : ∀ c ∈ base64Alphabet, base64Alphabet.idxOf c < 64 ∧ char (base64Alphabet.idxOf c) = c := by decide +kernel
  exact this c h

theorem textBits_map (l : List ℕ) (hl : ∀ v ∈ l, v < 64) : textBits (l.map char) = l.flatMap (bitsOf 6) := by
  induction l with
  | nil => rfl
  | cons v l ih =>
    simp only [textBits, List.map_cons, List.flatMap_cons] at ih ⊢
    rw [(alphabet_char v (hl v (by simp))).2, ih fun w hw => hl w (by simp [hw])]

theorem bitsOf_length (k n : ℕ) : (bitsOf k n).length = k := by simp [bitsOf]

theorem bitsOf_inj {k n m : ℕ} (hn : n < 2 ^ k) (hm : m < 2 ^ k) (h : bitsOf k n = bitsOf k m) : n = m := by
  apply Nat.eq_of_testBit_eq
  intro i
  by_cases hi : i < k
  · have h' := List.map_inj_left.mp (List.reverse_injective h) i (List.mem_range.mpr hi)
    exact h'
  · rw [Nat.testBit_lt_two_pow (lt_of_lt_of_le hn (Nat.pow_le_pow_right (by norm_num) (by omega))),
      Nat.testBit_lt_two_pow (lt_of_lt_of_le hm (Nat.pow_le_pow_right (by norm_num) (by omega)))]

theorem flatMap_bits_inj {l l' : List ℕ} (hl : ∀ v ∈ l, v < 64) (hl' : ∀ v ∈ l', v < 64)
    (h : l.flatMap (bitsOf 6) = l'.flatMap (bitsOf 6)) : l = l' := by
  induction l generalizing l' with
  | nil =>
    cases l' with
    | nil => rfl
    | cons v l' =>
      have := congrArg List.length h
      simp [bitsOf_length] at this
      omega
  | cons v l ih =>
    cases l' with
    | nil =>
      have := congrArg List.length h
      simp [bitsOf_length] at this
    | cons v' l' =>
      simp only [List.flatMap_cons] at h
      obtain ⟨h1, h2⟩ := List.append_inj h (by simp [bitsOf_length])
      rw [bitsOf_inj (k := 6) (by simpa using hl v (by simp)) (by simpa using hl' v' (by simp)) h1,
        ih (fun w hw => hl w (by simp [hw])) (fun w hw => hl' w (by simp [hw])) h2]

/-- The bits of a byte: the upper and the lower ones. -/
theorem bits_split {k j n : ℕ} : bitsOf (j + k) n = bitsOf j (n / 2 ^ k) ++ bitsOf k (n % 2 ^ k) := by
  unfold bitsOf
  rw [← List.reverse_append, add_comm j k, List.range_add, List.map_append, List.map_map]
  congr 2
  · refine List.map_congr_left fun i hi => ?_
    rw [Nat.testBit_mod_two_pow, decide_eq_true (List.mem_range.mp hi), Bool.true_and]
  · refine List.map_congr_left fun i _ => ?_
    simp only [Function.comp, Nat.testBit_div_two_pow, add_comm]

theorem bits_join {j k a b : ℕ} (hb : b < 2 ^ k) : bitsOf (j + k) (a * 2 ^ k + b) = bitsOf j a ++ bitsOf k b := by
  rw [bits_split, Nat.mul_add_mod_self_right, Nat.mod_eq_of_lt hb, Nat.add_div_of_dvd_right (Dvd.intro_left _ rfl),
    Nat.mul_div_cancel _ (by positivity), Nat.div_eq_of_lt hb, add_zero]

theorem bits8 (j k n : ℕ) (h : j + k = 8) : bitsOf 8 n = bitsOf j (n / 2 ^ k) ++ bitsOf k (n % 2 ^ k) := by
  rw [← h]; exact bits_split

theorem bits6 (j k a b : ℕ) (h : j + k = 6) (hb : b < 2 ^ k) :
    bitsOf 6 (a * 2 ^ k + b) = bitsOf j a ++ bitsOf k b := by
  rw [← h]; exact bits_join hb

theorem encodeValues_bits (b : Bytes) :
    ∃ k < 6, (encodeValues b).flatMap (bitsOf 6) = byteBits b ++ List.replicate k false := by
  fun_induction encodeValues b with
  | case1 => exact ⟨0, by norm_num, rfl⟩
  | case2 a =>
    refine ⟨4, by norm_num, ?_⟩
    have h1 := bits8 6 2 a.toNat rfl
    have h2 := bits6 2 4 (a.toNat % 4) 0 rfl (by norm_num)
    have h3 : bitsOf 4 0 = List.replicate 4 false := rfl
    simp only [Nat.reducePow, add_zero] at h1 h2
    simp only [byteBits, List.flatMap_cons, List.flatMap_nil, List.append_nil, h1, h2, h3, List.append_assoc]
  | case3 a b =>
    refine ⟨2, by norm_num, ?_⟩
    have hb := b.toNat_lt
    have h1 := bits8 6 2 a.toNat rfl
    have h2 := bits6 2 4 (a.toNat % 4) (b.toNat / 16) rfl (by omega)
    have h3 := bits8 4 4 b.toNat rfl
    have h4 := bits6 4 2 (b.toNat % 16) 0 rfl (by norm_num)
    have h5 : bitsOf 2 0 = List.replicate 2 false := rfl
    simp only [Nat.reducePow, add_zero] at h1 h2 h3 h4
    simp only [byteBits, List.flatMap_cons, List.flatMap_nil, List.append_nil, h1, h2, h3, h4, h5,
      List.append_assoc]
  | case4 a b c rest ih =>
    obtain ⟨k, hk, ih⟩ := ih
    refine ⟨k, hk, ?_⟩
    have hb := b.toNat_lt
    have hc := c.toNat_lt
    have h1 := bits8 6 2 a.toNat rfl
    have h2 := bits6 2 4 (a.toNat % 4) (b.toNat / 16) rfl (by omega)
    have h3 := bits8 4 4 b.toNat rfl
    have h4 := bits6 4 2 (b.toNat % 16) (c.toNat / 64) rfl (by omega)
    have h5 := bits8 2 6 c.toNat rfl
    simp only [Nat.reducePow] at h1 h2 h3 h4 h5
    simp only [byteBits] at ih
    simp only [byteBits, List.flatMap_cons, h1, h2, h3, h4, h5, ih, List.append_assoc]

theorem isBase64Url_encode (b : Bytes) : IsBase64Url (encode b) b := by
  refine ⟨fun c hc => ?_, ?_⟩
  · obtain ⟨v, hv, rfl⟩ := List.mem_map.mp hc
    exact (alphabet_char v (encodeValues_lt b v hv)).1
  · rw [encode, textBits_map _ (encodeValues_lt b)]
    exact encodeValues_bits b

theorem textBits_length (s : Bytes) : (textBits s).length = 6 * s.length := by
  simp [textBits, bitsOf_length, mul_comm]

theorem isBase64Url_unique {s s' b : Bytes} (h : IsBase64Url s b) (h' : IsBase64Url s' b) : s = s' := by
  obtain ⟨h1, k, hk, h2⟩ := h
  obtain ⟨h1', k', hk', h2'⟩ := h'
  have hl := congrArg List.length h2
  have hl' := congrArg List.length h2'
  simp only [textBits_length, List.length_append, List.length_replicate] at hl hl'
  have hkk : k = k' := by omega
  subst hkk
  have key (s : Bytes) (h : ∀ c ∈ s, c ∈ base64Alphabet) : (s.map base64Alphabet.idxOf).map char = s := by
    rw [List.map_map]
    conv_rhs => rw [← List.map_id s]
    exact List.map_congr_left fun c hc => (alphabet_idx c (h c hc)).2
  have hb (s : Bytes) : textBits s = (s.map base64Alphabet.idxOf).flatMap (bitsOf 6) := by
    rw [textBits, List.flatMap_map]
  rw [← key s h1, ← key s' h1']
  congr 1
  refine flatMap_bits_inj ?_ ?_ (by rw [← hb, ← hb, h2, h2'])
  · intro v hv; obtain ⟨c, hc, rfl⟩ := List.mem_map.mp hv; exact (alphabet_idx c (h1 c hc)).1
  · intro v hv; obtain ⟨c, hc, rfl⟩ := List.mem_map.mp hv; exact (alphabet_idx c (h1' c hc)).1

end Base64

/-! ## Theorems -/

/-- Text is decoded exactly if it is the base64url text for the result: all characters are in the alphabet,
and their bits are the bits of the bytes followed by less than six zeros. -/
theorem C72_decode_iff (s b : Bytes) : Base64.decode s = some b ↔ IsBase64Url s b := by
  constructor
  · intro h
    rw [Base64.encode_of_decode h]
    exact Base64.isBase64Url_encode b
  · intro h
    rw [Base64.isBase64Url_unique h (Base64.isBase64Url_encode b)]
    exact Base64.decode_encode b

/-- Encoding writes the only text for the bytes. -/
theorem C72_encode_iff (s b : Bytes) : s = Base64.encode b ↔ IsBase64Url s b :=
  ⟨fun h => h ▸ Base64.isBase64Url_encode b, fun h => Base64.isBase64Url_unique h (Base64.isBase64Url_encode b)⟩

/-- Text and binary formats with base64url text satisfy the contract assumed for C52 and C71. -/
theorem C72_lawful (sizeHint : ℕ → Option ℕ) (h : ∀ n k, sizeHint n = some k → k = n) (flatten : Bool) :
    (Base64.textFormat sizeHint).Lawful ∧ (Base64.binaryFormat flatten sizeHint).Lawful :=
  ⟨⟨fun _ => rfl, Base64.decode_encode, h⟩, ⟨fun h => (Bool.false_ne_true h).elim, Base64.decode_encode, h⟩⟩

section

variable {F E : Type} [Field F] [AddCommGroup E] [Module F E] [DecidableEq F] [DecidableEq E]
variable {B : Backend F E}

/-- There is a single text for a scalar, and for an element of a group with canonical encodings; it is the one
that is written. Hence proofs and ciphertexts in text form are not malleable. -/
theorem C72_text_unique (sizeHint : ℕ → Option ℕ) (hB : B.Lawful) (hC : B.CanonicalElems) (s : Bytes) :
    (∀ x : F, deserializeScalar B (Base64.textFormat sizeHint) (.str s) = .ok x ↔
      serializeScalar B (Base64.textFormat sizeHint) x = .str s) ∧
    (∀ e : E, deserializeElement B (Base64.textFormat sizeHint) (.str s) = .ok e ↔
      serializeElement B (Base64.textFormat sizeHint) e = some (.str s)) := by
  have hc (b : Bytes) : Carries (Base64.textFormat sizeHint) (.str s) b ↔ Base64.encode b = s := by
    simp only [Carries, reduceCtorEq, Data.str.injEq, false_or]
    constructor
    · rintro ⟨-, _, rfl, h⟩
      exact (Base64.encode_of_decode h).symm
    · rintro rfl
      exact ⟨rfl, _, rfl, Base64.decode_encode b⟩
  constructor
  · intro x
    rw [C52_scalar_accepts hB, hc]
    simp [serializeScalar, serializeBytes, Base64.textFormat]
  · intro e
    rw [C52_element_canonical hB hC]
    simp only [hc]
    simp only [serializeElement, serializeBytes, Base64.textFormat, if_true, Option.bind_eq_bind,
      Option.bind_eq_some_iff, Option.pure_def, Option.some.injEq, Data.str.injEq]
    exact ⟨fun ⟨b, h1, h2⟩ => ⟨b, h2, h1⟩, fun ⟨b, h1, h2⟩ => ⟨b, h2, h1⟩⟩

/-- The form in which bytes are written: the base64url text in text formats, the bytes themselves in binary
formats. -/
theorem C72_written (sizeHint : ℕ → Option ℕ) (flatten : Bool) :
    let Written := fun (ser : Format → Data) (b : Bytes) =>
      (∃ s, ser (Base64.textFormat sizeHint) = .str s ∧ IsBase64Url s b) ∧
        ser (Base64.binaryFormat flatten sizeHint) = .bytes b
    (∀ x : F, Written (serializeScalar B · x) (B.serScalar x)) ∧
    (∀ e b, B.serElem e = some b → ∃ ser : Format → Data, Written ser b ∧
      ∀ fmt, serializeElement B fmt e = some (ser fmt)) ∧
    (∀ key : PublicKey E, Written (serializePublicKey · key) key.bytes) ∧
    (∀ key : SecretKey F, Written (serializeSecretKey B · key) (B.serScalar key)) ∧
    (∀ kp : Keypair F E, Written (serializeKeypair B · kp) (B.serScalar kp.secret)) ∧
    (∀ opening : Bytes, Written (serializeOpening · opening) opening) := by
  intro Written
  have key (b : Bytes) : Written (serializeBytes · b) b := ⟨⟨_, rfl, Base64.isBase64Url_encode b⟩, rfl⟩
  refine ⟨fun x => key _, fun e b h => ⟨(serializeBytes · b), key b, fun fmt => ?_⟩, fun k => key _, fun k => key _,
    fun k => key _, key⟩
  rw [serializeElement, h]
  rfl

end

/-! ## Examples -/

example : ∃ s, serializeScalar B101 (Base64.textFormat some) 42 = .str s ∧ IsBase64Url s [42] :=
  ((C72_written (B := B101) some true).1 42).1

/-- The test vectors of RFC 4648 (without padding) and two bytes that need `-` and `_`. -/
example : Base64.encode (asciiBytes "fooba") = asciiBytes "Zm9vYmE" ∧
    Base64.encode (asciiBytes "foob") = asciiBytes "Zm9vYg" ∧
    Base64.encode (asciiBytes "foobar") = asciiBytes "Zm9vYmFy" ∧
    Base64.encode [251, 240] = asciiBytes "-_A" := by decide +kernel

example : IsBase64Url (asciiBytes "Zm9vYg") (asciiBytes "foob") := (C72_decode_iff _ _).mp (by decide +kernel)

example : Base64.encode (asciiBytes "foob") = asciiBytes "Zm9vYg" :=
  ((C72_encode_iff _ _).mpr ⟨by decide +kernel, 4, by norm_num, by decide +kernel⟩).symm

/-- Trailing bits, padding, the standard alphabet and impossible lengths are rejected. -/
example : Base64.decode (asciiBytes "Zm9vYh") = none ∧ Base64.decode (asciiBytes "Zm9vYg==") = none ∧
    Base64.decode (asciiBytes "+/A") = none ∧ Base64.decode (asciiBytes "Zm9vY") = none := by decide +kernel

example : (Base64.textFormat fun _ => none).Lawful := (C72_lawful (fun _ => none) (by simp) true).1

example : deserializeElement B101 (Base64.textFormat some) (.str (asciiBytes "Kg")) = .ok 42 ∧
    deserializeScalar B101 (Base64.textFormat some) (.str (asciiBytes "Kh")) ≠ .ok 42 :=
  ⟨((C72_text_unique some B101_lawful B101_canonical _).2 42).mpr rfl, fun h => by
    have := ((C72_text_unique some B101_lawful B101_canonical _).1 42).mp h
    revert this
    simp only [serializeScalar, serializeBytes, Base64.textFormat, if_true, Data.str.injEq]
    decide +kernel⟩

end ElasticElgamal
