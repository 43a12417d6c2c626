import Verif.Model.Serde

/-!
# Base64url without padding

The text representation of bytes in human-readable formats: `Base64UrlUnpadded` of the crate `base64ct`
(a dependency, modelled after RFC 4648, sections 3.5 and 5). Decoding is strict: characters outside of the
alphabet, impossible lengths and non-zero trailing bits are errors.
-/

set_option autoImplicit false

namespace ElasticElgamal

namespace Base64

/-- The character for a value below 64. -/
def char (n : Nat) : UInt8 :=
  if n < 26 then UInt8.ofNat (65 + n)
  else if n < 52 then UInt8.ofNat (97 + (n - 26))
  else if n < 62 then UInt8.ofNat (48 + (n - 52))
  else if n = 62 then 45
  else 95

/-- The value of a character. -/
def value (c : UInt8) : Option Nat :=
  if 65 ≤ c.toNat ∧ c.toNat ≤ 90 then some (c.toNat - 65)
  else if 97 ≤ c.toNat ∧ c.toNat ≤ 122 then some (c.toNat - 97 + 26)
  else if 48 ≤ c.toNat ∧ c.toNat ≤ 57 then some (c.toNat - 48 + 52)
  else if c.toNat = 45 then some 62
  else if c.toNat = 95 then some 63
  else none

/-- `Base64UrlUnpadded::encode_string` (called in `src/serde.rs:24`), before the alphabet is applied. -/
def encodeValues : Bytes → List Nat
  | [] => []
  | [a] => [a.toNat / 4, a.toNat % 4 * 16]
  | [a, b] => [a.toNat / 4, a.toNat % 4 * 16 + b.toNat / 16, b.toNat % 16 * 4]
  | a :: b :: c :: rest =>
    a.toNat / 4 :: (a.toNat % 4 * 16 + b.toNat / 16) :: (b.toNat % 16 * 4 + c.toNat / 64) :: c.toNat % 64 ::
      encodeValues rest

/-- `Base64UrlUnpadded::encode_string` (called in `src/serde.rs:24`). -/
def encode (b : Bytes) : Bytes := (encodeValues b).map char

/-- `Base64UrlUnpadded::decode_vec` (called in `src/serde.rs:44`), after the alphabet is applied. -/
def decodeValues : List Nat → Option Bytes
  | [] => some []
  | [_] => none
  | [x, y] => if y % 16 = 0 then some [UInt8.ofNat (x * 4 + y / 16)] else none
  | [x, y, z] =>
    if z % 4 = 0 then some [UInt8.ofNat (x * 4 + y / 16), UInt8.ofNat (y % 16 * 16 + z / 4)] else none
  | x :: y :: z :: w :: rest => do
    return UInt8.ofNat (x * 4 + y / 16) :: UInt8.ofNat (y % 16 * 16 + z / 4) :: UInt8.ofNat (z % 4 * 64 + w) ::
      (← decodeValues rest)

/-- `Base64UrlUnpadded::decode_vec` (called in `src/serde.rs:44`). -/
def decode (s : Bytes) : Option Bytes := do decodeValues (← s.mapM value)

/-- A human-readable format, such as JSON. -/
def textFormat (sizeHint : Nat → Option Nat) : Format :=
  { humanReadable := true, flattenHumanReadable := true, encode, decode, sizeHint }

/-- A binary format; `serde` claims that buffered fields are human readable. -/
def binaryFormat (flattenHumanReadable : Bool) (sizeHint : Nat → Option Nat) : Format :=
  { humanReadable := false, flattenHumanReadable, encode, decode, sizeHint }

end Base64

end ElasticElgamal
