import Verif.Model.Base

/-!
# Specification of base64url text (RFC 4648, sections 3.5 and 5)

Text represents bytes if the bits of its characters, 6 for each, are the bits of the bytes followed by less
than 6 zeros.
-/

set_option autoImplicit false

namespace ElasticElgamal.Spec

/-- The alphabet; the position of a character is its value. -/
def base64Alphabet : Bytes := asciiBytes "ABCDEFGHIJKLMNOPQRSTUVWXYZabcdefghijklmnopqrstuvwxyz0123456789-_"

/-- The lowest `k` bits of a number, the most significant one first. -/
def bitsOf (k n : ℕ) : List Bool := ((List.range k).map n.testBit).reverse

/-- The bits of bytes. -/
def byteBits (b : Bytes) : List Bool := b.flatMap fun x => bitsOf 8 x.toNat

/-- The bits of text. -/
def textBits (s : Bytes) : List Bool := s.flatMap fun c => bitsOf 6 (base64Alphabet.idxOf c)

/-- `s` is the base64url text for the bytes `b`, without padding characters. -/
def IsBase64Url (s b : Bytes) : Prop :=
  (∀ c ∈ s, c ∈ base64Alphabet) ∧ ∃ k < 6, textBits s = byteBits b ++ List.replicate k false

end ElasticElgamal.Spec
