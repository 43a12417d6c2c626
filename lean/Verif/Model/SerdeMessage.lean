import Verif.Model.Base64

/-!
# Messages of deserialization errors

Only the message for text that is not base64url, which contains the text.
-/

set_option autoImplicit false

namespace ElasticElgamal

namespace Serde

/-- The message of `serde` for `E::invalid_value(Unexpected::Str(value), &self)`. Simplification: `serde` writes the value with
`Debug` of `str`, which escapes quotes, backslashes and control characters; base64 text has none. -/
def invalidValueMessage (value : Bytes) (expecting : String) : Bytes :=
  asciiBytes "invalid value: string \"" ++ value ++ asciiBytes "\", expected " ++ asciiBytes expecting

/-- `src/serde.rs:39-46` `Base64Visitor`: the message of the error for the given text, if there is one. -/
def base64Message (fmt : Format) (value : Bytes) : Option Bytes :=
  match fmt.decode value with
  | some _ => none
  | none => some (invalidValueMessage value "base64url-encoded data")

/-- `src/serde.rs:137-146` `Deserialize for SecretKey`: the message if the text is not base64url; `?` returns the error of
`deserialize_bytes` as it is. -/
def secretKeyMessage (fmt : Format) (value : Bytes) : Option Bytes := base64Message fmt value

end Serde

end ElasticElgamal
