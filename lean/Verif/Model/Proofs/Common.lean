import Verif.Model.Encryption

/-!
# Shared pieces of the proof modules

Models `src/proofs/mod.rs`.
-/

set_option autoImplicit false

namespace ElasticElgamal

/-- `src/proofs/mod.rs:63-81` `VerificationError`. -/
inductive VerificationError where
  | ChallengeMismatch
  | LenMismatch (collection : String) (expected actual : Nat)
  deriving DecidableEq

/-- `src/proofs/mod.rs:84-98` `VerificationError::check_lengths`. -/
def VerificationError.checkLengths (collection : String) (expected actual : Nat) :
    Except VerificationError Unit :=
  if expected = actual then .ok () else .error (.LenMismatch collection expected actual)

/-- The final comparison at the end of every `verify` method, e.g.
`src/proofs/log_equality.rs:175-179`, `src/proofs/ring.rs:369-373`. -/
def checkChallenge {F : Type} [DecidableEq F] (expectedChallenge challenge : F) :
    Except VerificationError Unit :=
  if expectedChallenge = challenge then .ok () else .error .ChallengeMismatch

/-- Rust `slice::chunks(n)`: consecutive pieces of length `n`, the last one possibly shorter
(`n = 0`, which panics in Rust, never occurs: sizes are positive). -/
def chunks {α : Type} (n : Nat) (l : List α) : List (List α) :=
  if _h : l = [] ∨ n = 0 then [] else l.take n :: chunks n (l.drop n)
termination_by l.length
decreasing_by
  rcases not_or.mp _h with ⟨h1, h2⟩
  have : 0 < l.length := List.length_pos_iff.mpr h1
  simp only [List.length_drop]; omega

end ElasticElgamal
