import Verif.Model.Base

/-!
# Merlin transcripts over STROBE-128

Models the dependency `merlin` 3.0.0 (`Cargo.toml:37`, `Cargo.lock:1017`), which is the transcript type in all
proofs (`src/proofs/mod.rs:5, 39-57`). The source of the dependency is not a part of the repository; the model
follows its published files `src/strobe.rs` and `src/transcript.rs`. The permutation Keccak-f[1600] is a
parameter `f`: nothing is assumed about it. `none` = panic.
-/

set_option autoImplicit false

namespace ElasticElgamal.Merlin

/-- The state of Keccak-f[1600]: 200 bytes. -/
abbrev KeccakState := Fin 200 → UInt8

/-- `merlin` `src/strobe.rs` `STROBE_R`: bytes per block. -/
def strobeR : Nat := 166

/-- `merlin` `src/strobe.rs` `Strobe128`. Simplification: positions are natural numbers instead of `u8` (they are
at most 166). The field `calls` is not a part of the code: it records the inputs of the permutation. -/
structure Strobe where
  state : KeccakState
  pos : Nat
  posBegin : Nat
  curFlags : UInt8
  calls : List KeccakState

/-- `self.state[p] ^= b`. -/
def xorAt (st : KeccakState) (p : Nat) (b : UInt8) : KeccakState := fun i => if i.val = p then st i ^^^ b else st i

/-- `self.state[p] = b`. -/
def setAt (st : KeccakState) (p : Nat) (b : UInt8) : KeccakState := fun i => if i.val = p then b else st i

section

variable (f : KeccakState → KeccakState)

/-- `merlin` `src/strobe.rs` `Strobe128::run_f`. -/
def runF (s : Strobe) : Strobe :=
  let state := xorAt s.state s.pos (UInt8.ofNat s.posBegin)
  let state := xorAt state (s.pos + 1) 0x04
  let state := xorAt state (strobeR + 1) 0x80
  { s with state := f state, pos := 0, posBegin := 0, calls := s.calls ++ [state] }

/-- The body of the loop in `Strobe128::absorb`. -/
def absorbByte (s : Strobe) (byte : UInt8) : Strobe :=
  let s := { s with state := xorAt s.state s.pos byte, pos := s.pos + 1 }
  if s.pos = strobeR then runF f s else s

/-- `merlin` `src/strobe.rs` `Strobe128::absorb`. -/
def absorb (s : Strobe) (data : Bytes) : Strobe := data.foldl (absorbByte f) s

/-- `merlin` `src/strobe.rs` `Strobe128::squeeze` into a buffer of `n` bytes. -/
def squeeze (s : Strobe) : Nat → Bytes × Strobe
  | 0 => ([], s)
  | n + 1 =>
    let byte := if h : s.pos < 200 then s.state ⟨s.pos, h⟩ else 0
    let s := { s with state := setAt s.state s.pos 0, pos := s.pos + 1 }
    let s := if s.pos = strobeR then runF f s else s
    let (bytes, s) := squeeze s n
    (byte :: bytes, s)

/-- `FLAG_I`, `FLAG_A`, `FLAG_C`, `FLAG_T`, `FLAG_M`, `FLAG_K` in `merlin` `src/strobe.rs`. -/
def flagI : UInt8 := 1
def flagA : UInt8 := 2
def flagC : UInt8 := 4
def flagT : UInt8 := 8
def flagM : UInt8 := 16
def flagK : UInt8 := 32

/-- `merlin` `src/strobe.rs` `Strobe128::begin_op`. -/
def beginOp (s : Strobe) (flags : UInt8) (more : Bool) : Option Strobe :=
  if more then
    if s.curFlags = flags then some s else none
  else if flags &&& flagT ≠ 0 then none
  else
    let oldBegin := s.posBegin
    let s := { s with posBegin := s.pos + 1, curFlags := flags }
    let s := absorb f s [UInt8.ofNat oldBegin, flags]
    let forceF := flags &&& (flagC ||| flagK) ≠ 0
    some (if forceF ∧ s.pos ≠ 0 then runF f s else s)

/-- `merlin` `src/strobe.rs` `Strobe128::meta_ad`. -/
def metaAd (s : Strobe) (data : Bytes) (more : Bool) : Option Strobe := do
  return absorb f (← beginOp f s (flagM ||| flagA) more) data

/-- `merlin` `src/strobe.rs` `Strobe128::ad`. -/
def ad (s : Strobe) (data : Bytes) (more : Bool) : Option Strobe := do
  return absorb f (← beginOp f s flagA more) data

/-- The constant bytes at the beginning of the initial state in `Strobe128::new`. -/
def initialBytes : Bytes := [1, 168, 1, 0, 1, 96] ++ asciiBytes "STROBEv1.0.2"

/-- The input of the first permutation in `Strobe128::new`. -/
def initialState : KeccakState := fun i => initialBytes.getD i.val 0

/-- `merlin` `src/strobe.rs` `Strobe128::new`. -/
def strobeNew (protocolLabel : Bytes) : Option Strobe :=
  metaAd f { state := f initialState, pos := 0, posBegin := 0, curFlags := 0, calls := [initialState] }
    protocolLabel false

/-- `merlin` `src/transcript.rs` `encode_usize_as_u32`: panics if the number does not fit. -/
def encodeUsizeAsU32 (x : Nat) : Option Bytes := if x < 2 ^ 32 then some (leBytes 4 x) else none

/-- `merlin` `src/transcript.rs` `Transcript::append_message`. -/
def appendMessage (s : Strobe) (label : Bytes) (message : Bytes) : Option Strobe := do
  let dataLen ← encodeUsizeAsU32 message.length
  let s ← metaAd f s label false
  let s ← metaAd f s dataLen true
  ad f s message false

/-- `merlin` `src/transcript.rs` `Transcript::challenge_bytes` with a buffer of `n` bytes, until (and including)
`begin_op` in `Strobe128::prf`. -/
def beginChallenge (s : Strobe) (label : Bytes) (n : Nat) : Option Strobe := do
  let dataLen ← encodeUsizeAsU32 n
  let s ← metaAd f s label false
  let s ← metaAd f s dataLen true
  beginOp f s (flagI ||| flagA ||| flagC) false

/-- `merlin` `src/transcript.rs` `Transcript::challenge_bytes`. -/
def challengeBytes (s : Strobe) (label : Bytes) (n : Nat) : Option (Bytes × Strobe) := do
  return squeeze f (← beginChallenge f s label n) n

/-- The operations on a transcript that are recorded in a log, performed one by one. `n` is the number of bytes
extracted for a challenge: 64 (`src/group/ristretto.rs:35`, `src/group/curve25519.rs:46`) or 32
(`src/group/mod.rs:99`). -/
def runEntries (n : Nat) (s : Strobe) : List Entry → Option Strobe
  | [] => some s
  | .msg label data :: log => do runEntries n (← appendMessage f s (asciiBytes label) data) log
  | .chal label :: log => do runEntries n (← challengeBytes f s (asciiBytes label) n).2 log

/-- `MERLIN_PROTOCOL_LABEL` in `merlin` `src/constants.rs`. -/
def protocolLabel : Bytes := asciiBytes "Merlin v1.0"

/-- The state of a transcript with the given log. `Transcript::new` appends the first message
(`Model.Transcript.new`). -/
def runLog (n : Nat) (log : List Entry) : Option Strobe := do
  runEntries f n (← strobeNew f protocolLabel) log

/-- The state from which the challenge is read. -/
def challengeState (n : Nat) (log : List Entry) (label : String) : Option Strobe := do
  beginChallenge f (← runLog f n log) (asciiBytes label) n

end

/-- The function `Backend.challenge` of a group whose challenges are computed from `n` bytes by `toScalar`
(`ScalarOps::scalar_from_random_bytes`, `src/group/mod.rs:98-103`). Simplification: the value is 0 for logs that do
not end with a challenge and where Merlin panics. -/
def challenge {F : Type} [Zero F] (f : KeccakState → KeccakState) (n : Nat) (toScalar : Bytes → F)
    (log : List Entry) : F :=
  match log.getLast? with
  | some (.chal label) =>
    match challengeState f n log.dropLast label with
    | some s => toScalar (squeeze f s n).1
    | none => 0
  | _ => 0

end ElasticElgamal.Merlin
