import Verif.Model.Merlin

/-!
# Keccak-f[1600]

The permutation of the `keccak` crate (0.1.6, `Cargo.lock:972`), which `merlin` uses: FIPS 202, section 3. The model
follows the standard; the source of the dependency is not a part of the repository.
-/

set_option autoImplicit false

namespace ElasticElgamal.Keccak

/-- A lane rotated to the left. -/
def rotateLeft (x : UInt64) (n : Nat) : UInt64 :=
  if n % 64 = 0 then x else (x <<< UInt64.ofNat (n % 64)) ||| (x >>> UInt64.ofNat (64 - n % 64))

/-- The round constants (step ι). -/
def roundConstants : List UInt64 :=
  [0x0000000000000001, 0x0000000000008082, 0x800000000000808A, 0x8000000080008000, 0x000000000000808B,
   0x0000000080000001, 0x8000000080008081, 0x8000000000008009, 0x000000000000008A, 0x0000000000000088,
   0x0000000080008009, 0x000000008000000A, 0x000000008000808B, 0x800000000000008B, 0x8000000000008089,
   0x8000000000008003, 0x8000000000008002, 0x8000000000000080, 0x000000000000800A, 0x800000008000000A,
   0x8000000080008081, 0x8000000000008080, 0x0000000080000001, 0x8000000080008008]

/-- The offsets of lanes (step ρ), for the lane `(x, y)` at `x + 5y`. -/
def offsets : Array Nat :=
  #[0, 1, 62, 28, 27, 36, 44, 6, 55, 20, 3, 10, 43, 25, 39, 41, 45, 15, 21, 8, 18, 2, 61, 56, 14]

/-- Step θ. -/
def theta (a : Array UInt64) : Array UInt64 :=
  let c := (Array.range 5).map fun x => a[x]! ^^^ a[x + 5]! ^^^ a[x + 10]! ^^^ a[x + 15]! ^^^ a[x + 20]!
  let d := (Array.range 5).map fun x => c[(x + 4) % 5]! ^^^ rotateLeft c[(x + 1) % 5]! 1
  (Array.range 25).map fun i => a[i]! ^^^ d[i % 5]!

/-- Steps ρ and π: the lane `(x, y)` of the result is the rotated lane `(x + 3y, x)`. -/
def rhoPi (a : Array UInt64) : Array UInt64 :=
  (Array.range 25).map fun i =>
    let x := i % 5
    let y := i / 5
    let j := (x + 3 * y) % 5 + 5 * x
    rotateLeft a[j]! offsets[j]!

/-- Step χ. -/
def chi (a : Array UInt64) : Array UInt64 :=
  (Array.range 25).map fun i =>
    let x := i % 5
    let y := i / 5
    a[i]! ^^^ (~~~a[(x + 1) % 5 + 5 * y]! &&& a[(x + 2) % 5 + 5 * y]!)

/-- A round. -/
def round (a : Array UInt64) (rc : UInt64) : Array UInt64 := (chi (rhoPi (theta a))).modify 0 (· ^^^ rc)

/-- The lanes of a state: little-endian. -/
def toLanes (st : Merlin.KeccakState) : Array UInt64 :=
  let bytes := (Array.range 200).map fun i => if h : i < 200 then st ⟨i, h⟩ else 0
  (Array.range 25).map fun i =>
    UInt64.ofNat (leValue ((List.range 8).map fun k => bytes[8 * i + k]!))

/-- The bytes of a state. -/
def toBytes (a : Array UInt64) : Array UInt8 :=
  (Array.range 200).map fun i => (a[i / 8]! >>> UInt64.ofNat (8 * (i % 8))).toUInt8

/-- Bytes of the permuted state. -/
def permuteBytes (st : Merlin.KeccakState) : Array UInt8 := toBytes (roundConstants.foldl round (toLanes st))

/-- A byte of a state. -/
@[noinline] def byteAt (bytes : Array UInt8) (i : Fin 200) : UInt8 := bytes[i.val]!

/-- Composition, such that a permuted state is computed once when the model is executed. -/
@[noinline] def compose {α β γ : Type} (h : β → γ) (g : α → β) (a : α) : γ := h (g a)

end ElasticElgamal.Keccak

namespace ElasticElgamal.Merlin

/-- `merlin::Transcript::challenge_bytes` for a transcript with the given log (which ends with the label of the
extraction) and a buffer of `k` bytes. Simplification: zeros for other logs and where Merlin panics; all earlier
challenges in the log are supposed to have `k` bytes as well. -/
def challengeBytesOf (log : List Entry) (k : Nat) : Bytes :=
  match log.getLast? with
  | some (.chal label) =>
    match challengeState (Keccak.compose Keccak.byteAt Keccak.permuteBytes) k log.dropLast label with
    | some s => (squeeze (Keccak.compose Keccak.byteAt Keccak.permuteBytes) s k).1
    | none => List.replicate k 0
  | _ => List.replicate k 0

end ElasticElgamal.Merlin
