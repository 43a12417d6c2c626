import Verif.Model.Base
import Mathlib.Data.Nat.Log
import Mathlib.Data.Int.Log
import Mathlib.Data.Rat.Floor
import Mathlib.Data.Nat.Digits.Defs

/-!
# Range decompositions

Models the group-independent part of `src/proofs/range.rs`. All integers are `u64`; overflow follows
the build profile `dbg` (see `addU64` etc.). The function `est` is `lower_len_estimate`.
-/

set_option autoImplicit false

namespace ElasticElgamal

/-- `src/proofs/range.rs:20-23` `RingSpec`. -/
structure RingSpec where
  size : Nat
  step : Nat
  deriving DecidableEq, Repr

/-- `src/proofs/range.rs:106-108` `RangeDecomposition`. -/
structure RangeDecomposition where
  rings : List RingSpec
  deriving DecidableEq, Repr

/-- `src/proofs/range.rs:128-131` `OptimalDecomposition`. -/
structure OptimalDecomposition where
  decomposition : RangeDecomposition
  optimalLen : Nat
  deriving DecidableEq, Repr

/-- Decimal digits of `n` as ASCII (Rust `{}` formatting of `u64`). -/
def decimal (n : Nat) : Bytes :=
  if n = 0 then [48] else (Nat.digits 10 n).reverse.map fun d => UInt8.ofNat (48 + d)

namespace RangeDecomposition

/-- `src/proofs/range.rs:113-116`: one ring in the `Display` output. -/
def displayRing (spec : RingSpec) : Bytes :=
  (if spec.step > 1 then decimal spec.step ++ asciiBytes " * " else []) ++
    asciiBytes "0.." ++ decimal spec.size

/-- `src/proofs/range.rs:110-124` `Display for RangeDecomposition`, as bytes. -/
def display (d : RangeDecomposition) : Bytes :=
  go d.rings
where
  /-- loop over rings; the separator is written unless the ring is the last one -/
  go : List RingSpec → Bytes
    | [] => []
    | [spec] => displayRing spec
    | spec :: rest => displayRing spec ++ asciiBytes " + " ++ go rest

/-- `src/proofs/range.rs:155-161` `RangeDecomposition::just`. -/
def just (capacity : Nat) : RangeDecomposition := { rings := [{ size := capacity, step := 1 }] }

/-- `src/proofs/range.rs:163-176` `combine_mul`. -/
def combineMul (dbg : Bool) (d : RangeDecomposition) (newRingSize multiplier : Nat) :
    Option RangeDecomposition := do
  let combinedRings ← d.rings.mapM fun spec => do
    let step ← mulU64 dbg spec.step multiplier
    return { spec with step }
  return { rings := combinedRings ++ [{ size := newRingSize, step := 1 }] }

/-- `src/proofs/range.rs:179-185` `upper_bound`. -/
def upperBound (dbg : Bool) (d : RangeDecomposition) : Option Nat := do
  let total ← d.rings.foldlM (fun acc spec => do
    let maxIndex ← subU64 dbg spec.size 1
    let maxValue ← mulU64 dbg maxIndex spec.step
    addU64 dbg acc maxValue) 0
  addU64 dbg total 1

/-- `src/proofs/range.rs:188-190` `rings_size`. -/
def ringsSize (dbg : Bool) (d : RangeDecomposition) : Option Nat :=
  d.rings.foldlM (fun acc spec => addU64 dbg acc spec.size) 0

/-- `src/proofs/range.rs:195-197` `proof_size`. -/
def proofSize (dbg : Bool) (d : RangeDecomposition) : Option Nat := do
  let ringsSize ← d.ringsSize dbg
  let twice ← mulU64 dbg 2 d.rings.length
  let sum ← addU64 dbg ringsSize twice
  subU64 dbg sum 1

/-- `src/proofs/range.rs:199-207`: the loop of `decompose`; returns the pushed indexes and the final
`secret_value`. Division by a zero step panics. -/
def decomposeLoop (dbg : Bool) : List RingSpec → Nat → Option (List Nat × Nat)
  | [], secretValue => some ([], secretValue)
  | spec :: rest, secretValue => do
    guard (spec.step ≠ 0)
    let valueIndex := secretValue / spec.step
    let ringMaxValue ← subU64 dbg spec.size 1
    let valueIndex := if valueIndex > ringMaxValue then ringMaxValue else valueIndex
    let taken ← mulU64 dbg valueIndex spec.step
    let secretValue ← subU64 dbg secretValue taken
    let (indexes, secretValue) ← decomposeLoop dbg rest secretValue
    return (valueIndex :: indexes, secretValue)

/-- `src/proofs/range.rs:199-210` `RangeDecomposition::decompose`. -/
def decompose (dbg : Bool) (d : RangeDecomposition) (secretValue : Nat) : Option (List Nat) := do
  let (indexes, rest) ← decomposeLoop dbg d.rings secretValue
  -- `debug_assert_eq!(secret_value, 0)`
  guard (dbg = false ∨ rest = 0)
  return indexes

/-- `HashMap<u64, OptimalDecomposition>` of `optimize`; most recent insertion first. -/
abbrev Memo := List (Nat × OptimalDecomposition)

/-- `src/proofs/range.rs:258-288`: the loop over multipliers. `optimize` is the recursive call. -/
def innerLoop (dbg : Bool) (est : Nat → Nat)
    (optimize : Nat → Memo → Option (OptimalDecomposition × Memo))
    (firstRingSize remainingCapacity : Nat) :
    List Nat → OptimalDecomposition → Memo → Option (OptimalDecomposition × Memo)
  | [], opt, memo => some (opt, memo)
  | multiplier :: rest, opt, memo =>
    if remainingCapacity % multiplier ≠ 0 then
      innerLoop dbg est optimize firstRingSize remainingCapacity rest opt memo
    else do
      let innerUpperBound ← addU64 dbg (remainingCapacity / multiplier) 1
      if innerUpperBound < 2 then
        return (opt, memo)
      else
        let firstLen ← addU64 dbg firstRingSize 2
        let bestEstimate ← addU64 dbg firstLen (est innerUpperBound)
        if bestEstimate > opt.optimalLen then
          innerLoop dbg est optimize firstRingSize remainingCapacity rest opt memo
        else
          let (innerOpt, memo) ← optimize innerUpperBound memo
          let candidateLen ← addU64 dbg firstLen innerOpt.optimalLen
          let candidateRings := 1 + innerOpt.decomposition.rings.length
          if candidateLen < opt.optimalLen ∨
              (candidateLen = opt.optimalLen ∧ candidateRings < opt.decomposition.rings.length) then
            let decomposition ← innerOpt.decomposition.combineMul dbg firstRingSize multiplier
            innerLoop dbg est optimize firstRingSize remainingCapacity rest
              { optimalLen := candidateLen, decomposition } memo
          else
            innerLoop dbg est optimize firstRingSize remainingCapacity rest opt memo

/-- `src/proofs/range.rs:251-289`: the loop over sizes of the first ring, `for first_ring_size in 2..`.
The first argument bounds the number of iterations (`none` when exhausted; proved unreachable). -/
def outerLoop (dbg : Bool) (est : Nat → Nat)
    (optimize : Nat → Memo → Option (OptimalDecomposition × Memo)) (upperBound : Nat) :
    Nat → Nat → OptimalDecomposition → Memo → Option (OptimalDecomposition × Memo)
  | 0, _, _, _ => none
  | fuel + 1, firstRingSize, opt, memo => do
    let firstLen ← addU64 dbg firstRingSize 2
    if firstLen > opt.optimalLen then
      return (opt, memo)
    else
      let remainingCapacity ← subU64 dbg upperBound firstRingSize
      let (opt, memo) ← innerLoop dbg est optimize firstRingSize remainingCapacity
        (List.range' 2 (firstRingSize - 1)) opt memo
      outerLoop dbg est optimize upperBound fuel (firstRingSize + 1) opt memo

/-- `src/proofs/range.rs:238-300` `optimize`. The first argument bounds the recursion depth (`none` when
exhausted; proved unreachable). -/
def optimize (dbg : Bool) (est : Nat → Nat) :
    Nat → Nat → Memo → Option (OptimalDecomposition × Memo)
  | 0, _, _ => none
  | fuel + 1, upperBound, memo =>
    match memo.lookup upperBound with
    | some opt => some (opt, memo)
    | none => do
      let optimalLen ← addU64 dbg upperBound 2
      let opt : OptimalDecomposition := { optimalLen, decomposition := just upperBound }
      let (opt, memo) ← outerLoop dbg est (optimize dbg est fuel) upperBound upperBound 2 opt memo
      -- `debug_assert!(opt.optimal_len >= Self::lower_len_estimate(upper_bound))`
      guard (dbg = false ∨ est upperBound ≤ opt.optimalLen)
      return (opt, (upperBound, opt) :: memo)

/-- `src/proofs/range.rs:148-153` `RangeDecomposition::optimal`. -/
def optimal (dbg : Bool) (est : Nat → Nat) (upperBound : Nat) : Option RangeDecomposition := do
  guard (2 ≤ upperBound)
  let (opt, _) ← optimize dbg est upperBound upperBound []
  return opt.decomposition

/-- `src/proofs/range.rs:316-323` `int_lower_len_estimate` (used without the `std` feature). -/
def intLowerLenEstimate (upperBound : Nat) : Nat :=
  let log2UpperBound := if upperBound = 0 then 0 else Nat.log 2 upperBound
  log2UpperBound * 3

/-- Rounding to the nearest integer, ties to even. -/
def roundEven (x : ℚ) : ℤ :=
  if Int.fract x < 1 / 2 then ⌊x⌋
  else if 1 / 2 < Int.fract x then ⌊x⌋ + 1
  else if ⌊x⌋ % 2 = 0 then ⌊x⌋ else ⌊x⌋ + 1

/-- The closest `f64`, ties to even: 53 significant bits. Simplification: no bounds on the exponent; the
values here are zero or between `2^-60` and `2^65` (the exponent of `f64` ranges from -1022 to 1023). -/
def roundF64 (x : ℚ) : ℚ :=
  if x = 0 then 0
  else
    let ulp : ℚ := 2 ^ (Int.log 2 |x| - 52)
    roundEven (x / ulp) * ulp

/-- `src/proofs/range.rs:303-305` `lower_len_estimate` with the `std` feature:
`((upper_bound as f64).log2() * 3.0).ceil() as u64`. The function `f64::log2` is a parameter (Rust does not
specify its precision); `as u64` maps negative numbers to 0. -/
def floatLowerLenEstimate (log2 : ℚ → ℚ) (upperBound : Nat) : Nat :=
  ⌈roundF64 (log2 (roundF64 upperBound) * 3)⌉₊

/-- The value `ceil(3 * log2(upper_bound))` without rounding: the least `k` with `upper_bound^3 ≤ 2^k`. Used
for examples only. -/
def exactLowerLenEstimate (upperBound : Nat) : Nat := Nat.clog 2 (upperBound ^ 3)

end RangeDecomposition

end ElasticElgamal
