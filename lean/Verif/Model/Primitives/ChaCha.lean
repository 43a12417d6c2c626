import Verif.Model.Group.Externals

/-!
# `ChaChaRng`

Models `ChaChaRng` (= `ChaCha20Rng`) of the `rand_chacha` crate (0.10.0, `Cargo.toml:38`), which is the RNG of
`ScalarOps::scalar_from_random_bytes` (`src/group/mod.rs:98-103`) and of the tests (`tests/snapshots.rs:33`). The model
follows the documentation of the crate: the original ChaCha20 (a counter of 64 bits, a zero nonce).
-/

set_option autoImplicit false

namespace ElasticElgamal.ChaCha

/-- A word rotated to the left by `0 < n < 32`. -/
def rotateLeft (x : UInt32) (n : UInt32) : UInt32 := (x <<< n) ||| (x >>> (32 - n))

/-- The quarter round. -/
def quarterRound (s : Array UInt32) (a b c d : Nat) : Array UInt32 :=
  let s := s.set! a (s[a]! + s[b]!)
  let s := s.set! d (rotateLeft (s[d]! ^^^ s[a]!) 16)
  let s := s.set! c (s[c]! + s[d]!)
  let s := s.set! b (rotateLeft (s[b]! ^^^ s[c]!) 12)
  let s := s.set! a (s[a]! + s[b]!)
  let s := s.set! d (rotateLeft (s[d]! ^^^ s[a]!) 8)
  let s := s.set! c (s[c]! + s[d]!)
  s.set! b (rotateLeft (s[b]! ^^^ s[c]!) 7)

/-- Two rounds: one on the columns and one on the diagonals. -/
def doubleRound (s : Array UInt32) : Array UInt32 :=
  let s := quarterRound s 0 4 8 12
  let s := quarterRound s 1 5 9 13
  let s := quarterRound s 2 6 10 14
  let s := quarterRound s 3 7 11 15
  let s := quarterRound s 0 5 10 15
  let s := quarterRound s 1 6 11 12
  let s := quarterRound s 2 7 8 13
  quarterRound s 3 4 9 14

/-- Word number `i` of a string, little-endian. -/
def wordAt (b : Bytes) (i : Nat) : UInt32 := UInt32.ofNat (leValue ((b.drop (4 * i)).take 4))

/-- The initial state for the given key and block number. -/
def initialState (key : Bytes) (counter : Nat) : Array UInt32 :=
  ([0x61707865, 0x3320646e, 0x79622d32, 0x6b206574] ++ (List.range 8).map (wordAt key) ++
    [UInt32.ofNat counter, UInt32.ofNat (counter / 2 ^ 32), 0, 0]).toArray

/-- A block of the key stream. -/
def block (key : Bytes) (counter : Nat) : Bytes :=
  let start := initialState key counter
  let final := Nat.repeat doubleRound 10 start
  (List.range 16).flatMap fun i => leBytes 4 (start[i]! + final[i]!).toNat

/-- `ChaChaRng`. -/
structure Rng where
  seed : Bytes
  /-- `get_word_pos()` -/
  wordPos : Nat

/-- `SeedableRng::from_seed`. -/
def Rng.fromSeed (seed : Bytes) : Rng := ⟨seed, 0⟩

/-- `fill_bytes` for a buffer of `k` bytes: takes whole words. -/
def Rng.fill (k : Nat) (rng : Rng) : Bytes × Rng :=
  let words := (k + 3) / 4
  let blocks := (rng.wordPos % 16 + words + 15) / 16
  let stream := (List.range blocks).flatMap fun i => block rng.seed (rng.wordPos / 16 + i)
  ((stream.drop (4 * (rng.wordPos % 16))).take k, { rng with wordPos := rng.wordPos + words })

/-- A step of the PCG32 generator in `SeedableRng::seed_from_u64` of the `rand_core` crate (0.10.0): the next word and
the new state. -/
def pcg32 (state : UInt64) : UInt32 × UInt64 :=
  let state := state * 6364136223846793005 + 11634580027462260723
  let xorshifted := (((state >>> 18) ^^^ state) >>> 27).toUInt32
  let rot := (state >>> 59).toUInt32
  ((xorshifted >>> rot) ||| (xorshifted <<< ((32 - rot) % 32)), state)

/-- The first `k` words of PCG32. -/
def pcg32Words : Nat → UInt64 → List UInt32
  | 0, _ => []
  | k + 1, state => (pcg32 state).1 :: pcg32Words k (pcg32 state).2

/-- `SeedableRng::seed_from_u64`. -/
def Rng.seedFromU64 (state : UInt64) : Rng :=
  .fromSeed ((pcg32Words 8 state).flatMap fun w => leBytes 4 w.toNat)

end ElasticElgamal.ChaCha
