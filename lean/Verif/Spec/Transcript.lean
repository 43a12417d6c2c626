import Verif.Model.Decryption

/-!
# Specifications around transcripts and hashing

Challenges are values of an arbitrary function `H` of the transcript log (`Backend.challenge`).
`Backend.withHash` replaces this function: statements of the form "there is a function `bad`, fixed
before the hash function is chosen, such that …" express Fiat–Shamir soundness without probabilities.
-/

set_option autoImplicit false

namespace ElasticElgamal

variable {F E : Type}

/-- The same group, codecs and RNG with another hash function. -/
@[reducible] def Backend.withHash (B : Backend F E) (H : List Entry → F) : Backend F E :=
  { B with challenge := H }

/-- The same backend with a tape of scalars as the RNG: `generate_scalar` reads the next one. Used to
state properties about the prover's random choices. -/
@[reducible] def Backend.withTape [Zero F] (B : Backend F E) : Backend F E :=
  { B with
    Rng := List F
    genScalar := fun tape => (tape.headD 0, tape.tail)
    fill32 := fun tape => (List.replicate 32 0, tape) }

namespace Spec

/-- The public key object is consistent: its cached bytes decode to its element. All keys returned by
the API satisfy this. -/
def WellFormedKey (B : Backend F E) (pk : PublicKey E) : Prop := B.deElem pk.bytes = some pk.element

variable [Field F] [AddCommGroup E] [Module F E]

/-- The statement shown by a log equality proof: `powers.1 = [r]G` and `powers.2 = [r]K` for some `r`. -/
def SameLog (B : Backend F E) (K : E) (powers : E × E) : Prop :=
  ∃ r : F, powers.1 = r • B.gen ∧ powers.2 = r • K

/-- Everything hashed by a log equality proof after the context log. -/
def logEqQuery (context : List Entry) (k a d x y : Bytes) : List Entry :=
  context ++ [.msg "dom-sep" (asciiBytes "log_eq"), .msg "K" k, .msg "[r]G" a, .msg "[r]K" d,
    .msg "[x]G" x, .msg "[x]K" y, .chal "c"]

/-- Everything hashed by a proof of possession after the context log. -/
def popQuery (context : List Entry) (keys commitments : List Bytes) : List Entry :=
  context ++ [.msg "dom-sep" (asciiBytes "multi_pop")] ++ keys.map (.msg "K") ++
    commitments.map (.msg "R") ++ [.chal "c"]

/-- Everything hashed by a commitment equivalence proof after the context log. -/
def commitmentQuery (context : List Entry) (k r b c x y z : Bytes) : List Entry :=
  context ++ [.msg "dom-sep" (asciiBytes "commitment_equivalence"), .msg "K" k, .msg "R" r,
    .msg "B" b, .msg "C" c, .msg "[e_r]G" x, .msg "[e_v]G + [e_r]K" y, .msg "[e_v]G + [e_c]H" z,
    .chal "c"]

/-- `v`, `r`, `b` explain a ciphertext and a Pedersen commitment with blinding base `base`:
the ciphertext is `([r]G, [v]G + [r]K)` and the commitment is `[v]G + [b]H`. -/
def CommitsSame (B : Backend F E) (K : E) (ct : Ciphertext E) (commitment base : E) (v r b : F) :
    Prop :=
  ct.random = r • B.gen ∧ ct.blinded = v • B.gen + r • K ∧ commitment = v • B.gen + b • base

/-- Data hashed for one ciphertext of a sum-of-squares proof: the two components of the ciphertext and
the two commitments. -/
structure SquareItem where
  r : Bytes
  x : Bytes
  e : Bytes
  f : Bytes

/-- The entries of one item. -/
def SquareItem.entries (i : SquareItem) : List Entry :=
  [.msg "R_x" i.r, .msg "X" i.x, .msg "[e_r]G" i.e, .msg "[e_x]G + [e_r]K" i.f]

/-- Everything hashed by a sum-of-squares proof after the context log. -/
def sumSqQuery (context : List Entry) (k : Bytes) (items : List SquareItem) (rz z u v : Bytes) :
    List Entry :=
  context ++ [.msg "dom-sep" (asciiBytes "sum_of_squares"), .msg "K" k] ++
    items.flatMap SquareItem.entries ++
    [.msg "R_z" rz, .msg "Z" z, .msg "[e_x]R_x + [e_z]G" u, .msg "[e_x]X + [e_z]K" v, .chal "c"]

/-- A ciphertext together with an opening: it is `([r]G, [v]G + [r]K)` for its recorded value `v` and
randomness `r`. -/
def Opened (B : Backend F E) (K : E) (ct : CiphertextWithValue F E) : Prop :=
  ct.ciphertext.random = ct.randomness • B.gen ∧
    ct.ciphertext.blinded = ct.value • B.gen + ct.randomness • K

end Spec

end ElasticElgamal
