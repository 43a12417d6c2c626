import Verif.Model.Sharing.Basic
import Verif.Model.Proofs.Commitment
import Verif.Model.App.Choice
import Verif.Model.App.QuadraticVoting

/-!
# What an observer of running times sees: sequences of operations

The crate says which operations are to be constant-time (`src/group/mod.rs:67, 86, 89, 134, 185, 207`) and which
proofs are generated in constant time (`src/proofs/log_equality.rs:59`, `src/proofs/possession.rs:28`;
`src/proofs/range.rs:203-204` uses `subtle` for the same purpose). Here functions are modelled together with the
list of operations they perform. A constant-time operation appears without its arguments; an operation whose
running time may depend on its arguments (the methods `vartime_*`) appears with its arguments; a branch appears
with its direction. Reads of memory at positions that depend on secrets, allocations and copies do not appear.
-/

set_option autoImplicit false

namespace ElasticElgamal

/-- Operations as an observer of running times sees them. -/
inductive Op (F E : Type) where
  /-- `ScalarOps::generate_scalar` (`src/group/mod.rs:86-87`) -/
  | genScalar
  /-- arithmetic of scalars (`src/group/mod.rs:67-79`) -/
  | addScalar | subScalar | negScalar | mulScalar
  /-- `Group::mul_generator` (`src/group/mod.rs:184-193`) -/
  | mulGen
  /-- `Element * &Scalar` (`src/group/mod.rs:133-141`) -/
  | mulElem
  /-- `Group::multi_mul` of `n` pairs (`src/group/mod.rs:207-224`) -/
  | multiMul (n : Nat)
  /-- arithmetic and comparison of elements (`src/group/mod.rs:133-141`) -/
  | addElem | subElem | eqElem
  /-- comparison of scalars -/
  | eqScalar
  /-- `ElementOps::serialize_element` (`src/group/mod.rs:157`) -/
  | encode
  /-- `merlin::Transcript::append_message` of `len` bytes -/
  | append (label : String) (len : Nat)
  /-- `TranscriptForGroup::challenge_scalar` (`src/proofs/mod.rs:54-56`) -/
  | challenge (label : String)
  /-- arithmetic of `u64` -/
  | addU64 | subU64 | mulU64 | divU64
  /-- `subtle::ConstantTimeGreater`, `subtle::ConditionallySelectable` (`src/proofs/range.rs:203-204`) -/
  | ctGt | ctAssign
  /-- a branch on data -/
  | branch (taken : Bool)
  /-- `Group::vartime_*` (`src/group/mod.rs:195-205, 226-255`): the arguments can be seen -/
  | vartime (scalars : List F) (elements : List E)
  deriving DecidableEq

/-- A computation that may panic (`none`), with the operations performed. -/
structure Traced (F E α : Type) where
  val : Option α
  ops : List (Op F E)

namespace Traced

variable {F E α β : Type}

/-- Sequencing; nothing is performed after a panic. -/
def bind (x : Traced F E α) (f : α → Traced F E β) : Traced F E β :=
  match x.val with
  | none => ⟨none, x.ops⟩
  | some a => ⟨(f a).val, x.ops ++ (f a).ops⟩

instance : Monad (Traced F E) where
  pure a := ⟨some a, []⟩
  bind := bind

/-- Perform one operation. -/
def op (o : Op F E) (a : α) : Traced F E α := ⟨some a, [o]⟩

/-- Steps without operations that matter, which may panic (indexing). -/
def ofOption (a : Option α) : Traced F E α := ⟨a, []⟩

/-- `assert!`: does not return unless the condition holds. -/
def assert (p : Prop) [Decidable p] : Traced F E Unit := ⟨if p then some () else none, []⟩

end Traced

open Traced

variable {F E : Type}

section Primitives
variable [Field F] [AddCommGroup E] [Module F E]

namespace Backend
variable (B : Backend F E)

/-- `ScalarOps::generate_scalar`. -/
def genScalarTraced (rng : B.Rng) : Traced F E (F × B.Rng) := op .genScalar (B.genScalar rng)

/-- `Group::mul_generator`. -/
def mulGenTraced (k : F) : Traced F E E := op .mulGen (B.mulGen k)

/-- `Group::vartime_mul_generator` (`src/group/mod.rs:203-205`). -/
def vartimeMulGenTraced (k : F) : Traced F E E := op (.vartime [k] [B.gen]) (B.mulGen k)

/-- `Group::vartime_double_mul_generator` (`src/group/mod.rs:232-238`). -/
def vartimeDoubleMulGenTraced (k : F) (kElement : E) (r : F) : Traced F E E :=
  op (.vartime [k, r] [kElement, B.gen]) (B.doubleMulGen k kElement r)

/-- `Group::multi_mul`. -/
def multiMulTraced (scalars : List F) (elements : List E) : Traced F E E :=
  op (.multiMul scalars.length) (multiMul scalars elements)

/-- `Group::vartime_multi_mul` (`src/group/mod.rs:248-254`). -/
def vartimeMultiMulTraced (scalars : List F) (elements : List E) : Traced F E E :=
  op (.vartime scalars elements) (multiMul scalars elements)

/-- `ElementOps::serialize_element` into a buffer. -/
def serElemTraced (e : E) : Traced F E Bytes := ⟨B.serElem e, [.encode]⟩

/-- `src/proofs/mod.rs:48-52` `append_element`: the buffer has `ELEMENT_SIZE` bytes. -/
def appendElementTraced (t : Transcript) (label : String) (e : E) : Traced F E Transcript := do
  let output ← B.serElemTraced e
  op (.append label B.elementSize) (t.appendElementBytes label output)

/-- `src/proofs/mod.rs:54-56` `challenge_scalar`. -/
def challengeScalarTraced (t : Transcript) (label : String) : Traced F E (F × Transcript) :=
  op (.challenge label) (B.challengeScalar t label)

/-- `debug_assert!` with the operations in its condition: performed in debug builds only. -/
def debugAssertTraced (ops : List (Op F E)) (p : Prop) [Decidable p] : Traced F E Unit :=
  ⟨B.debugAssert p, if B.debug then ops else []⟩

end Backend

/-- `Element * &Scalar`. -/
def mulElemTraced (k : F) (e : E) : Traced F E E := op .mulElem (k • e)
/-- `Element + Element`. -/
def addElemTraced (a b : E) : Traced F E E := op .addElem (a + b)
/-- `Element - Element`. -/
def subElemTraced (a b : E) : Traced F E E := op .subElem (a - b)
/-- `Scalar + Scalar`. -/
def addScalarTraced (a b : F) : Traced F E F := op .addScalar (a + b)
/-- `Scalar - Scalar`. -/
def subScalarTraced (a b : F) : Traced F E F := op .subScalar (a - b)
/-- `Scalar * &Scalar`. -/
def mulScalarTraced (a b : F) : Traced F E F := op .mulScalar (a * b)
/-- `-Scalar`. -/
def negScalarTraced (a : F) : Traced F E F := op .negScalar (-a)

namespace Transcript

/-- `merlin::Transcript::append_message`. -/
def appendMessageTraced (t : Transcript) (label : String) (data : Bytes) : Traced F E Transcript :=
  op (.append label data.length) (t.appendMessage label data)

/-- `merlin::Transcript::append_u64`. -/
def appendU64Traced (t : Transcript) (label : String) (x : Nat) : Traced F E Transcript :=
  op (.append label 8) (t.appendU64 label x)

/-- `merlin::Transcript::new`. -/
def newTraced (label : String) : Traced F E Transcript :=
  op (.append "dom-sep" (asciiBytes label).length) (Transcript.new label)

/-- `src/proofs/mod.rs:40-42` `start_proof`. -/
def startProofTraced (t : Transcript) (label : String) : Traced F E Transcript :=
  op (.append "dom-sep" (asciiBytes label).length) (t.startProof label)

/-- `src/proofs/mod.rs:44-46` `append_element_bytes`. -/
def appendElementBytesTraced (t : Transcript) (label : String) (bytes : Bytes) : Traced F E Transcript :=
  op (.append label bytes.length) (t.appendElementBytes label bytes)

end Transcript

/-- `u64` operations, with the panics of debug builds. -/
def addU64Traced (dbg : Bool) (a b : Nat) : Traced F E Nat := ⟨addU64 dbg a b, [.addU64]⟩
/-- `u64` subtraction. -/
def subU64Traced (dbg : Bool) (a b : Nat) : Traced F E Nat := ⟨subU64 dbg a b, [.subU64]⟩
/-- `u64` multiplication. -/
def mulU64Traced (dbg : Bool) (a b : Nat) : Traced F E Nat := ⟨mulU64 dbg a b, [.mulU64]⟩

end Primitives

end ElasticElgamal
