import Verif.Model.Base

/-!
# Specifications: groups that cannot encode all elements
-/

set_option autoImplicit false

namespace ElasticElgamal.Spec

variable {F E : Type}

/-- A string of the right length that encodes no element. For SEC1 points: 33 zero bytes. -/
def SpareEncoding (B : Backend F E) (spare : Bytes) : Prop :=
  spare.length = B.elementSize ∧ ∀ e, B.serElem e ≠ some spare

/-- The same group, with `spare` as the encoding of the identity. It is used in reductions only: parties of protocols
use `B`. -/
def totalize [Zero E] (B : Backend F E) (spare : Bytes) : Backend F E :=
  { B with
    serElem := fun e => some ((B.serElem e).getD spare)
    deElem := fun b => if b = spare then some 0 else B.deElem b }

end ElasticElgamal.Spec
