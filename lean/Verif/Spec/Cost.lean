import Verif.Model.Leakage.Ops

/-!
# Specifications: the number of products of scalars and group elements
-/

set_option autoImplicit false

namespace ElasticElgamal.Spec

variable {F E : Type}

/-- Products of a scalar and a group element that an operation computes; a sum of `n` products counts as `n`. -/
def products : Op F E → ℕ
  | .mulGen => 1
  | .mulElem => 1
  | .multiMul n => n
  | .vartime scalars _ => scalars.length
  | _ => 0

/-- Products of scalars and group elements computed by a sequence of operations. -/
def productCount (ops : List (Op F E)) : ℕ := (ops.map products).sum

end ElasticElgamal.Spec
