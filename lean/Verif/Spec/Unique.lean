/-!
# Parts of ring proofs (C96)
-/

set_option autoImplicit false

namespace ElasticElgamal.Spec

/-- Responses of a ring proof except the last one of each ring. -/
def withoutLast {F E : Type} : List (List E) → List F → List (List F)
  | [], _ => []
  | vs :: rest, rs => (rs.take vs.length).dropLast :: withoutLast rest (rs.drop vs.length)

end ElasticElgamal.Spec
