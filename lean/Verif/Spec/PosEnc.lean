/-
Specification of recycled positional encodings.
-/
import Mathlib.Data.List.Basic

set_option autoImplicit false

namespace CoInf.Spec

/-- The frames of a stream that started at position `k`, each combined with entry `position mod table size` of the
table. -/
def recycled {V : Type} (add : V → V → V) (emb : List V) (k : Nat) (xs : List V) : List V :=
  (xs.zipIdx k).filterMap fun p => (emb[p.2 % emb.length]?).map (add p.1)

end CoInf.Spec
