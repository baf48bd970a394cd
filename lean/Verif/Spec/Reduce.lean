/-
Specification of frame-wise reduction of parallel streams.
-/

namespace CoInf.Spec
variable {Y Z : Type}

/-- Frame `t` of every stream. -/
def atTime (cs : List (List Y)) (t : Nat) : List Y := cs.filterMap fun c => c[t]?

/-- Reduce parallel streams frame by frame (as many frames as the first stream has). -/
def zipReduce (f : List Y → Z) (cs : List (List Y)) : List Z :=
  match cs with
  | [] => []
  | c :: _ => (List.range c.length).map fun t => f (atTime cs t)

/-- The given stream functions emit in lock step. -/
def Aligned {X : Type} (φs : List (List X → List Y)) : Prop :=
  ∀ φ ∈ φs, ∀ ψ ∈ φs, ∀ xs, (φ xs).length = (ψ xs).length

end CoInf.Spec
