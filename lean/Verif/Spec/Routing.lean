/-
Positions in nested dispatch mappings and in nested lists of streams.
-/
import Verif.Model.Parallel

set_option autoImplicit false

namespace CoInf.Spec
variable {α : Type}

/-- The stream id at a position of a mapping; a position is the list of indices from the outermost list inwards. -/
def idAt : Dispatch.Mapping → List Nat → Option Int
  | .id i, [] => some i
  | .group ms, k :: p => match ms[k]? with
    | some m => idAt m p
    | none => none
  | _, _ => none

/-- The stream at a position of a nested list of streams. -/
def streamAt : Dispatch.Routed α → List Nat → Option α
  | .one a, [] => some a
  | .many rs, k :: p => match rs[k]? with
    | some r => streamAt r p
    | none => none
  | _, _ => none

/-- The stream that an id denotes: ids count from the front, negative ids from the back. -/
def denotes (input : List α) (i : Int) : Option α :=
  if 0 ≤ i then input[i.toNat]? else if -(input.length : Int) ≤ i then input[(input.length + i).toNat]? else none

/-- Stream number `k` of a sequence of simultaneous frames. -/
def streamOf (k : Nat) (fs : List (List α)) : List α := fs.filterMap fun f => f[k]?

/-- Feed simultaneous frames of several streams by `forward_step`; one list of optional outputs per step. -/
def feedAll {X Y : Type} (M : CoMod (.multi X) (.multi Y)) (i : M.Inst) :
    List (List X) → Except Err (List (Option (List (Option Y))) × M.Inst)
  | [] => .ok ([], i)
  | f :: fs => match M.step i true (f.map some) with
    | .error e => .error e
    | .ok (o, i') => match feedAll M i' fs with
      | .error e => .error e
      | .ok (os, i'') => .ok (o :: os, i'')

/-- The tensors that a sequence of outputs has at stream position `k`. -/
def tensorsAt {Y : Type} (k : Nat) (os : List (Option (List (Option Y)))) : List Y :=
  os.filterMap fun o => (o.bind fun l => l[k]?).join

end CoInf.Spec
