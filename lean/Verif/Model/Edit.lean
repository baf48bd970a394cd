/-
Editing a `Sequential` after construction: `append`, item assignment, deletion, slices.

/repo/continual/container.py:610-631, 719-726; the other operations are inherited from `torch.nn.Sequential`, whose code is assumed:
* `net[i] = m` is `setattr(net, name of the i-th member, m)`, which does not go through `add_module`;
* `del net[i]` removes the entry; since version 1.12 the remaining members are renamed `"0"`, `"1"`, … (`renumber`);
* `net[a:b]` is `net.__class__(OrderedDict(list(net._modules.items())[a:b]))`;
* an index that is out of range raises `IndexError`, negative ones count from the end.
-/
import Verif.Model.Core

set_option autoImplicit false

namespace CoInf.Edit
variable {M : Type}

/-- A member: continual, or a module of torch that `continual` can convert. -/
inductive Obj (M : Type) where
  | co (m : M)
  | plain (m : M)
  deriving DecidableEq

/-- `co_add_module`: container.py:135-142. -/
def Obj.convert : Obj M → Obj M
  | .co m => .co m
  | .plain m => .co m

/-- `nn.Module._modules`, in the order of insertion. -/
abbrev Items (M : Type) := List (String × Obj M)

/-- `add_module(name, module)`: container.py:630-631. -/
def add (d : Items M) (name : String) (o : Obj M) : Items M :=
  if name ∈ d.map Prod.fst then d.map fun e => if e.1 = name then (name, o.convert) else e
  else d ++ [(name, o.convert)]

/-- `Sequential(OrderedDict(items))`: container.py:610-628. -/
def named (items : Items M) : Items M := items.foldl (fun d e => add d e.1 e.2) []

/-- The items with the names `"0"`, `"1"`, … -/
def numbered (os : List (Obj M)) : Items M := os.zipIdx.map fun e => (toString e.2, e.1)

/-- `Sequential(a, b, …)`: container.py:615-628. -/
def positional (os : List (Obj M)) : Items M := named (numbered os)

/-- Edits. -/
inductive Op (M : Type) where
  | append (o : Obj M)
  | set (i : Int) (o : Obj M)
  | del (i : Int)
  | slice (a b : Nat)

/-- Position of the index `i` among `n` members. -/
def position (n : Nat) (i : Int) : Except Err Nat :=
  if -(n : Int) ≤ i ∧ i < n then .ok (i % n).toNat else .error .index

/-- One edit; the result is the edited container, or the new one in the case of a slice. -/
def apply (renumber : Bool) (d : Items M) : Op M → Except Err (Items M)
  | .append o => .ok (add d (toString d.length) o)
  | .set i o => do
    let k ← position d.length i
    pure (d.modify k fun e => (e.1, o))
  | .del i => do
    let k ← position d.length i
    let d := d.eraseIdx k
    pure (if renumber then numbered (d.map Prod.snd) else d)
  | .slice a b => .ok (named ((d.take b).drop a))

/-- Edits one after another. -/
def applyAll (renumber : Bool) : Items M → List (Op M) → Except Err (Items M)
  | d, [] => .ok d
  | d, op :: ops => do
    let d ← apply renumber d op
    applyAll renumber d ops

/-- `Sequential.forward_step`, container.py:639-648, over a store of states, one per module object.  A module of torch that was not
converted does not know the argument `update_state`. -/
def forwardStep {S X : Type} [DecidableEq M] (sem : M → S → X → Except Err (Option X × S)) :
    List (Obj M) → (M → S) → X → Except Err (Option X × (M → S))
  | [], σ, x => .ok (some x, σ)
  | .plain _ :: _, _, _ => .error .type
  | .co m :: os, σ, x => do
    let (y, s) ← sem m (σ m) x
    let σ := fun k => if k = m then s else σ k
    match y with
    | none => pure (none, σ)
    | some y => forwardStep sem os σ y

/-- A `BroadcastReduce`: its members and its `reduce`. -/
structure Reduced (M X : Type) where
  items : Items M
  reduce : List X → X

/-- `net[a:b]` of a `BroadcastReduce`: `BroadcastReduce(OrderedDict(...))` with `reduce="sum"` and at least two members,
container.py:800-846.  (The delays that it adds are in `Verif.Model.Adopt`.) -/
def Reduced.slice {X : Type} (sum : List X → X) (r : Reduced M X) (a b : Nat) : Except Err (Reduced M X) :=
  let items := (r.items.take b).drop a
  if 1 < items.length then .ok ⟨named items, sum⟩ else .error .assertion

end CoInf.Edit
