/-
How containers register their members: positional and named construction, `append`, and the inference of
`Broadcast.num_streams`.
-/
import Verif.Model.Broadcast

set_option autoImplicit false

namespace CoInf

/-- `nn.Module._modules`: a dictionary in insertion order. -/
abbrev Modules (α : Type 1) := List (String × α)

namespace Modules
variable {α : Type 1}

/-- `add_module(name, module)`, i.e. `self._modules[name] = module`: container.py:630-631 and 135-142 (the
conversion to a continual module is the subject of `Verif.Model.Convert`). -/
def add (d : Modules α) (name : String) (m : α) : Modules α :=
  if name ∈ d.map Prod.fst then d.map fun e => if e.1 = name then (name, m) else e
  else d ++ [(name, m)]

/-- `Sequential(a, b, ...)`: the members are named by their position: container.py:616-617, 627-628. -/
def positional (args : List α) : Modules α :=
  args.zipIdx.foldl (fun d e => d.add (toString e.2) e.1) []

/-- `Sequential(OrderedDict(...))`: container.py:612-614, 627-628. -/
def named (dict : List (String × α)) : Modules α := dict.foldl (fun d e => d.add e.1 e.2) []

/-- `append`: container.py:719-726, `self.add_module(str(len(self)), module)`. -/
def append (d : Modules α) (m : α) : Modules α := d.add (toString d.length) m

/-- The members in the order of iteration, `for m in self`. -/
def members (d : Modules α) : List α := d.map Prod.snd

end Modules

/-- What `Sequential.__init__` needs to know of a member: container.py:620-625. -/
inductive Member where
  | broadcast (numStreams : Option Nat)
  | parallel (len : Nat)
  | other
  deriving DecidableEq, Repr

/-- `num_streams or len(...)`: container.py:623-625 (`None` and `0` are falsy). -/
def Member.orLen : Option Nat → Nat → Option Nat
  | none, k => some k
  | some 0, k => some k
  | some (n + 1), _ => some (n + 1)

/-- A `Broadcast` directly followed by a `Parallel` learns the number of streams:
container.py:619-625. -/
def Member.infer : List Member → List Member
  | .broadcast n :: .parallel k :: ms => .broadcast (orLen n k) :: infer (.parallel k :: ms)
  | m :: ms => m :: infer ms
  | [] => []

/-- `append` on a constructed `BroadcastReduce` (inherited from `Sequential`, container.py:719-726): the
members are extended; `_delay` and `_receptive_field` were computed by the constructor
(container.py:842-846) and stay; stride and padding are computed from the members (container.py:906-912). -/
@[reducible] def BroadcastReduce.appended {X Y Z : Type} (r : Reducer Y Z)
    (ms : List (CoMod (.stream X) (.stream Y))) (m : CoMod (.stream X) (.stream Y)) :
    CoMod (.stream X) (.stream Z) :=
  { BroadcastReduce.mod r (ms ++ [m]) with
    rf := (BroadcastReduce.mod r ms).rf
    delay := (BroadcastReduce.mod r ms).delay }

/-- `Sequential(m, m)`: one module object registered twice.  There is one set of attributes; the methods call
the object twice: container.py:633-677.  Functional stepping keeps a state per position
(container.py:650-658). -/
@[reducible] def Sequential.shared {X : Type} (m : CoMod (.stream X) (.stream X)) :
    CoMod (.stream X) (.stream X) where
  Inst := m.Inst
  init := m.init
  clean := fun i => m.clean (m.clean i)
  fwd := fun i x => match m.fwd i x with
    | .error e => .error e
    | .ok (y, i1) => m.fwd i1 y
  step := fun i u x => match m.step i u x with
    | .error e => .error e
    | .ok (none, i1) => .ok (none, i1)
    | .ok (some y, i1) => m.step i1 u y
  steps := fun i p u x => match m.steps i p u x with
    | .error e => .error e
    | .ok (none, i1) => .ok (none, i1)
    | .ok (some y, i1) => m.steps i1 p u y
  St := Option m.St × Option m.St
  pstep := Chain.pstep (.cons m (.single m))
  rf := Chain.rfOf (Chain.geos (.cons m (.single m)))
  stride := Chain.strideOf (Chain.geos (.cons m (.single m)))
  padding := Chain.paddingOf (Chain.geos (.cons m (.single m)))
  delay := (Chain.rfOf (Chain.geos (.cons m (.single m))) : Int) - 1 -
    Chain.paddingOf (Chain.geos (.cons m (.single m)))

end CoInf
