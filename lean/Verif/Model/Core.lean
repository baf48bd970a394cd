/-
The interface shared by all continual modules, and the base-class implementations of
`forward_step` and `forward_steps`.

Modelled source: /repo/continual/module.py.

Conventions
* A tensor is modelled along its temporal axis only: a *clip* is a `List` of frames, a *frame* is an
  element of an arbitrary type.  Batch, channel and space axes live inside the frame type.
* A Python object with attributes is a value of a type `Inst`, threaded through the calls.
* `None` is `Option.none`; a raised exception is `Except.error`.  (The attribute values after an
  exception escaped are not modelled.)
-/

namespace CoInf

/-- Python exceptions that the modelled code can raise. -/
inductive Err where
  | assertion   -- `AssertionError`
  | index       -- `IndexError`
  | key         -- `KeyError`
  | unbound     -- `UnboundLocalError`
  | attribute   -- `AttributeError` (typically a method call on `None`)
  | runtime     -- `RuntimeError` raised by a torch operator (shape mismatch, empty stack, ...)
  | type        -- `TypeError`
  | value       -- `ValueError`
  deriving DecidableEq, Repr

/-- Types of the values flowing over a connection: what is passed to `forward_step` (a frame) and
what is passed to `forward`/`forward_steps` (a clip). -/
structure Sig where
  Step : Type
  Clip : Type

/-- A single tensor stream with frames in `X`. -/
abbrev Sig.stream (X : Type) : Sig := ⟨X, List X⟩

/-- The public interface of a continual module: module.py:101-327 (`CoModule`).
`fwd` is `forward`, `step` is `forward_step(input, update_state)`, `steps` is
`forward_steps(input, pad_end, update_state)`, `pstep` is the functional `_forward_step`, `clean` is
`clean_state`.  `init` is the object after construction.  Geometry attributes: module.py:114-116 and
188-190 (only the temporal component of `stride` and `padding`). -/
structure CoMod (I O : Sig) where
  Inst : Type
  init : Inst
  clean : Inst → Inst
  fwd : Inst → I.Clip → Except Err (O.Clip × Inst)
  step : Inst → (upd : Bool) → I.Step → Except Err (Option O.Step × Inst)
  steps : Inst → (padEnd upd : Bool) → I.Clip → Except Err (Option O.Clip × Inst)
  St : Type
  pstep : I.Step → Option St → Except Err (Option O.Step × Option St)
  rf : Nat
  stride : Nat
  padding : Nat
  delay : Int

/-- `None` if no output was collected, otherwise the stacked clip: module.py:289-292. -/
def optList {α : Type} : List α → Option (List α)
  | [] => none
  | l => some l

/-- Python indexing `b[i]` of a sequence (negative indices count from the end). -/
def pyGet {α : Type} (b : List α) (i : Int) : Except Err α :=
  let j := if i < 0 then i + b.length else i
  if j < 0 then .error .index
  else match b[j.toNat]? with
    | some a => .ok a
    | none => .error .index

/-- Python item assignment `b[i] = a` (as a functional update). -/
def pySet {α : Type} (b : List α) (i : Int) (a : α) : Except Err (List α) :=
  let j := if i < 0 then i + b.length else i
  if j < 0 then .error .index
  else if j.toNat < b.length then .ok (b.set j.toNat a)
  else .error .index

/-- A module that implements `_forward_step`, `get_state`, `set_state`, `clean_state` and inherits
`forward_step` and `forward_steps` from `CoModule` (conv.py, pooling.py, delay.py, skip.py). -/
structure Leaf (X Y : Type) where
  Inst : Type
  St : Type
  init : Inst
  clean : Inst → Inst
  get : Inst → Option St
  set : St → Inst → Inst
  pstep : X → Option St → Except Err (Option Y × Option St)
  /-- `self.padding[0]` as seen by `_forward_steps_impl`. -/
  padding : Nat
  /-- `self._make_padding` applied to an input frame. -/
  makePad : X → X

namespace Leaf
variable {X Y : Type} (L : Leaf X Y)

/-- `if update_state and state: self.set_state(state)`: module.py:217-218, 273-274.
(A state is a non-empty tuple, so its truth value is `is not None`.) -/
def save (upd : Bool) (s : Option L.St) (i : L.Inst) : L.Inst :=
  if upd then
    match s with
    | some st => L.set st i
    | none => i
  else i

/-- `CoModule.forward_step`: module.py:192-219.  `_clone_first` is the identity on values; the
aliasing it protects against is the subject of `Verif.Model.Heap`. -/
def forwardStep (i : L.Inst) (upd : Bool) (x : X) : Except Err (Option Y × L.Inst) := do
  let (o, s) ← L.pstep x (L.get i)
  return (o, L.save upd s i)

/-- The loop of module.py:268-271 / 282-287: run `_forward_step` over frames, collect the tensors. -/
def loop (s : Option L.St) : List X → Except Err (List Y × Option L.St)
  | [] => .ok ([], s)
  | x :: xs => do
    let (o, s') ← L.pstep x s
    let (os, s'') ← loop s' xs
    return (o.toList ++ os, s'')

/-- The end padding `[self._make_padding(input[:, :, -1]) for _ in range(self.padding[0])]`:
module.py:282-284.  The subscript is evaluated once per list element, so it only fails on an empty
clip when there is padding. -/
def endPads (xs : List X) : Except Err (List X) :=
  match L.padding, xs.getLast? with
  | 0, _ => .ok []
  | _ + 1, none => .error .index
  | p + 1, some x => .ok (List.replicate (p + 1) (L.makePad x))

/-- The state from which the end padding is run: module.py:278-280
(`opt_state = self.get_state(); if opt_state is not None: state = clone(opt_state)`). -/
def padState (i : L.Inst) (s : Option L.St) : Option L.St :=
  match L.get i with
  | some st => some st
  | none => s

/-- `CoModule._forward_steps_impl`: module.py:248-292. -/
def forwardSteps (i : L.Inst) (padEnd upd : Bool) (xs : List X) :
    Except Err (Option (List Y) × L.Inst) := do
  let (outs, s1) ← L.loop (L.get i) xs
  let i1 := L.save upd s1 i
  if padEnd then
    let pads ← L.endPads xs
    let (outs2, _) ← L.loop (L.padState i1 s1) pads
    return (optList (outs ++ outs2), i1)
  else
    return (optList outs, i1)

end Leaf

end CoInf
