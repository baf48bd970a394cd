/-
Stateless modules: /repo/continual/closure.py, linear.py, shape.py and `forward_stepping` of
/repo/continual/convert.py.
-/
import Verif.Model.Core

namespace CoInf

/-- `tensor.squeeze(dim=2)` of a clip: the frame if there is exactly one.  (torch leaves a clip of
another length unchanged, which is not a frame; modelled as an error.) -/
def squeeze {Y : Type} : List Y → Except Err Y
  | [y] => .ok y
  | _ => .error .runtime

namespace Lambda

/-- The callable `fn` of a `Lambda`: with `takes_time=False` it is applied to frames, with
`takes_time=True` to clips (closure.py:21-53, 111-146). -/
inductive Fn (X Y : Type) where
  | frame (f : X → Y)
  | clip (g : List X → List Y)

/-- Constructor arguments of `Lambda`: closure.py:59-81. -/
structure Cfg (X Y : Type) where
  fn : Option (Fn X Y)
  fwdOnly : Option (List X → List Y) := none
  stepOnly : Option (X → Y) := none
  stepsOnly : Option (List X → List Y) := none

variable {X Y : Type} (c : Cfg X Y)

/-- The assertion of the constructor: closure.py:68-74. -/
def assertion : Except Err Unit :=
  if c.fn.isSome ∨ (c.fwdOnly.isSome ∧ c.stepOnly.isSome ∧ c.stepsOnly.isSome) then .ok ()
  else .error .assertion

/-- `fn` applied to a clip: closure.py:115-120 and 126-131 (`torch.stack` of an empty list raises;
calling `None` raises). -/
def applyClip (xs : List X) : Except Err (List Y) :=
  match c.fn with
  | none => .error .type
  | some (.clip g) => .ok (g xs)
  | some (.frame f) => if xs.isEmpty then .error .runtime else .ok (xs.map f)

/-- `forward`: closure.py:111-120. -/
def forward (xs : List X) : Except Err (List Y) :=
  match c.fwdOnly with
  | some g => .ok (g xs)
  | none => applyClip c xs

/-- `forward_steps`: closure.py:122-131. -/
def forwardSteps (xs : List X) : Except Err (List Y) :=
  match c.stepsOnly with
  | some g => .ok (g xs)
  | none => applyClip c xs

/-- `_forward_step`: closure.py:136-146 (the state is passed through). -/
def stepFn (x : X) : Except Err Y :=
  match c.stepOnly with
  | some f => .ok (f x)
  | none =>
    match c.fn with
    | none => .error .type
    | some (.frame f) => .ok (f x)
    | some (.clip g) => squeeze (g [x])

/-- `Lambda`: closure.py:21-146; geometry and state handling are the class defaults of `CoModule`
(module.py:114-116, 165-186). -/
@[reducible] def mod : CoMod (.stream X) (.stream Y) where
  Inst := Unit
  init := ()
  clean := id
  fwd := fun i xs => (forward c xs).map fun ys => (ys, i)
  step := fun i _ x => (stepFn c x).map fun y => (some y, i)
  steps := fun i _ _ xs => (forwardSteps c xs).map fun ys => (some ys, i)
  St := Unit
  pstep := fun x s => (stepFn c x).map fun y => (some y, s)
  rf := 1
  stride := 1
  padding := 0
  delay := 0

/-- `Multiply`/`Add`/`Identity`/`Constant`/`Zero`/`One`: closure.py:149-220.  All of them are
`Lambda(fn, takes_time=True)` with an element-wise tensor function, which acts on a clip frame by
frame. -/
def elementwise (f : X → Y) : Cfg X Y := { fn := some (.clip (List.map f)) }

end Lambda

namespace Pointwise

variable {X Y : Type} (f : X → Y)

/-- `Linear` (linear.py:79-97) and `Reshape` (shape.py:48-65): `forward`, `forward_step` and
`forward_steps` apply the same frame-wise function; the channel axis is not the time axis. -/
@[reducible] def mod : CoMod (.stream X) (.stream Y) where
  Inst := Unit
  init := ()
  clean := id
  fwd := fun i xs => .ok (xs.map f, i)
  step := fun i _ x => .ok (some (f x), i)
  steps := fun i _ _ xs => .ok (some (xs.map f), i)
  St := Unit
  pstep := fun x s => .ok (some (f x), s)
  rf := 1
  stride := 1
  padding := 0
  delay := 0

end Pointwise

namespace Stepping

variable {X Y : Type} (g : List X → Except Err (List Y)) (stride padding : Nat)

/-- `forward_stepping(module, dim=2)`: convert.py:38-114, where `g` is the original
`module.forward`.  `stride` and `padding` are taken from the wrapped module (90-91), `delay` is 0 and
`receptive_field` 1 (88-89).  The dispatch in `forward_with_callmode` (102-112) is the subject of
`Verif.Model.CallMode`. -/
@[reducible] def mod : CoMod (.stream X) (.stream Y) where
  Inst := Unit
  init := ()
  clean := id
  fwd := fun i xs => (g xs).map fun ys => (ys, i)
  step := fun i _ x => do let ys ← g [x]; let y ← squeeze ys; return (some y, i)
  steps := fun i _ _ xs => (g xs).map fun ys => (some ys, i)
  St := Unit
  pstep := fun x s => do let ys ← g [x]; let y ← squeeze ys; return (some y, s)
  rf := 1
  stride := stride
  padding := padding
  delay := 0

end Stepping

end CoInf
