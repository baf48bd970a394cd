/-
Model of /repo/continual/delay.py and /repo/continual/skip.py.
-/
import Verif.Model.Core

namespace CoInf

/-- `PaddingMode` values `zeros` and `replicate` as functions on frames:
`torch.zeros_like` / `torch.clone` (delay.py:57-59, conv.py:104-107). -/
inductive Fill where
  | zeros
  | replicate
  deriving DecidableEq, Repr

/-- `_make_padding` for the two modes. -/
def Fill.make {X : Type} (zero : X) : Fill → X → X
  | .zeros, _ => zero
  | .replicate, x => x

/-- Values of `Delay.auto_shrink`: delay.py:50, 54-55. -/
inductive Shrink where
  | off       -- `False`
  | on        -- `True`
  | centered  -- `"centered"`
  | lagging   -- `"lagging"`
  deriving DecidableEq, Repr

namespace Delay

/-- Constructor arguments of `Delay`: delay.py:46-63.  `fill` is `_make_padding` on frames. -/
structure Cfg (X : Type) where
  d : Nat
  fill : X → X
  shrink : Shrink := .off

variable {X : Type} (c : Cfg X)

/-- State tuple `(state_buffer, state_index)`: delay.py:9. -/
abbrev St (X : Type) := List X × Int

/-- `init_state`: delay.py:65-76. -/
def initState (x : X) : St X :=
  (List.replicate c.d (c.fill x), if c.shrink = .on then -2 * (c.d : Int) else -(c.d : Int))

/-- `_forward_step`: delay.py:90-111. -/
def pstep (x : X) (s : Option (St X)) : Except Err (Option X × Option (St X)) :=
  if c.d = 0 then .ok (some x, s)
  else do
    let (buffer, index) := match s with
      | some st => st
      | none => initState c x
    let output ← if index ≥ 0 then (pyGet buffer index).map some else .ok none
    let buffer' ← pySet buffer (index % c.d) x
    let newIndex := index + 1
    let newIndex := if newIndex > 0 then newIndex % c.d else newIndex
    return (output, some (buffer', newIndex))

/-- The parts of `Delay` used by the base-class loops: delay.py:62-63 (attributes), 78-88
(`clean_state`, `get_state`, `set_state`), 123 (`padding` is temporarily `(delay,)`). -/
@[reducible] def leaf : Leaf X X where
  Inst := St X
  St := St X
  init := ([], 0)
  clean := fun _ => ([], 0)
  get := fun i => if i.1.length > 0 then some i else none
  set := fun st _ => st
  pstep := pstep c
  padding := c.d
  makePad := c.fill

/-- `forward`: delay.py:128-134 (Python slices `[: -d]` and `[d : -d]`). -/
def forward (xs : List X) : List X :=
  if c.shrink = .off ∨ c.d = 0 then xs
  else if c.shrink = .lagging then xs.take (xs.length - c.d)
  else (xs.take (xs.length - c.d)).drop c.d

/-- `Delay`: delay.py:14-150 (`forward_step` 113-117, `forward_steps` 119-126, geometry 136-146;
`padding` is the class attribute `(0,)` of `CoModule`). -/
@[reducible] def mod : CoMod (.stream X) (.stream X) where
  Inst := St X
  init := (leaf c).init
  clean := (leaf c).clean
  fwd := fun i xs => .ok (forward c xs, i)
  step := fun i u x => if c.d = 0 then .ok (some x, i) else (leaf c).forwardStep i u x
  steps := fun i p u xs => if c.d = 0 then .ok (some xs, i) else (leaf c).forwardSteps i p u xs
  St := St X
  pstep := pstep c
  rf := c.d + 1
  stride := 1
  padding := 0
  delay := c.d

end Delay

namespace Skip

variable {X : Type} (n : Nat)

/-- `_forward_step`: skip.py:44-57.  The state is the one-tuple `(state_index,)`. -/
def pstep (x : X) (s : Option Int) : Except Err (Option X × Option Int) :=
  let index := match s with
    | some i => i
    | none => -(n : Int)
  if index ≥ 0 then .ok (some x, some index)
  else .ok (none, some (index + 1))

/-- State handling of `Skip`: skip.py:33-42.  `get_state` never returns `None`; `padding` is `(0,)`;
`_make_padding` (`zeros_like`) is never used because there is no padding. -/
@[reducible] def leaf (X : Type) : Leaf X X where
  Inst := Int
  St := Int
  init := -(n : Int)
  clean := fun _ => -(n : Int)
  get := fun i => some i
  set := fun st _ => st
  pstep := pstep n
  padding := 0
  makePad := id

/-- `Skip`: skip.py:13-75 (`forward` is the slice `input[:, :, steps:]`). -/
@[reducible] def mod (X : Type) : CoMod (.stream X) (.stream X) where
  Inst := Int
  init := (leaf n X).init
  clean := (leaf n X).clean
  fwd := fun i xs => .ok (xs.drop n, i)
  step := (leaf n X).forwardStep
  steps := (leaf n X).forwardSteps
  St := Int
  pstep := pstep n
  rf := 1
  stride := 1
  padding := 0
  delay := 0

end Skip

end CoInf
