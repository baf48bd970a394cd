/-
Parallel streams as separate modules: `Broadcast`, `Parallel`, `ParallelDispatch` and `Reduce` of
/repo/continual/container.py, and the builder `Residual`.
-/
import Verif.Model.Broadcast

set_option autoImplicit false

namespace CoInf

/-- Several parallel streams: a Python list with one entry per stream, each of them possibly `None`. -/
abbrev Sig.multi (X : Type) : Sig := ⟨List (Option X), List (Option (List X))⟩

namespace Broadcast

/-- `forward`: container.py:189-193 (also used by the other modes, 195-202).  `num_streams` may be unknown. -/
def out {α : Type} (n : Option Nat) (x : α) : Except Err (List (Option α)) :=
  match n with
  | none => .error .assertion
  | some n => .ok (List.replicate n (some x))

/-- `Broadcast`: container.py:145-202; geometry and state handling are the class defaults. -/
@[reducible] def mod (X : Type) (n : Option Nat) : CoMod (.stream X) (.multi X) where
  Inst := Unit
  init := ()
  clean := id
  fwd := fun i xs => (out n xs).map fun o => (o, i)
  step := fun i _ x => (out n x).map fun o => (some o, i)
  steps := fun i _ _ xs => (out n xs).map fun o => (some o, i)
  St := Unit
  pstep := fun x s => (out n x).map fun o => (some o, s)
  rf := 1
  stride := 1
  padding := 0
  delay := 0

end Broadcast

namespace Parallel
variable {X Y : Type}

/-- `inputs[i]` as argument of a child: a missing entry raises `IndexError`; calling the child with
`None` raises inside of the child. -/
def arg {α : Type} : List (Option α) → Except Err α
  | [] => .error .index
  | none :: _ => .error .type
  | some a :: _ => .ok a

/-- `forward`: container.py:342-347. -/
def fwd : (ms : List (CoMod (.stream X) (.stream Y))) → BroadcastReduce.Inst ms → List (Option (List X)) →
    Except Err (List (Option (List Y)) × BroadcastReduce.Inst ms)
  | [], i, _ => .ok ([], i)
  | m :: ms, i, xs => do
    let x ← arg xs
    let (y, i1) ← m.fwd i.1 x
    let (ys, i2) ← fwd ms i.2 xs.tail
    return (some y :: ys, (i1, i2))

/-- `forward_step`: container.py:326-331. -/
def step : (ms : List (CoMod (.stream X) (.stream Y))) → BroadcastReduce.Inst ms → Bool → List (Option X) →
    Except Err (List (Option Y) × BroadcastReduce.Inst ms)
  | [], i, _, _ => .ok ([], i)
  | m :: ms, i, u, xs => do
    let x ← arg xs
    let (o, i1) ← m.step i.1 u x
    let (os, i2) ← step ms i.2 u xs.tail
    return (o :: os, (i1, i2))

/-- `forward_steps`: container.py:333-340. -/
def steps : (ms : List (CoMod (.stream X) (.stream Y))) → BroadcastReduce.Inst ms → (padEnd upd : Bool) →
    List (Option (List X)) → Except Err (List (Option (List Y)) × BroadcastReduce.Inst ms)
  | [], i, _, _, _ => .ok ([], i)
  | m :: ms, i, p, u, xs => do
    let x ← arg xs
    let (o, i1) ← m.steps i.1 p u x
    let (os, i2) ← steps ms i.2 p u xs.tail
    return (o :: os, (i1, i2))

/-- The loop of `_forward_step`: container.py:315-324. -/
def pstepAll : (ms : List (CoMod (.stream X) (.stream Y))) → List (Option X) → BroadcastReduce.St ms →
    Except Err (List (Option Y) × BroadcastReduce.St ms)
  | [], _, s => .ok ([], s)
  | m :: ms, xs, s => do
    let x ← arg xs
    let (o, s1) ← m.pstep x s.1
    let (os, s2) ← pstepAll ms xs.tail s.2
    return (o :: os, (s1, s2))

variable (ms : List (CoMod (.stream X) (.stream Y)))

/-- `Parallel` with its members as they are after construction: container.py:205-368. The result of
`forward_step` is always a list, never `None`. -/
@[reducible] def mod : CoMod (.multi X) (.multi Y) where
  Inst := BroadcastReduce.Inst ms
  init := BroadcastReduce.init ms
  clean := BroadcastReduce.clean ms
  fwd := fwd ms
  step := fun i u xs => do
    let (os, i') ← step ms i u xs
    return (some os, i')
  steps := fun i p u xs => do
    let (os, i') ← steps ms i p u xs
    return (some os, i')
  St := BroadcastReduce.St ms
  pstep := fun xs s => do
    let (os, s') ← pstepAll ms xs (s.getD (BroadcastReduce.noneSt ms))
    return (some os, some s')
  rf := ms.foldl (fun a m => max a m.rf) 0
  stride := match ms with
    | [] => 1
    | m :: _ => m.stride
  padding := ms.foldl (fun a m => max a m.padding) 0
  delay := BroadcastReduce.maxDelay ms

/-- The constructor: container.py:259-302 (`max` of an empty sequence raises; equal strides are asserted).
`auto_delay` is the same code as in `BroadcastReduce`. -/
def make (fill : Y → Y) (auto : Bool) (ms : List (CoMod (.stream X) (.stream Y))) :
    Except Err (CoMod (.multi X) (.multi Y)) :=
  if ms = [] then .error .assertion
  else
    let ms' := BroadcastReduce.autoDelay fill auto ms
    if ms'.all fun m => m.stride = (mod ms').stride then .ok (mod ms') else .error .assertion

end Parallel

namespace Reduce
variable {Y Z : Type} (r : Reducer Y Z)

/-- `Reduce`: container.py:487-555.  All modes apply the `nonempty`-wrapped function; `_forward_step`'s own
test for tensors (546-549) agrees with that wrapper.  `forward` would pass `None` on; as no module returns
`None` from `forward`, this is modelled as an error. -/
@[reducible] def mod : CoMod (.multi Y) (.stream Z) where
  Inst := Unit
  init := ()
  clean := id
  fwd := fun i cs => do
    let o ← nonempty r.clip cs
    match o with
    | some z => .ok (z, i)
    | none => .error .type
  step := fun i _ xs => (nonempty r.frame xs).map fun o => (o, i)
  steps := fun i _ _ cs => (nonempty r.clip cs).map fun o => (o, i)
  St := Unit
  pstep := fun xs s => (nonempty r.frame xs).map fun o => (o, s)
  rf := 1
  stride := 1
  padding := 0
  delay := 0

end Reduce

namespace Dispatch

/-- `dispatch_mapping`: container.py:443-461.  A stream id or a sequence of mappings. -/
inductive Mapping where
  | id (i : Int)
  | group (ms : List Mapping)

/-- Output of a dispatch: an input stream or a (nested) list of them. -/
inductive Routed (α : Type) where
  | one (a : α)
  | many (l : List (Routed α))

variable {α : Type}

mutual
/-- `dispatch`: container.py:464-469. -/
def dispatch (input : List α) : Mapping → Except Err (Routed α)
  | .id i => (pyGet input i).map .one
  | .group ms => (dispatchAll input ms).map .many

/-- The list comprehension of container.py:467. -/
def dispatchAll (input : List α) : List Mapping → Except Err (List (Routed α))
  | [] => .ok []
  | m :: ms => do
    let r ← dispatch input m
    let rs ← dispatchAll input ms
    return r :: rs
end

/-- `forward`, `forward_step`, `forward_steps` and the output of `_forward_step`: container.py:463-484. -/
def forward (mapping : List Mapping) (input : List α) : Except Err (List (Routed α)) :=
  dispatchAll input mapping

end Dispatch

namespace Residual

/-- Values of `residual_shrink`: container.py:927, 945-949. -/
inductive Mode where
  | off        -- `False`
  | on         -- `True`
  | centered   -- `"centered"`
  | lagging    -- `"lagging"`
  | leading    -- `"leading"`
  deriving DecidableEq, Repr

/-- `residual_shrink` as passed on to `Delay(auto_shrink=...)`: container.py:972. (`"leading"` is not.) -/
def Mode.toShrink : Mode → Shrink
  | .off => .off
  | .on => .on
  | .centered => .centered
  | .lagging => .lagging
  | .leading => .off

variable {X Z : Type}

/-- The effective `residual_shrink`: container.py:961-963. -/
def effective (sh : Mode) (m : CoMod (.stream X) (.stream X)) : Mode :=
  if (m.rf : Int) - m.padding * 2 = 1 then .off else sh

/-- The effective delay: container.py:960, 965-967. -/
def halved (sh : Mode) (d : Int) : Except Err Int :=
  if sh = .on ∨ sh = .centered then
    if d % 2 = 0 then .ok (d / 2) else .error .assertion
  else .ok d

/-- The residual branch: container.py:969-972, with the assertions of the constructors (skip.py:29,
delay.py:52). -/
def branch (fill : X → X) (sh : Mode) (d : Int) : Except Err (CoMod (.stream X) (.stream X)) :=
  if sh = .leading then
    if d > 0 then .ok (Skip.mod d.toNat X) else .error .assertion
  else
    if d ≥ 0 then .ok (Delay.mod { d := d.toNat, fill := fill, shrink := sh.toShrink }) else .error .assertion

/-- `Residual`: container.py:923-979.  `fill` is the resolved `temporal_fill`. -/
def make (fill : X → X) (r : Reducer X Z) (sh : Mode) (m : CoMod (.stream X) (.stream X)) :
    Except Err (CoMod (.stream X) (.stream Z)) :=
  if m.stride ≠ 1 then .error .assertion
  else match halved (effective sh m) m.delay with
    | .error e => .error e
    | .ok d => match branch fill (effective sh m) d with
      | .error e => .error e
      | .ok res => BroadcastReduce.make fill false r [res, m]

end Residual

end CoInf
