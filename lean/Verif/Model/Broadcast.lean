/-
Parallel containers of /repo/continual/container.py: `BroadcastReduce`, `Broadcast`, `Parallel`,
`ParallelDispatch`, `Reduce` and the builder `Residual`.
-/
import Verif.Model.Container

namespace CoInf

/-! ### Reductions -/

/-- A reduction function, applied to the list of parallel frames or of parallel clips.
(One Python callable; the two fields describe it on tensors without and with a time axis.) -/
structure Reducer (Y Z : Type) where
  frame : List Y → Except Err Z
  clip : List (List Y) → Except Err (List Z)

/-- An element-wise binary tensor operator on clips, with torch's broadcasting of the time axis. -/
def bcast2 {Y : Type} (op : Y → Y → Y) (a b : List Y) : Except Err (List Y) :=
  if a.length = b.length then .ok (List.zipWith op a b)
  else match a, b with
    | [x], b => .ok (b.map fun y => op x y)
    | a, [y] => .ok (a.map fun x => op x y)
    | _, _ => .error .runtime

/-- `reduce_sum`, `reduce_mul`, `reduce_max`: container.py:64-66, 81-96. -/
def foldReducer {Y : Type} (op : Y → Y → Y) : Reducer Y Y where
  frame := fun ys =>
    match ys with
    | y :: y' :: rest => .ok ((y' :: rest).foldl op y)
    | _ => .error .assertion
  clip := fun cs =>
    match cs with
    | c :: c' :: rest => (c' :: rest).foldlM (bcast2 op) c
    | _ => .error .assertion

/-- The `t`-th frame of each clip. -/
def column {Y : Type} (cs : List (List Y)) (t : Nat) : List Y := cs.filterMap fun c => c[t]?

/-- `reduce_concat`: container.py:69-78, where `cat` is channel concatenation of frames; `torch.cat`
raises for an empty list and for clips of different length. -/
def catReducer {Y Z : Type} (cat : List Y → Z) : Reducer Y Z where
  frame := fun ys => if ys.isEmpty then .error .runtime else .ok (cat ys)
  clip := fun cs =>
    match cs with
    | [] => .error .runtime
    | c :: rest =>
      if rest.all fun c' => c'.length = c.length then
        .ok ((List.range c.length).map fun t => cat (column cs t))
      else .error .runtime

/-- All entries if none of them is `None`. -/
def allSome {α : Type} : List (Option α) → Option (List α)
  | [] => some []
  | none :: _ => none
  | some a :: l => (allSome l).map (a :: ·)

/-- `nonempty(fn)`: container.py:99-106 (`None` if an input is `None`). -/
def nonempty {α β : Type} (fn : List α → Except Err β) (inputs : List (Option α)) :
    Except Err (Option β) :=
  match allSome inputs with
  | none => .ok none
  | some l => (fn l).map some

/-! ### BroadcastReduce -/

namespace BroadcastReduce
variable {X Y Z : Type}

/-- Attributes of the members. -/
@[reducible] def Inst : List (CoMod (.stream X) (.stream Y)) → Type
  | [] => Unit
  | m :: ms => m.Inst × Inst ms

/-- State list of `_forward_step`. -/
@[reducible] def St : List (CoMod (.stream X) (.stream Y)) → Type
  | [] => Unit
  | m :: ms => Option m.St × St ms

/-- The members after construction. -/
def init : (ms : List (CoMod (.stream X) (.stream Y))) → Inst ms
  | [] => ()
  | m :: ms => (m.init, init ms)

/-- `clean_state`: container.py:914-917. -/
def clean : (ms : List (CoMod (.stream X) (.stream Y))) → Inst ms → Inst ms
  | [], i => i
  | m :: ms, i => (m.clean i.1, clean ms i.2)

/-- The loop of `forward`: container.py:891-894. -/
def fwdAll : (ms : List (CoMod (.stream X) (.stream Y))) → Inst ms → List X →
    Except Err (List (List Y) × Inst ms)
  | [], i, _ => .ok ([], i)
  | m :: ms, i, x => do
    let (y, i1) ← m.fwd i.1 x
    let (ys, i2) ← fwdAll ms i.2 x
    return (y :: ys, (i1, i2))

/-- The loop of `forward_step`: container.py:872-875. -/
def stepAll : (ms : List (CoMod (.stream X) (.stream Y))) → Inst ms → Bool → X →
    Except Err (List (Option Y) × Inst ms)
  | [], i, _, _ => .ok ([], i)
  | m :: ms, i, u, x => do
    let (o, i1) ← m.step i.1 u x
    let (os, i2) ← stepAll ms i.2 u x
    return (o :: os, (i1, i2))

/-- The loop of `forward_steps`: container.py:882-886. -/
def stepsAll : (ms : List (CoMod (.stream X) (.stream Y))) → Inst ms → (padEnd upd : Bool) →
    List X → Except Err (List (Option (List Y)) × Inst ms)
  | [], i, _, _, _ => .ok ([], i)
  | m :: ms, i, p, u, x => do
    let (o, i1) ← m.steps i.1 p u x
    let (os, i2) ← stepsAll ms i.2 p u x
    return (o :: os, (i1, i2))

/-- `[None for _ in range(len(self))]`: container.py:860. -/
def noneSt : (ms : List (CoMod (.stream X) (.stream Y))) → St ms
  | [] => ()
  | _ :: ms => (none, noneSt ms)

/-- The loop of `_forward_step`: container.py:863-866. -/
def pstepAll : (ms : List (CoMod (.stream X) (.stream Y))) → X → St ms →
    Except Err (List (Option Y) × St ms)
  | [], _, s => .ok ([], s)
  | m :: ms, x, s => do
    let (o, s1) ← m.pstep x s.1
    let (os, s2) ← pstepAll ms x s.2
    return (o :: os, (s1, s2))

variable (r : Reducer Y Z) (ms : List (CoMod (.stream X) (.stream Y)))

/-- `_forward_step`: container.py:859-869. -/
def pstep (x : X) (s : Option (St ms)) : Except Err (Option Z × Option (St ms)) := do
  let (os, s') ← pstepAll ms x (s.getD (noneSt ms))
  let o ← nonempty r.frame os
  return (o, some s')

/-- `forward_step`: container.py:871-879. -/
def step (i : Inst ms) (u : Bool) (x : X) : Except Err (Option Z × Inst ms) := do
  let (os, i') ← stepAll ms i u x
  let o ← nonempty r.frame os
  return (o, i')

/-- `forward_steps`: container.py:881-888. -/
def steps (i : Inst ms) (p u : Bool) (x : List X) : Except Err (Option (List Z) × Inst ms) := do
  let (os, i') ← stepsAll ms i p u x
  let o ← nonempty r.clip os
  return (o, i')

/-- `forward`: container.py:890-896. -/
def fwd (i : Inst ms) (x : List X) : Except Err (List Z × Inst ms) := do
  let (os, i') ← fwdAll ms i x
  let o ← r.clip os
  return (o, i')

/-- Maximum of a list of delays (`max` of a non-empty Python list). -/
def maxDelay (ms : List (CoMod (.stream X) (.stream Y))) : Int :=
  match ms with
  | [] => 0
  | m :: ms => ms.foldl (fun a m => max a m.delay) m.delay

/-- `BroadcastReduce` with its members as they are after construction: container.py:729-920
(geometry 848-912). -/
@[reducible] def mod : CoMod (.stream X) (.stream Z) where
  Inst := Inst ms
  init := init ms
  clean := clean ms
  fwd := fwd r ms
  step := step r ms
  steps := steps r ms
  St := St ms
  pstep := pstep r ms
  rf := ms.foldl (fun a m => max a m.rf) 0
  stride := match ms with
    | [] => 1
    | m :: _ => m.stride
  padding := ms.foldl (fun a m => max a m.padding) 0
  delay := maxDelay ms

/-- One member after `auto_delay`: container.py:812-821
(`Sequential(module, Delay(max_delay - module.delay)) if module.delay < max_delay else module`). -/
def delayTo (fill : Y → Y) (d : Int) (m : CoMod (.stream X) (.stream Y)) :
    CoMod (.stream X) (.stream Y) :=
  if m.delay < d then
    Sequential.mod (.cons m (.single (Delay.mod { d := (d - m.delay).toNat, fill := fill })))
  else m

/-- The members after `auto_delay`: container.py:809-822. -/
def autoDelay (fill : Y → Y) (auto : Bool) (ms : List (CoMod (.stream X) (.stream Y))) :
    List (CoMod (.stream X) (.stream Y)) :=
  if auto then ms.map (delayTo fill (maxDelay ms)) else ms

/-- The constructor: container.py:792-849.  `fill` is the fill of the added delays
(`Delay(n)` uses zeros). -/
def make (fill : Y → Y) (auto : Bool) (r : Reducer Y Z) (ms : List (CoMod (.stream X) (.stream Y))) :
    Except Err (CoMod (.stream X) (.stream Z)) :=
  if ms.length ≤ 1 then .error .assertion
  else
    let ms' := autoDelay fill auto ms
    if ms'.all fun m => m.stride = (mod r ms').stride then .ok (mod r ms')
    else .error .assertion

end BroadcastReduce

end CoInf
