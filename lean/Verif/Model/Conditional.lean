/-
`Conditional` of /repo/continual/container.py.
-/
import Verif.Model.Broadcast

set_option autoImplicit false

namespace CoInf.Conditional
variable {X : Type}

/-- The predicate: one Python callable, applied to a frame (`forward_step`) or to a clip (`forward`,
`forward_steps`).  Its first argument, the module itself, is left out: the model's predicates depend on the input only. -/
structure Pred (X : Type) where
  frame : X → Bool
  clip : List X → Bool

/-- A branch with the delay prepended that makes it as slow as the slower branch: container.py:1026-1039
(`branch if branch.delay == d else Sequential(Delay(d - branch.delay), branch)`; the delay is filled with zeros). -/
def align (zero : X) (d : Int) (m : CoMod (.stream X) (.stream X)) : CoMod (.stream X) (.stream X) :=
  if m.delay = d then m
  else Sequential.mod (.cons (Delay.mod { d := (d - m.delay).toNat, fill := fun _ => zero }) (.single m))

/-- `max(on_true.delay, getattr(on_false, "delay", 0))`: container.py:1021. -/
def delayOf (a : CoMod (.stream X) (.stream X)) (b : Option (CoMod (.stream X) (.stream X))) : Int :=
  max a.delay (match b with
    | some b => b.delay
    | none => 0)

/-- What `_forward_step` hands back as state: the state of the branch that ran (1059, 1061), or the list of two states
it was given (1062). -/
inductive CSt (A B : Type) where
  | ofTrue (s : A)
  | ofFalse (s : B)
  | both (s : Option A) (t : Option B)

/-- `prev_state or [None, None]`, subscripted with 0 resp. 1: container.py:1058-1060.  Subscripting the state tuple of a
branch gives one of its components (a tensor), with which the branch cannot continue; modelled as an exception.
(In the code this depends on the tensor's shape: unpacking it into a pair raises unless its first axis has length two.) -/
def prevTrue {A B : Type} : Option (CSt A B) → Except Err (Option A)
  | none => .ok none
  | some (.both s _) => .ok s
  | some _ => .error .type

/-- The same for the alternative branch, `(prev_state or [None, None])[1]`: container.py:1058, 1062. -/
def prevFalse {A B : Type} : Option (CSt A B) → Except Err (Option B)
  | none => .ok none
  | some (.both _ t) => .ok t
  | some _ => .error .type

/-- `Conditional(p, a, b)` with the members as they are after construction; `stride`, `padding`, `get_state`, `set_state`
and `clean_state` are the class defaults of `CoModule` (module.py:114-116, 165-186: `clean_state` does nothing).
`forward` 1041-1046, `forward_step` 1048-1053, `_forward_step` 1055-1063, `forward_steps` 1065-1070 (the flags are not
passed on).  `rf` is the maximum of the receptive fields (1022-1024); `delay` and
`receptive_field` are those stored by the constructor (1080-1086). -/
@[reducible] def both (p : Pred X) (a b : CoMod (.stream X) (.stream X)) (rf : Nat) (d : Int) :
    CoMod (.stream X) (.stream X) where
  Inst := a.Inst × b.Inst
  init := (a.init, b.init)
  clean := id
  fwd := fun i xs => if p.clip xs then (a.fwd i.1 xs).map fun q => (q.1, (q.2, i.2))
    else (b.fwd i.2 xs).map fun q => (q.1, (i.1, q.2))
  step := fun i u x => if p.frame x then (a.step i.1 u x).map fun q => (q.1, (q.2, i.2))
    else (b.step i.2 u x).map fun q => (q.1, (i.1, q.2))
  steps := fun i _ _ xs => if p.clip xs then (a.steps i.1 false true xs).map fun q => (q.1, (q.2, i.2))
    else (b.steps i.2 false true xs).map fun q => (q.1, (i.1, q.2))
  St := CSt a.St b.St
  pstep := fun x s => if p.frame x then
      match prevTrue s with
      | .error e => .error e
      | .ok s => (a.pstep x s).map fun q => (q.1, q.2.map .ofTrue)
    else
      match prevFalse s with
      | .error e => .error e
      | .ok s => (b.pstep x s).map fun q => (q.1, q.2.map .ofFalse)
  rf := rf
  stride := 1
  padding := 0
  delay := d

/-- `Conditional(p, a)` without an alternative: the input is returned unchanged and undelayed if the predicate is false
(1046, 1053, 1062, 1070). -/
@[reducible] def only (p : Pred X) (a : CoMod (.stream X) (.stream X)) (rf : Nat) (d : Int) :
    CoMod (.stream X) (.stream X) where
  Inst := a.Inst
  init := a.init
  clean := id
  fwd := fun i xs => if p.clip xs then a.fwd i xs else .ok (xs, i)
  step := fun i u x => if p.frame x then a.step i u x else .ok (some x, i)
  steps := fun i _ _ xs => if p.clip xs then a.steps i false true xs else .ok (some xs, i)
  St := CSt a.St Unit
  pstep := fun x s => if p.frame x then
      match prevTrue s with
      | .error e => .error e
      | .ok s => (a.pstep x s).map fun q => (q.1, q.2.map .ofTrue)
    else .ok (some x, some (s.getD (.both none none)))
  rf := rf
  stride := 1
  padding := 0
  delay := d

/-- The constructor: container.py:1002-1039. -/
@[reducible] def make (zero : X) (p : Pred X) (a : CoMod (.stream X) (.stream X)) (b : Option (CoMod (.stream X) (.stream X))) :
    CoMod (.stream X) (.stream X) :=
  match b with
  | some b => both p (align zero (delayOf a (some b)) a) (align zero (delayOf a (some b)) b) (max a.rf b.rf)
      (delayOf a (some b))
  | none => only p (align zero (delayOf a none) a) (max a.rf 1) (delayOf a none)

end CoInf.Conditional
