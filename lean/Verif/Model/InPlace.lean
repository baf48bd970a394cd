/-
Networks with in-place members (`nn.ReLU(inplace=True)`, `nn.Dropout(inplace=True)`, ...): which tensors are shared, and
what a write into one of them does to the others.

The other models treat tensors that are passed between members as values.  Here they live in a memory.  A tensor is a
frame in `forward_step` and a clip in `forward` and `forward_steps`; the states of the members are values (what in-place
writes into *state* tensors do is the subject of `Verif.Model.Heap`).

Simplifications: one type of frames (an in-place member keeps shape and type); binary containers (nested ones give the
others); delays without `auto_shrink` (whose `forward` returns a view of its input).
-/
import Verif.Model.Broadcast
import Verif.Model.Closure
import Verif.Spec.Observe

set_option autoImplicit false

namespace CoInf.InPlace

/-- The public calls. -/
inductive Mode
  | forward
  | step (upd : Bool)
  | steps (padEnd upd : Bool)
deriving DecidableEq

/-- What a tensor is in a call. -/
@[reducible] def Mode.Tensor (X : Type) : Mode → Type
  | .forward => List X
  | .step _ => X
  | .steps _ _ => List X

/-- The method of a module that a call runs. -/
def run {X : Type} (M : CoMod (.stream X) (.stream X)) :
    (m : Mode) → M.Inst → m.Tensor X → Except Err (Option (m.Tensor X) × M.Inst)
  | .forward, i, x => (M.fwd i x).map fun r => (some r.1, r.2)
  | .step u, i, x => M.step i u x
  | .steps p u, i, x => M.steps i p u x

/-- The reduction of two tensors. -/
def reduce {X : Type} (op : X → X → X) : (m : Mode) → m.Tensor X → m.Tensor X → Except Err (m.Tensor X)
  | .forward, a, b => (foldReducer op).clip [a, b]
  | .step _, a, b => (foldReducer op).frame [a, b]
  | .steps _ _, a, b => (foldReducer op).clip [a, b]

/-- An element-wise function on a tensor. -/
def onTensor {X : Type} (f : X → X) : (m : Mode) → m.Tensor X → m.Tensor X
  | .forward, x => x.map f
  | .step _, x => f x
  | .steps _ _, x => x.map f

/-- Networks.
* `module M`: a module that reads its input and returns a new tensor: convolutions (conv.py), pooling (pooling.py),
  `Linear`, recurrent modules, layers of torch that are not in-place.
* `inplace f`: an element-wise layer of torch with `inplace=True`, wrapped by `forward_stepping` (convert.py:38-114).  The
  wrapper passes its input or a view of it (`unsqueeze`, convert.py:56, 63, 71) and returns a view of the result.
* `delay d fill`: delay.py.
* `seq`, `reduce`: container.py:633-677 and 871-896. -/
inductive Net (X : Type) : Type 1
  | module (M : CoMod (.stream X) (.stream X))
  | inplace (f : X → X)
  | delay (d : Nat) (fill : X → X)
  | seq (a b : Net X)
  | reduce (op : X → X → X) (a b : Net X)

variable {X : Type}

/-- The network with tensors as values: the models of the other files. -/
@[reducible] def Net.pure : Net X → CoMod (.stream X) (.stream X)
  | .module M => M
  | .inplace f => Pointwise.mod f
  | .delay d fill => Delay.mod { d := d, fill := fill }
  | .seq a b => Sequential.mod (.cons a.pure (.single b.pure))
  | .reduce op a b => BroadcastReduce.mod (foldReducer op) [a.pure, b.pure]

/-- A member that reads the tensor at `x` and puts its output into a new one. -/
def fresh {V I : Type} (r : Except Err (Option V × I)) (h : List V) : Except Err (Option Nat × I × List V) :=
  match r with
  | .error e => .error e
  | .ok (none, i) => .ok (none, i, h)
  | .ok (some y, i) => .ok (some h.length, i, h ++ [y])

/-- A call of the network on the tensor at address `x`: address of the output tensor, states, memory.
* `Delay.forward` returns its input (delay.py:128-131), so do all methods of `Delay(0)` (delay.py:90-91, 113-120); otherwise
  the frame is copied into the buffer and a copy is returned (delay.py:99-106).
* `seq` hands over the tensor; `reduce` hands the same tensor to both members and reads both outputs in the end. -/
def call : (n : Net X) → (m : Mode) → n.pure.Inst → Nat → List (m.Tensor X) →
    Except Err (Option Nat × n.pure.Inst × List (m.Tensor X))
  | .module M, m, i, x, h =>
    match h[x]? with
    | none => .error .runtime
    | some v => fresh (run M m i v) h
  | .inplace f, m, i, x, h =>
    match h[x]? with
    | none => .error .runtime
    | some v => .ok (some x, i, h.set x (onTensor f m v))
  | .delay d fill, m, i, x, h =>
    if d = 0 ∨ m = .forward then .ok (some x, i, h)
    else match h[x]? with
      | none => .error .runtime
      | some v => fresh (run (Delay.mod { d := d, fill := fill }) m i v) h
  | .seq a b, m, i, x, h =>
    match call a m i.1 x h with
    | .error e => .error e
    | .ok (none, i1, h) => .ok (none, (i1, i.2), h)
    | .ok (some y, i1, h) =>
      match call b m i.2 y h with
      | .error e => .error e
      | .ok (o, i2, h) => .ok (o, (i1, i2), h)
  | .reduce op a b, m, i, x, h =>
    match call a m i.1 x h with
    | .error e => .error e
    | .ok (o1, i1, h) =>
      match call b m i.2.1 x h with
      | .error e => .error e
      | .ok (o2, i2, h) =>
        match o1, o2 with
        | some y1, some y2 =>
          match h[y1]?, h[y2]? with
          | some v1, some v2 =>
            match InPlace.reduce op m v1 v2 with
            | .error e => .error e
            | .ok z => .ok (some h.length, (i1, i2, ()), h ++ [z])
          | _, _ => .error .runtime
        | _, _ => .ok (none, (i1, i2, ()), h)

/-- What the caller reads after a call: the output tensor. -/
def read {V I : Type} : Except Err (Option Nat × I × List V) → Except Err (Option V × I)
  | .error e => .error e
  | .ok (none, i, _) => .ok (none, i)
  | .ok (some q, i, h) =>
    match h[q]? with
    | none => .error .runtime
    | some y => .ok (some y, i)

/-- A public call on a tensor that the caller made for it. -/
def exec (n : Net X) (i : n.pure.Inst) : Spec.Call (.stream X) → Except Err (Spec.CallRes (.stream X) × n.pure.Inst)
  | .step u x => (read (call n (.step u) i 0 [x])).map fun p => (.frame p.1, p.2)
  | .steps p u xs => (read (call n (.steps p u) i 0 [xs])).map fun p => (.clip p.1, p.2)
  | .clean => .ok (.done, n.pure.clean i)
  | .fwd xs =>
    match read (call n .forward i 0 [xs]) with
    | .error e => .error e
    | .ok (none, _) => .error .type
    | .ok (some ys, i') => .ok (.whole ys, i')

/-- A script of calls up to the first exception, as `Spec.calls`. -/
def session (n : Net X) (i : n.pure.Inst) :
    List (Spec.Call (.stream X)) → List (Spec.CallRes (.stream X)) × Option n.pure.Inst
  | [] => ([], some i)
  | c :: cs => match exec n i c with
    | .error e => ([.raised e], none)
    | .ok (r, i') => (r :: (session n i' cs).1, (session n i' cs).2)

end CoInf.InPlace
