/-
Threads: several networks are used at the same time, and the context `co.call_mode` is one object for the whole process
(/repo/continual/module.py:57-92, 347; /repo/continual/convert.py:103-107).

A thread is an arbitrary sequential program over its own data, which include its own modules with all their attributes;
no module is used by two threads.  What threads share is the context.

Simplification: `co.call_mode(value)` (module.py:79-82), `__exit__` (87-89) and each evaluation of
`call_mode.cur if call_mode.prev is not None else self.call_mode` (348) are taken to be atomic.
-/
import Verif.Model.CallMode

set_option autoImplicit false

namespace CoInf.Threads
open CallMode

/-- What a thread does next: enter a block, leave it, or something that depends on the context only through the mode that
is in effect for a module with its own mode (`effective`), and that changes only its own data. -/
inductive Op (S : Type) where
  | enter (m : Mode) (next : S)
  | leave (next : S)
  | act (f : (MV → Option MV) → S)

/-- A thread: its next operation depends on its data; `none` if it has ended. -/
structure Thread where
  S : Type
  init : S
  next : S → Option (Op S)

variable {ι : Type} [DecidableEq ι]

/-- One operation of one thread. -/
def Thread.step (T : Thread) (g : Ctx) (s : T.S) : Ctx × T.S :=
  match T.next s with
  | none => (g, s)
  | some (.enter m s') => ((g.enter (.val (.str m))).1, s')
  | some (.leave s') => (g.exit, s')
  | some (.act f) => (g, f (effective g))

/-- The process: the context and the data of the threads. -/
structure World (Ts : ι → Thread) where
  ctx : Ctx
  data : (i : ι) → (Ts i).S

/-- The start. -/
def World.init (Ts : ι → Thread) : World Ts := ⟨Ctx.init, fun i => (Ts i).init⟩

/-- Thread `i` is scheduled. -/
def World.step {Ts : ι → Thread} (w : World Ts) (i : ι) : World Ts :=
  ⟨((Ts i).step w.ctx (w.data i)).1, fun j => if h : j = i then h ▸ ((Ts i).step w.ctx (w.data i)).2 else w.data j⟩

/-- A schedule: which thread makes the next step. -/
def World.run {Ts : ι → Thread} (w : World Ts) : List ι → World Ts
  | [] => w
  | i :: is => (w.step i).run is

/-- A thread on its own, for `n` operations. -/
def Thread.alone (T : Thread) (g : Ctx) (s : T.S) : Nat → Ctx × T.S
  | 0 => (g, s)
  | n + 1 => T.alone (T.step g s).1 (T.step g s).2 n

end CoInf.Threads
