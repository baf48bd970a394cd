/-
The loggers of the package.

/repo/continual/logging.py:10-59 (`_process_rank`, `once`, `if_rank_zero`, `getLogger`).  `logging.getLogger(name)` of Python returns one object per
name, on which every call of `getLogger` wraps the method `_log` once more.  Both kinds of loggers are made under one name in
single_output_mha.py:14-15 and retroactive_mha.py:13-14.
-/
import Mathlib.Data.List.Basic

set_option autoImplicit false

namespace CoInf.Logging
variable {N M H : Type} [DecidableEq N] [DecidableEq H]

/-- A layer around `_log`. -/
inductive Layer (H : Type) where
  /-- `if_rank_zero`, logging.py:44-51 -/
  | rankZero
  /-- `once`, logging.py:30-41, with the hashes in `mem` -/
  | once (mem : List H)

/-- What an application does: `getLogger(name, log_once)`, or `warning(msg)` on the logger of that name. -/
inductive Action (N M : Type) where
  | get (name : N) (logOnce : Bool)
  | log (name : N) (msg : M)
  deriving DecidableEq

/-- `_log(msg)` through the layers, outermost first: is the message emitted, and the layers afterwards.  `hash` stands for
`hash((args, str(kwargs)))`. -/
def through (rankIsZero : Bool) (hash : M → H) (msg : M) : List (Layer H) → Bool × List (Layer H)
  | [] => (true, [])
  | .rankZero :: ls =>
    if rankIsZero then ((through rankIsZero hash msg ls).1, .rankZero :: (through rankIsZero hash msg ls).2)
    else (false, .rankZero :: ls)
  | .once mem :: ls =>
    if hash msg ∈ mem then (false, .once mem :: ls)
    else ((through rankIsZero hash msg ls).1, .once (hash msg :: mem) :: (through rankIsZero hash msg ls).2)

/-- The logger objects: for each name, the layers around `_log`. -/
def Loggers (N H : Type) := N → List (Layer H)

/-- One action: is a message emitted, and the loggers afterwards.  `getLogger`, logging.py:54-59. -/
def act (rankIsZero : Bool) (hash : M → H) (w : Loggers N H) : Action N M → Bool × Loggers N H
  | .get n logOnce =>
    (false, fun k => if k = n then .rankZero :: (if logOnce then .once [] :: w n else w n) else w k)
  | .log n msg => ((through rankIsZero hash msg (w n)).1,
    fun k => if k = n then (through rankIsZero hash msg (w n)).2 else w k)

/-- Actions in turn: for each, is a message emitted? -/
def acts (rankIsZero : Bool) (hash : M → H) : Loggers N H → List (Action N M) → List Bool
  | _, [] => []
  | w, a :: as => (act rankIsZero hash w a).1 :: acts rankIsZero hash (act rankIsZero hash w a).2 as

/-- At the start there are no layers. -/
def start : Loggers N H := fun _ => []

/-- A process at the time when it imports the package: `lightning` is `pl.utilities.rank_zero_only.rank` if `pytorch_lightning` is
installed, `horovod` is `hvd.rank()` after `hvd.init()` if horovod is installed. -/
structure Process where
  lightning : Option Nat
  horovod : Option Nat

/-- `_process_rank`: logging.py:10-24.  Its value is computed once, when the package is imported (line 27). -/
def processRank (p : Process) : Nat :=
  match p.lightning with
  | some rank => match p.horovod with
    | some h => h
    | none => rank
  | none => 0

/-- The messages emitted by a process. -/
def runOn (p : Process) (hash : M → H) (as : List (Action N M)) : List Bool := acts (processRank p == 0) hash start as

end CoInf.Logging
