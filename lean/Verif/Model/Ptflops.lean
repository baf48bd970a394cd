/-
Counting operations with the package ptflops: /repo/continual/ptflops.py (the classes that are registered and their hooks), for
networks that are called as in `Verif.Model.Hooks`.

Assumed of ptflops: `get_model_complexity_info(net, ...)` registers a forward hook for every module whose class is a key of
`MODULES_MAPPING`, and another one on `net` itself that adds up the batch sizes; it calls `net` once and reports the sum of the numbers
`__flops__` divided by the number of batch entries.  Its hooks are
* `conv_flops_counter_hook`: `prod(kernel_size) * in_channels * (out_channels // groups)` for each entry of the batch and each index of
  `output.shape[2:]`, and `out_channels` for each of them if there is a bias;
* `pool_flops_counter_hook`: the number of entries of the input;
* `linear_flops_counter_hook`: `input.shape[-1] * output.shape[-1]`, and `output.shape[-1]` if there is a bias, for each index of
  `input.shape[:-1]`.
Sizes of inputs and outputs of the modules in the call at hand are given; the output of a step may be `None`.
-/
import Verif.Model.Hooks
import Mathlib.Data.Rat.Defs

set_option autoImplicit false

namespace CoInf.Ptflops
open CallMode Hooks

/-- `type(module)`, for the classes of the package that compute something. -/
inductive Class where
  | Conv1d | Conv2d | Conv3d
  | AvgPool1d | AvgPool2d | AvgPool3d | MaxPool1d | MaxPool2d | MaxPool3d
  | AdaptiveAvgPool2d | AdaptiveAvgPool3d | AdaptiveMaxPool2d | AdaptiveMaxPool3d
  | Linear
  | RetroactiveMultiheadAttention | SingleOutputMultiheadAttention
  | RNN | GRU | LSTM
  | Lambda | Delay | Reshape | Sequential | BroadcastReduce | Residual | Parallel | Broadcast | Reduce | Conditional
  deriving DecidableEq, Repr

/-- The hooks. -/
inductive Hook where
  | conv | pool | linear | flops
  deriving DecidableEq, Repr

/-- `MODULES_MAPPING` after `_register_ptflops`: ptflops.py:52-82. -/
def registered : Class → Option Hook
  | .Conv1d => some .conv
  | .Conv2d => some .conv
  | .Conv3d => some .conv
  | .AvgPool1d => some .pool
  | .MaxPool1d => some .pool
  | .AvgPool2d => some .pool
  | .MaxPool2d => some .pool
  | .AdaptiveAvgPool2d => some .pool
  | .AdaptiveMaxPool2d => some .pool
  | .AvgPool3d => some .pool
  | .MaxPool3d => some .pool
  | .AdaptiveAvgPool3d => some .pool
  | .AdaptiveMaxPool3d => some .pool
  | .Linear => some .linear
  | .RetroactiveMultiheadAttention => some .flops
  | .SingleOutputMultiheadAttention => some .flops
  | _ => none

/-- What the hooks look at: the class, sizes of input and output (without the axis of time in steps), the attributes of
convolutions, whether there is a bias, and `module.flops()` in the mode of the call. -/
structure Part where
  cls : Class
  inp : List Nat
  out : Option (List Nat)
  kernel : List Nat
  inC : Nat
  outC : Nat
  groups : Nat
  bias : Bool
  flops : Nat

def prod (l : List Nat) : Nat := l.foldr (· * ·) 1

/-- `conv_flops_counter_hook`; `None.shape` is an `AttributeError`. -/
def convHook (p : Part) : Except Err Nat :=
  match p.out with
  | none => .error .attribute
  | some o =>
    let positions := p.inp.headD 0 * prod (o.drop 2)
    .ok (prod p.kernel * p.inC * (p.outC / p.groups) * positions + bif p.bias then p.outC * positions else 0)

/-- `linear_flops_counter_hook` -/
def linearHook (p : Part) : Except Err Nat :=
  match p.out with
  | none => .error .attribute
  | some o =>
    let o := o.getLastD 0
    .ok ((p.inp.getLastD 0 * o + bif p.bias then o else 0) * prod p.inp.dropLast)

/-- What the hook of a module adds to its counter.  `get_hook` (ptflops.py:45-49) adds `Module.flops(module)`. -/
def adds (p : Part) : Except Err Nat :=
  match registered p.cls with
  | none => .ok 0
  | some .conv => convHook p
  | some .pool => .ok (prod p.inp)
  | some .linear => linearHook p
  | some .flops => .ok p.flops

/-- The counters of all modules together, for a call in which these events happen. -/
def tally (add : Nat → Except Err Nat) : List Ev → Except Err Nat
  | [] => .ok 0
  | .post i :: es =>
    match add i with
    | .error e => .error e
    | .ok a => (tally add es).map (a + ·)
  | .pre _ :: es => tally add es
  | .run _ _ :: es => tally add es

/-- How often the hook on the network itself is run. -/
def rounds (root : Nat) (es : List Ev) : Nat := es.countP fun e => decide (e = .post root)

/-- What is reported for a call of the network `root` with `batch` entries. -/
def report (add : Nat → Except Err Nat) (root batch : Nat) (r : Hooks.Out) : Except Err ℚ :=
  match r.err with
  | some e => .error e
  | none => (tally add r.trace).map fun n => (n : ℚ) / (rounds root r.trace * batch : Nat)

end CoInf.Ptflops
