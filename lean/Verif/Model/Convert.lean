/-
Model of `continual` and the `build_from` methods it calls: /repo/continual/convert.py:117-283,
/repo/continual/conv.py:405-429, 505-529, 605-629, /repo/continual/pooling.py (`build_from`),
/repo/continual/linear.py:99-122, /repo/continual/rnn.py:155-177, 371-392, 627-649,
/repo/continual/container.py:706-712.
-/
import Verif.Model.Container
import Verif.Model.Pool
import Verif.Model.Closure
import Verif.Model.Rnn
import Verif.Model.CallMode

set_option autoImplicit false

namespace CoInf.Convert

/-- `padding_mode` of torch's convolutions. -/
inductive TorchPad where
  | zeros
  | replicate
  | reflect
  | circular
  deriving DecidableEq, Repr

/-- Attributes of an `nn.ConvNd` on the temporal axis (see `Conv.Cfg` for `w`); the kernel is not empty. -/
structure TorchConv (X Y : Type) where
  K : Nat
  K_pos : 1 ≤ K := by decide
  S : Nat
  P : Nat
  dil : Nat
  mode : TorchPad
  w : Nat → X → Y
  bias : Option Y

/-- Attributes of an `nn.AvgPoolNd` or `nn.MaxPoolNd` on the temporal axis, with `ceil_mode=False`,
`return_indices=False`, `count_include_pad=True` and no `divisor_override`.  `refPad` is the padding torch uses. -/
structure TorchPool (X Y : Type) where
  K : Nat
  S : Nat
  P : Nat
  dil : Nat
  spatial : X → Y
  pool : List Y → Y
  refPad : Y

/-- Attributes of an `nn.RNN`, `nn.GRU` or `nn.LSTM` with `batch_first=True`: per layer the cell of the forward direction
and, if the module is bidirectional, the cell of the reverse direction; `cat` concatenates the outputs of the two
directions. -/
structure TorchRnn (V S : Type) where
  layers : List (Rnn.Cell V S × Option (Rnn.Cell V S))
  zero : S
  cat : V → V → V

mutual
/-- A Python object passed to `continual`, by what convert.py:227-246 tests. -/
inductive Src : Type → Type → Type 1 where
  /-- an instance of `CoModule` -/
  | co {X Y : Type} (m : CoMod (.stream X) (.stream Y)) : Src X Y
  /-- its type is in `NAIVE_MAPPING`; `g` is its `forward` -/
  | naive {X Y : Type} (g : List X → Except Err (List Y)) : Src X Y
  /-- `nn.InstanceNormNd` with the attributes `affine` and `track_running_stats` -/
  | instanceNorm {X Y : Type} (affine track : Bool) (g : List X → Except Err (List Y)) : Src X Y
  | conv {X Y : Type} [Zero X] [AddCommMonoid Y] (c : TorchConv X Y) : Src X Y
  | pool {X Y : Type} [Zero X] [Zero Y] (c : TorchPool X Y) : Src X Y
  | linear {X Y : Type} (f : X → Y) : Src X Y
  /-- a Python function on frames -/
  | function {X Y : Type} (f : X → Y) : Src X Y
  | rnn {V S : Type} (c : TorchRnn V S) : Src V V
  /-- `nn.AdaptiveAvgPoolNd`, `nn.AdaptiveMaxPoolNd` -/
  | adaptivePool {X Y : Type} (g : List X → Except Err (List Y)) : Src X Y
  /-- `nn.TransformerEncoder` -/
  | transformer {X Y : Type} (g : List X → Except Err (List Y)) : Src X Y
  | sequential {X Y : Type} (ms : Members X Y) : Src X Y
  /-- any other type -/
  | other {X Y : Type} (g : List X → Except Err (List Y)) : Src X Y

/-- The members of an `nn.Sequential` (at least one). -/
inductive Members : Type → Type → Type 1 where
  | single {X Y : Type} (m : Src X Y) : Members X Y
  | cons {X Y Z : Type} (m : Src X Y) (ms : Members Y Z) : Members X Z
end

/-- `PaddingMode(padding_mode)`: conv.py:85-86, module.py:22-25.  A name that is not a member of the enumeration raises
`ValueError`. -/
def paddingMode : TorchPad → Except Err Fill
  | .zeros => .ok .zeros
  | .replicate => .ok .replicate
  | .reflect => .error .value
  | .circular => .error .value

/-- `Conv{1,2,3}d.build_from`: all arguments and weights are copied, `temporal_fill` is `module.padding_mode`; the
constructor asserts that the temporal dilation is one (conv.py:82-86). -/
def convFrom {X Y : Type} (c : TorchConv X Y) : Except Err (Conv.Cfg X Y) :=
  if c.dil = 1 then
    match paddingMode c.mode with
    | .error e => .error e
    | .ok f => .ok { K := c.K, S := c.S, P := c.P, fill := f, padMode := f, w := c.w, bias := c.bias }
  else .error .assertion

/-- `{Avg,Max}Pool{1,2,3}d.build_from`: the arguments are copied, `temporal_fill` is `"zeros"`; the constructor asserts that
the kernel spans at least one time step (pooling.py:82-84). -/
def poolFrom {X Y : Type} [Zero X] [Zero Y] (c : TorchPool X Y) : Except Err (Pool.Cfg X Y) :=
  if 0 < c.K then
    .ok { K := c.K, S := c.S, P := c.P, dil := c.dil, spatial := c.spatial, pool := c.pool,
          fillIn := fun _ => 0, fillOut := fun _ => 0, refPad := c.refPad }
  else .error .assertion

/-- The cells in the order of `_flat_weights`: layer by layer, the reverse direction behind the forward direction. -/
def flatCells {V S : Type} (c : TorchRnn V S) : List (Rnn.Cell V S) := c.layers.flatMap fun l => l.1 :: l.2.toList

/-- `RNN.build_from`, `GRU.build_from`, `LSTM.build_from`: a unidirectional module with as many layers, whose weights are
copied from the front of the other module's weight list (`zip` stops at the shorter list).  The copy of a weight with a
different shape, which raises or broadcasts, is not modelled. -/
def rnnFrom {V S : Type} (c : TorchRnn V S) : Rnn.Cfg V S :=
  { layers := (flatCells c).take c.layers.length, zero := c.zero }

mutual
/-- `continual`: convert.py:227-246. -/
def continual : {X Y : Type} → Src X Y → Except Err (CoMod (.stream X) (.stream Y))
  | _, _, .co m => .ok m
  | _, _, .naive g => .ok (Stepping.mod g 1 0)
  | _, _, .instanceNorm affine track g =>
    if affine ∧ track then .ok (Stepping.mod g 1 0) else .error .assertion
  | _, _, @Src.conv _ _ _ _ c => (convFrom c).map fun c => Conv.mod c
  | _, _, @Src.pool _ _ zx zy c => (@poolFrom _ _ zx zy c).map fun c => Pool.mod c
  | _, _, .linear f => .ok (Pointwise.mod f)
  | _, _, .function f => .ok (Lambda.mod { fn := some (.frame f) })
  | _, _, .rnn c => .ok (Rnn.mod (rnnFrom c))
  | _, _, .adaptivePool _ => .error .type   -- `build_from(module)`: the argument `kernel_size` is missing
  | _, _, .transformer _ => .error .type    -- `build_from(trans_enc)`: the argument `sequence_len` is missing
  | _, _, .sequential ms => (members ms).map fun c => Sequential.mod c
  | _, _, .other _ => .error .assertion

/-- `Sequential.build_from`: container.py:706-712, the members are converted from first to last. -/
def members : {X Y : Type} → Members X Y → Except Err (Chain (.stream X) (.stream Y))
  | _, _, .single m => (continual m).map .single
  | _, _, .cons m ms =>
    match continual m with
    | .error e => .error e
    | .ok a => (members ms).map (.cons a)
end

/-! ### Applying `forward_stepping` more than once -/

/-- The functions that `forward_stepping` creates: `fwc j` is the `forward_with_callmode` of the `j`-th application, with
`fwc 0` standing for the module's own `forward`; the last application determines the attributes `forward_step` and
`forward_steps`; `impl` is `CoModule._call_impl`. -/
inductive Fun where
  | fwc (j : Nat)
  | step
  | steps
  | impl
  deriving DecidableEq, Repr

/-- Call a function of a module to which `forward_stepping` was applied `n` times, in the effective call mode `mode`
(convert.py:54-112, module.py:347-353), with Python's recursion limit `fuel`: `none` is a `RecursionError`.  `run` executes
the module's own `forward`; squeezing and unsqueezing are left out. -/
def callFun {R : Type} (n : Nat) (mode : CallMode.Mode) (run : R) : Nat → Fun → Option R
  | 0, _ => none
  | _ + 1, .fwc 0 => some run
  | fuel + 1, .fwc (j + 1) =>
    match mode with
    | .forward => callFun n mode run fuel (.fwc j)
    | _ => callFun n mode run fuel .impl
  | fuel + 1, .impl =>
    match mode with
    | .forward => callFun n mode run fuel (.fwc n)
    | .steps => callFun n mode run fuel .steps
    | .step => callFun n mode run fuel .step
  | fuel + 1, .step => callFun n mode run fuel (.fwc (n - 1))
  | fuel + 1, .steps => callFun n mode run fuel (.fwc (n - 1))

end CoInf.Convert
