/-
Model of /repo/continual/conv.py.
-/
import Verif.Model.Delay
import Mathlib.Algebra.BigOperators.Group.List.Basic

namespace CoInf.Conv

/-- Constructor arguments of `_ConvCoNd` (conv.py:44-123) as far as the temporal axis is concerned.
`w k` is the (spatial, channel-mixing) linear map applied to a frame by the `k`-th temporal slice of
the kernel: it takes input frames in `X` to output frames in `Y`.  `fill` is `temporal_fill`
(`t_padding_mode`), `padMode` is `padding_mode`, which only `forward` applies to the time axis.
Temporal dilation is 1 (asserted at conv.py:83). -/
structure Cfg (X Y : Type) where
  K : Nat
  S : Nat
  P : Nat
  fill : Fill
  padMode : Fill
  w : Nat → X → Y
  bias : Option Y

variable {X Y : Type} [Zero X] [Zero Y] [Add Y] (c : Cfg X Y)

/-- `_stateless`: conv.py:125-127. -/
def stateless : Bool := c.K = 1 ∧ c.P = 0 ∧ c.S = 1

/-- `x + bias` if there is a bias: conv.py:257-261. -/
def addBias (y : Y) : Y :=
  match c.bias with
  | some b => y + b
  | none => y

/-- `self._conv_func` without temporal padding, `n ≥ K` frames: the torch convolution formula
`out[j] = sum_k w_k z[j*S + k] + bias`; torch raises when the kernel does not fit. -/
def torchConv (zs : List X) : Except Err (List Y) :=
  if zs.length < c.K then .error .runtime
  else .ok ((List.range ((zs.length - c.K) / c.S + 1)).map fun j =>
    addBias c (((List.range c.K).map fun k =>
      match zs[j * c.S + k]? with
      | some z => c.w k z
      | none => 0).sum))

/-- `forward`: conv.py:288-325.  The time axis is padded with `P` zero frames on each side, or with
`F.pad(mode="replicate")`.  torch rejects clips without frames. -/
def forward (xs : List X) : Except Err (List Y) :=
  match xs.head?, xs.getLast? with
  | some a, some b =>
    torchConv c (List.replicate c.P (c.padMode.make 0 a) ++ xs ++
      List.replicate c.P (c.padMode.make 0 b))
  | _, _ => .error .runtime

/-- The convolution of one frame zero-padded with `K-1` frames in time (conv.py:209-228): entry `j`
is `w_{K-1-j} x`. -/
def taps (x : X) : List Y := (List.range c.K).map fun j => c.w (c.K - 1 - j) x

/-- State tuple `(state_buffer, state_index, stride_index)`: conv.py:22. Each buffer entry is the
list `x_rest` of `K-1` partial results. -/
structure St (Y : Type) where
  buffer : List (List Y)
  index : Int
  strideIndex : Int

/-- `_make_padding` applied to `x_rest`: conv.py:104-107, 147. -/
def padRest (rest : List Y) : List Y :=
  match c.fill with
  | .zeros => rest.map fun _ => 0
  | .replicate => rest

/-- `init_state`: conv.py:143-155. -/
def initState (rest : List Y) : St Y where
  buffer := List.replicate (c.K - 1) (padRest c rest)
  index := 0
  strideIndex := (c.S : Int) - ((c.K - 1 : Nat) : Int) - 1 + c.P

/-- The next value of the stride counter: conv.py:272-274 and pooling.py:195-197. -/
def nextStride (S : Nat) (si : Int) : Int :=
  let n := si + 1
  if n > 0 then n % S else n

/-- The partial results picked from the buffer: conv.py:246-252
(`buffer[(arange(tot) + index) % tot, :, :, arange(tot-1, -1, -1)]`). -/
def pick (st : St Y) (tot : Nat) : Except Err (List Y) :=
  (List.range tot).mapM fun (i : Nat) => do
    let row ← pyGet st.buffer (((i : Int) + st.index) % tot)
    pyGet row ((tot : Int) - 1 - i)

/-- The output computation: conv.py:242-261. -/
def output (st : St Y) (xOut : Y) : Except Err (Option Y) :=
  if st.strideIndex = (c.S : Int) - 1 then do
    let ps ← pick st (c.K - 1)
    return some (addBias c (xOut + ps.sum))
  else .ok none

/-- Next buffer and index: conv.py:263-270. -/
def writeBack (st : St Y) (xRest : List Y) : Except Err (List (List Y) × Int) :=
  if c.K > 1 then do
    let b ← pySet st.buffer st.index xRest
    return (b, (st.index + 1) % ((c.K - 1 : Nat) : Int))
  else .ok (st.buffer, st.index)

/-- `_forward_step_py`: conv.py:200-278.  In training mode the buffer is cloned before it is written
(265); on values this makes no difference (see `Verif.Model.Heap`). -/
def pstep (x : X) (s : Option (St Y)) : Except Err (Option Y × Option (St Y)) :=
  if stateless c then do
    -- `self.forward(x).squeeze(2)`
    let ys ← forward c [x]
    let y ← pyGet ys 0
    return (some y, s)
  else do
    let xOut ← pyGet (taps c x) 0
    let xRest := (taps c x).drop 1
    let st := match s with
      | some st => st
      | none => initState c xRest
    let out ← output c st xOut
    let next ← writeBack c st xRest
    return (out, some ⟨next.1, next.2, nextStride c.S st.strideIndex⟩)

/-- State handling of `_ConvCoNd`: conv.py:121-123, 157-168; `_make_padding` on input frames. -/
@[reducible] def leaf : Leaf X Y where
  Inst := St Y
  St := St Y
  init := ⟨[], 0, 0⟩
  clean := fun _ => ⟨[], 0, 0⟩
  get := fun i => if i.buffer.length > 0 then some i else none
  set := fun st _ => st
  pstep := pstep c
  padding := c.P
  makePad := c.fill.make 0

/-- `_ConvCoNd`: `forward_step` is inherited, `forward_steps` is conv.py:280-286, geometry is
conv.py:327-329 and module.py:188-190. -/
@[reducible] def mod : CoMod (.stream X) (.stream Y) where
  Inst := St Y
  init := (leaf c).init
  clean := (leaf c).clean
  fwd := fun i xs => (forward c xs).map fun ys => (ys, i)
  step := (leaf c).forwardStep
  steps := (leaf c).forwardSteps
  St := St Y
  pstep := pstep c
  rf := c.K
  stride := c.S
  padding := c.P
  delay := (c.K : Int) - 1 - c.P

end CoInf.Conv
