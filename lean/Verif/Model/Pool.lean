/-
Model of /repo/continual/pooling.py.
-/
import Verif.Model.Conv
import Mathlib.Order.BoundedOrder.Basic
import Mathlib.Order.Defs.LinearOrder

namespace CoInf.Pool

/-- Constructor arguments of `_PoolNd` (pooling.py:62-150) on the temporal axis.
`spatial` is `_spatial_pool_fn` (a frame is pooled in isolation), `pool` is the temporal pooling
function (`AdaptiveAvgPool1d(1)`/`AdaptiveMaxPool1d(1)` behind a reshape, pooling.py:101-137).
`fillIn`/`fillOut` are `_make_padding` on input frames / on spatially pooled frames, `refPad` is the
value torch's own pooling pads with (0 for average, -inf for max). -/
structure Cfg (X Y : Type) where
  K : Nat
  S : Nat
  P : Nat
  dil : Nat
  spatial : X → Y
  pool : List Y → Y
  fillIn : X → X
  fillOut : Y → Y
  refPad : Y

variable {X Y : Type} (c : Cfg X Y)

/-- `buf_len`: pooling.py:158. -/
def bufLen : Nat := c.dil * (c.K - 1) + 1

/-- State tuple `(state_buffer, state_index, stride_index)`: pooling.py:31. -/
structure St (Y : Type) where
  buffer : List Y
  index : Int
  strideIndex : Int

/-- `init_state`: pooling.py:152-166. -/
def initState (y : Y) : St Y where
  buffer := List.replicate (bufLen c) (c.fillOut y)
  index := 0
  strideIndex := (c.S : Int) - bufLen c + c.P

/-- Frames handed to the temporal pooling: pooling.py:201-209 with `_frame_index_selection`
(pooling.py:139-146). -/
def select (buffer : List Y) (nextIndex : Int) : Except Err (List Y) :=
  if c.dil = 1 then .ok buffer
  else (List.range c.K).mapM fun (i : Nat) =>
    pyGet buffer ((((i * c.dil : Nat) : Int) + nextIndex) % (buffer.length : Int))

/-- `_forward_step`: pooling.py:180-212.  Note that the index wraps modulo `kernel_size[0]` (194). -/
def pstep (x : X) (s : Option (St Y)) : Except Err (Option Y × Option (St Y)) := do
  let y := c.spatial x
  let st := match s with
    | some st => st
    | none => initState c y
  let buffer ← pySet st.buffer st.index y
  let nextIndex := (st.index + 1) % (c.K : Int)
  let out ← if st.strideIndex = (c.S : Int) - 1 then do
      let sel ← select c buffer nextIndex
      pure (some (c.pool sel))
    else pure none
  return (out, some ⟨buffer, nextIndex, Conv.nextStride c.S st.strideIndex⟩)

/-- torch's pooling (`nn.AvgPoolNd.forward`/`nn.MaxPoolNd.forward`, to which `forward` resolves by the
method resolution order, pooling.py:226 ff.): pad with `refPad` and pool every window of `K` frames
spaced by the dilation.  torch raises when no window fits.  (torch's average pooling ignores the dilation, see
`PoolNd.Avg.forward`; theorems about `forward` assume dilation 1.) -/
def forward (xs : List X) : Except Err (List Y) :=
  let zs := List.replicate c.P c.refPad ++ xs.map c.spatial ++ List.replicate c.P c.refPad
  if xs = [] then .error .runtime
  else if zs.length < bufLen c then .error .runtime
  else .ok ((List.range ((zs.length - bufLen c) / c.S + 1)).map fun j =>
    c.pool ((List.range c.K).filterMap fun k => zs[j * c.S + k * c.dil]?))

/-- State handling: pooling.py:148-150, 168-178. -/
@[reducible] def leaf : Leaf X Y where
  Inst := St Y
  St := St Y
  init := ⟨[], 0, 0⟩
  clean := fun _ => ⟨[], 0, 0⟩
  get := fun i => if i.buffer.length > 0 then some i else none
  set := fun st _ => st
  pstep := pstep c
  padding := c.P
  makePad := c.fillIn

/-- `_PoolNd`: `forward_step` inherited, `forward_steps` pooling.py:214-219, `receptive_field`
pooling.py:221-223. -/
@[reducible] def mod : CoMod (.stream X) (.stream Y) where
  Inst := St Y
  init := (leaf c).init
  clean := (leaf c).clean
  fwd := fun i xs => (forward c xs).map fun ys => (ys, i)
  step := (leaf c).forwardStep
  steps := (leaf c).forwardSteps
  St := St Y
  pstep := pstep c
  rf := c.dil * c.K
  stride := c.S
  padding := c.P
  delay := ((c.dil * c.K : Nat) : Int) - 1 - c.P

end CoInf.Pool

namespace CoInf.Pool

/-- `PaddingMode` as accepted by pooling modules: pooling.py:94-99, module.py (`PaddingMode`). -/
inductive TFill where
  | zeros
  | replicate
  | negInf
  deriving DecidableEq, Repr

/-- `_make_padding`: `torch.zeros_like`, `torch.clone`, `neginf_like` (utils.py:250-251). -/
def TFill.make {X : Type} [Zero X] [Bot X] : TFill → X → X
  | .zeros, _ => 0
  | .replicate, x => x
  | .negInf, _ => ⊥

/-- Default `temporal_fill` of `MaxPool{1,2,3}d`, by constructor (pooling.py:638, 752, 876) and by
`build_from` (pooling.py:662, 783, 907). -/
def maxFill (dims : Nat) (buildFrom : Bool) : TFill :=
  if dims = 1 ∧ buildFrom = false then .negInf else .zeros

/-- Max pooling of a sequence with a bottom element (`-inf`): `AdaptiveMaxPool1d(1)` in time;
torch's reference pads with `-inf`.  The spatial pooling is left out (`MaxPool1d`; for 2d and 3d take
a spatial kernel of size one). -/
@[reducible] def maxPool {X : Type} [Zero X] [LinearOrder X] [OrderBot X] (fill : TFill) (K S P : Nat) : Cfg X X where
  K := K
  S := S
  P := P
  dil := 1
  spatial := id
  pool := fun l => l.foldr max ⊥
  fillIn := fill.make
  fillOut := fill.make
  refPad := ⊥

end CoInf.Pool
