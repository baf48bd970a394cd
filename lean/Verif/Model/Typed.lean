/-
Types and devices of the frames of a stream, and `warm_up`.

/repo/continual/module.py:314-327 (`warm_up`: zeros in single precision on the CPU), delay.py:65-117 and pooling.py:152-212 (the buffer is
made like the first frame, later frames are written into it), conv.py:200-278 (frames are brought to the device of the weights, not to
their type), rnn.py:204-217 and multihead_attention/mha_base.py:391-416 (frames must be like the weights, the state is made like the
first frame), container.py:639-648 (`Sequential`), 871-879 (`BroadcastReduce`).

Assumed of torch: `torch.zeros_like` and `torch.stack` make tensors of the type and on the device of their arguments; `t[i] = v` converts
`v` to the type and device of `t`; layers with parameters raise `RuntimeError` for inputs of another type or on another device than their
parameters; sums of tensors on different devices raise, and are of the larger type.  The steps are those of the models without types.
-/
import Verif.Model.Carry
import Verif.Model.Delay
import Verif.Model.Pool
import Verif.Model.Conv
import Verif.Model.Closure

set_option autoImplicit false

namespace CoInf.Typed

open CoInf.Carry (DType)
open CoInf.Device (Dev)

/-- Type and device of a tensor. -/
structure Place where
  dtype : DType
  dev : Dev
  deriving DecidableEq

/-- `torch.zeros(..., dtype=torch.float)`. -/
def Place.default : Place := ⟨.float, .cpu⟩

/-- A tensor. -/
structure T (V : Type) where
  place : Place
  val : V

/-- Conversions between types of numbers. -/
class Casts (V : Type) where
  cast : DType → V → V

/-- A module with types and devices. -/
structure TMod (X Y : Type) where
  Inst : Type
  init : Inst
  clean : Inst → Inst
  step : Inst → T X → Except Err (Option (T Y) × Inst)

variable {X Y Z V : Type}

/-- The value of a tensor, converted to the type `d` (nothing happens to tensors of that type). -/
def T.as [Casts V] (x : T V) (d : DType) : V := if x.place.dtype = d then x.val else Casts.cast d x.val

/-- `Delay` with a delay, and poolings of one location over time: delay.py:65-117, pooling.py:152-212.  Object: that of the module without
types, and the place of the buffer, if there is one (the buffer is there from the first frame on, until `clean_state`).  Frames are
written into the buffer; results are taken from it.  (The pooling of frames in space is left out: it is frame-wise; and so are
dilated poolings, see C97.) -/
@[reducible] def buffered [Casts V] (m : CoMod (.stream V) (.stream V)) : TMod V V where
  Inst := m.Inst × Option Place
  init := (m.init, none)
  clean := fun i => (m.clean i.1, none)
  step := fun i x =>
    let p := i.2.getD x.place
    match m.step i.1 true (x.as p.dtype) with
    | .error e => .error e
    | .ok (o, j) => .ok (o.map (T.mk p), (j, some p))

/-- Convolutions over time with weights at `w`: conv.py:200-278.  The state is made of results, which are like the weights. -/
@[reducible] def conv [Zero X] [Zero Y] [Add Y] (w : Place) (c : Conv.Cfg X Y) : TMod X Y where
  Inst := (Conv.mod c).Inst
  init := (Conv.mod c).init
  clean := (Conv.mod c).clean
  step := fun i x =>
    if x.place.dtype = w.dtype then
      match (Conv.mod c).step i true x.val with
      | .error e => .error e
      | .ok (o, j) => .ok (o.map (T.mk w), j)
    else .error .runtime

/-- Layers that work frame by frame, with parameters at `w` or without: linear.py:85-97, closure.py:53-93. -/
@[reducible] def framewise (w : Option Place) (f : X → Y) : TMod X Y where
  Inst := Unit
  init := ()
  clean := id
  step := fun i x =>
    match w with
    | none => .ok (some ⟨x.place, f x.val⟩, i)
    | some w => if x.place = w then .ok (some ⟨w, f x.val⟩, i) else .error .runtime

/-- Recurrent modules and attention with weights at `w`: rnn.py:204-217, 419-432, 678-690 (torch makes the missing hidden state like the
frame), mha_base.py:391-416 (`_sdpa_default_state` with the type and the device of the query).  The frame meets the weights in the first
product of the step, before any state is stored. -/
@[reducible] def strict (w : Place) (m : CoMod (.stream X) (.stream Y)) : TMod X Y where
  Inst := m.Inst
  init := m.init
  clean := m.clean
  step := fun i x =>
    if x.place = w then
      match m.step i true x.val with
      | .error e => .error e
      | .ok (o, j) => .ok (o.map (T.mk w), j)
    else .error .runtime

/-- `Sequential` of two members (the second of which may again be one): container.py:639-648. -/
@[reducible] def seq (M : TMod X Y) (N : TMod Y Z) : TMod X Z where
  Inst := M.Inst × N.Inst
  init := (M.init, N.init)
  clean := fun i => (M.clean i.1, N.clean i.2)
  step := fun i x =>
    match M.step i.1 x with
    | .error e => .error e
    | .ok (none, i1) => .ok (none, (i1, i.2))
    | .ok (some y, i1) =>
      match N.step i.2 y with
      | .error e => .error e
      | .ok (z, i2) => .ok (z, (i1, i2))

/-- The larger of two types. -/
def promote : DType → DType → DType
  | .double, _ => .double
  | _, .double => .double
  | .float, _ => .float
  | _, .float => .float
  | .half, .half => .half

/-- `a + b`.  (Numbers are added as if exactly.) -/
def add [Add V] [Casts V] (a b : T V) : Except Err (T V) :=
  if a.place.dev = b.place.dev then
    let d := promote a.place.dtype b.place.dtype
    .ok ⟨⟨d, a.place.dev⟩, a.as d + b.as d⟩
  else .error .runtime

/-- `BroadcastReduce(M, N)` with the default `reduce`, as `Residual` makes it: container.py:871-879. -/
@[reducible] def both [Add V] [Casts V] (M N : TMod X V) : TMod X V where
  Inst := M.Inst × N.Inst
  init := (M.init, N.init)
  clean := fun i => (M.clean i.1, N.clean i.2)
  step := fun i x =>
    match M.step i.1 x with
    | .error e => .error e
    | .ok (a, i1) =>
      match N.step i.2 x with
      | .error e => .error e
      | .ok (b, i2) =>
        match a, b with
        | some a, some b =>
          match add a b with
          | .error e => .error e
          | .ok y => .ok (some y, (i1, i2))
        | _, _ => .ok (none, (i1, i2))

/-- `warm_up` with a delay of `k`: module.py:314-327.  The frames are stepped through one by one here, see C08. -/
def warmUp [Zero X] (M : TMod X Y) : Nat → M.Inst → Except Err M.Inst
  | 0, i => .ok i
  | k + 1, i =>
    match M.step i ⟨.default, 0⟩ with
    | .error e => .error e
    | .ok (_, i) => warmUp M k i

end CoInf.Typed
