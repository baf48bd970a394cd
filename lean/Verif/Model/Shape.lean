/-
Frames of varying size, and what an exception leaves behind.

In the other models all frames of a stream have one type, hence one shape.  Here a frame is a list along one axis whose
size may differ from call to call: the batch axis, or a spatial axis that the module preserves.  Two things become
visible: torch's broadcasting when a frame is written into a buffer (`buffer[i] = x`) or added to partial results, and
the attributes of the objects after an exception has been raised and caught.

Modelled source: `_forward_step` of delay.py, conv.py and pooling.py, `CoModule.forward_step` (module.py:192-219), and
`forward_step` of `Sequential` and `BroadcastReduce` with two members (container.py:639-648, 871-879).
-/
import Verif.Model.Pool
import Verif.Model.Broadcast

set_option autoImplicit false

namespace CoInf.Shape

/-- `row[...] = x` for a row of `n` entries: torch copies `x` if the sizes agree, repeats a single entry, and raises
otherwise. -/
def assignRow {X : Type} (n : Nat) (x : List X) : Except Err (List X) :=
  if x.length = n then .ok x
  else match x with
    | [a] => .ok (List.replicate n a)
    | _ => .error .runtime

/-- `buffer[i] = x`: delay.py:106, pooling.py:191. -/
def setRow {X : Type} (b : List (List X)) (i : Int) (x : List X) : Except Err (List (List X)) :=
  match pyGet b i with
  | .error e => .error e
  | .ok row => match assignRow row.length x with
    | .error e => .error e
    | .ok x' => pySet b i x'

/-! ### Modules -/

/-- A module as far as `forward_step` is concerned.  In contrast to `CoMod`, the object after an exception is part of the
result. -/
structure EMod (X Y : Type) where
  Inst : Type
  init : Inst
  step : Inst → (upd : Bool) → X → Except Err (Option Y) × Inst

/-- `CoModule.forward_step` (module.py:192-219) on an object with attributes `St`, where `get` is `get_state`.  If
`_forward_step` raises, `set_state` is not reached; the buffers are written last (delay.py:106, conv.py:266) or, for
pooling (191), before operations that do not raise, so they have not been written either. -/
def ofStep {X Y St : Type} (init : St) (get : St → Option St)
    (pstep : X → Option St → Except Err (Option Y × Option St)) : EMod X Y where
  Inst := St
  init := init
  step := fun i u x => match pstep x (get i) with
    | .error e => (.error e, i)
    | .ok (o, s) => (.ok o, if u then s.getD i else i)

/-- Frame-wise modules. -/
def framewise {X Y : Type} (h : X → Except Err Y) : EMod X Y where
  Inst := Unit
  init := ()
  step := fun i _ x => match h x with
    | .error e => (.error e, i)
    | .ok y => (.ok (some y), i)

/-- `Sequential.forward_step`: container.py:639-648.  If a member raises, the members before it have been updated. -/
def seq {X Y Z : Type} (A : EMod X Y) (B : EMod Y Z) : EMod X Z where
  Inst := A.Inst × B.Inst
  init := (A.init, B.init)
  step := fun i u x => match A.step i.1 u x with
    | (.error e, i1) => (.error e, (i1, i.2))
    | (.ok none, i1) => (.ok none, (i1, i.2))
    | (.ok (some y), i1) =>
      ((B.step i.2 u y).1, (i1, (B.step i.2 u y).2))

/-- `BroadcastReduce.forward_step` for two branches: container.py:871-879, with `nonempty` (99-106). -/
def par {X Y Z : Type} (r : Y → Y → Except Err Z) (A B : EMod X Y) : EMod X Z where
  Inst := A.Inst × B.Inst
  init := (A.init, B.init)
  step := fun i u x => match A.step i.1 u x with
    | (.error e, i1) => (.error e, (i1, i.2))
    | (.ok o1, i1) => match B.step i.2 u x with
      | (.error e, i2) => (.error e, (i1, i2))
      | (.ok o2, i2) => match o1, o2 with
        | some y1, some y2 => ((r y1 y2).map some, (i1, i2))
        | _, _ => (.ok none, (i1, i2))

/-- Pass frames one by one, catching exceptions: the results. -/
def play {X Y : Type} (M : EMod X Y) (i : M.Inst) : List X → List (Except Err (Option Y))
  | [] => []
  | x :: xs => (M.step i true x).1 :: play M (M.step i true x).2 xs

/-! ### Delay -/

namespace Delay
variable {X : Type}

/-- State tuple `(state_buffer, state_index)`. -/
abbrev St (X : Type) := List (List X) × Int

/-- `init_state`: delay.py:65-76; `fill` acts on every entry. -/
def initState (d : Nat) (fill : X → X) (sh : Shrink) (x : List X) : St X :=
  (List.replicate d (x.map fill), if sh = .on then -2 * (d : Int) else -(d : Int))

/-- `_forward_step`: delay.py:90-111. -/
def run (d : Nat) (x : List X) (st : St X) : Except Err (Option (List X) × Option (St X)) :=
  match (if st.2 ≥ 0 then (pyGet st.1 st.2).map some else .ok none) with
  | .error e => .error e
  | .ok out => match setRow st.1 (st.2 % d) x with
    | .error e => .error e
    | .ok b => .ok (out, some (b, if st.2 + 1 > 0 then (st.2 + 1) % d else st.2 + 1))

/-- `_forward_step`: delay.py:90-111. -/
def pstep (d : Nat) (fill : X → X) (sh : Shrink) (x : List X) (s : Option (St X)) :
    Except Err (Option (List X) × Option (St X)) :=
  if d = 0 then .ok (some x, s)
  else run d x (match s with | some st => st | none => initState d fill sh x)

/-- `get_state`: delay.py:82-85. -/
def get (i : St X) : Option (St X) := if i.1.length > 0 then some i else none

/-- `Delay`. -/
def mod (d : Nat) (fill : X → X) (sh : Shrink) : EMod (List X) (List X) := ofStep ([], 0) get (pstep d fill sh)

end Delay

/-! ### Convolution -/

namespace Conv
variable {X Y : Type} [Zero Y] [Add Y]

/-- Arguments.  `conv` is the convolution of one frame, zero-padded with `K - 1` frames in time (conv.py:209-228): a list
of `K` rows, or an exception if the kernel does not fit the frame. -/
structure Cfg (X Y : Type) where
  K : Nat
  S : Nat
  P : Nat
  fill : Fill
  conv : List X → Except Err (List (List Y))
  bias : Option Y

/-- A convolution that treats the entries of the axis separately (the batch axis): `w k` is applied to an entry. -/
def entrywise (K : Nat) (w : Nat → X → Y) (x : List X) : Except Err (List (List Y)) :=
  .ok ((List.range K).map fun j => x.map (w (K - 1 - j)))

/-- State tuple `(state_buffer, state_index, stride_index)`. -/
structure St (Y : Type) where
  buffer : List (List (List Y))
  index : Int
  strideIndex : Int

variable (c : Cfg X Y)

/-- `init_state`: conv.py:143-155. -/
def initState (rest : List (List Y)) : St Y where
  buffer := List.replicate (c.K - 1) (match c.fill with
    | .zeros => rest.map fun r => r.map fun _ => 0
    | .replicate => rest)
  index := 0
  strideIndex := (c.S : Int) - ((c.K - 1 : Nat) : Int) - 1 + c.P

/-- The partial results picked from the buffer: conv.py:246-252. -/
def pick (st : St Y) (tot : Nat) : Except Err (List (List Y)) :=
  (List.range tot).mapM fun (i : Nat) =>
    match pyGet st.buffer (((i : Int) + st.index) % tot) with
    | .error e => .error e
    | .ok row => pyGet row ((tot : Int) - 1 - i)

/-- `x_out + torch.sum(...)`, with broadcasting: conv.py:244-255. -/
def addSum (xOut : List Y) : List (List Y) → Except Err (List Y)
  | [] => .ok xOut
  | p :: ps => match ps.foldlM (bcast2 (· + ·)) p with
    | .error e => .error e
    | .ok s => bcast2 (· + ·) xOut s

/-- `x_out += bias`: conv.py:257-261. -/
def addBias (y : List Y) : List Y :=
  match c.bias with
  | some b => y.map (· + b)
  | none => y

/-- The output computation: conv.py:242-261. -/
def output (st : St Y) (xOut : List Y) : Except Err (Option (List Y)) :=
  if st.strideIndex = (c.S : Int) - 1 then
    match pick st (c.K - 1) with
    | .error e => .error e
    | .ok ps => (addSum xOut ps).map fun y => some (addBias c y)
  else .ok none

/-- `next_buffer[index] = x_rest`: conv.py:263-270; the slots have the axes of `x_rest`, of which only the one under
consideration may differ in size. -/
def setSlot (b : List (List (List Y))) (i : Int) (rest : List (List Y)) : Except Err (List (List (List Y))) :=
  match pyGet b i with
  | .error e => .error e
  | .ok slot => match (List.zip slot rest).mapM fun p => assignRow p.1.length p.2 with
    | .error e => .error e
    | .ok slot' => pySet b i slot'

/-- `_forward_step_py` after the convolution of the frame: conv.py:230-278. -/
def run (rows : List (List Y)) (st : St Y) : Except Err (Option (List Y) × Option (St Y)) :=
  match pyGet rows 0 with
  | .error e => .error e
  | .ok xOut => match output c st xOut with
    | .error e => .error e
    | .ok out =>
      if c.K > 1 then
        match setSlot st.buffer st.index (rows.drop 1) with
        | .error e => .error e
        | .ok b => .ok (out, some ⟨b, (st.index + 1) % ((c.K - 1 : Nat) : Int), CoInf.Conv.nextStride c.S st.strideIndex⟩)
      else .ok (out, some ⟨st.buffer, st.index, CoInf.Conv.nextStride c.S st.strideIndex⟩)

/-- `_forward_step_py`: conv.py:200-278. -/
def pstep (x : List X) (s : Option (St Y)) : Except Err (Option (List Y) × Option (St Y)) :=
  match c.conv x with
  | .error e => .error e
  | .ok rows =>
    if c.K = 1 ∧ c.P = 0 ∧ c.S = 1 then (pyGet rows 0).map fun y => (some (addBias c y), s)
    else run c rows (match s with | some st => st | none => initState c (rows.drop 1))

/-- `get_state`: conv.py:162-165. -/
def get (i : St Y) : Option (St Y) := if i.buffer.length > 0 then some i else none

/-- `_ConvCoNd`. -/
def mod : EMod (List X) (List Y) := ofStep ⟨[], 0, 0⟩ get (pstep c)

end Conv

/-! ### Pooling -/

namespace Pool
variable {X Y : Type}

/-- Arguments; `spatial` pools a frame in space (or raises), `pool` pools rows of one size over time, entry by entry. -/
structure Cfg (X Y : Type) where
  K : Nat
  S : Nat
  P : Nat
  dil : Nat
  spatial : List X → Except Err (List Y)
  pool : List (List Y) → List Y
  fill : Y → Y

/-- State tuple `(state_buffer, state_index, stride_index)`. -/
abbrev St (Y : Type) := CoInf.Pool.St (List Y)

variable (c : Cfg X Y)

/-- `init_state`: pooling.py:152-166. -/
def initState (y : List Y) : St Y where
  buffer := List.replicate (c.dil * (c.K - 1) + 1) (y.map c.fill)
  index := 0
  strideIndex := (c.S : Int) - (c.dil * (c.K - 1) + 1 : Nat) + c.P

/-- Frames handed to the temporal pooling: pooling.py:201-209. -/
def select (buffer : List (List Y)) (nextIndex : Int) : Except Err (List (List Y)) :=
  if c.dil = 1 then .ok buffer
  else (List.range c.K).mapM fun (i : Nat) =>
    pyGet buffer ((((i * c.dil : Nat) : Int) + nextIndex) % (buffer.length : Int))

/-- `_forward_step` after the spatial pooling: pooling.py:190-212. -/
def run (y : List Y) (st : St Y) : Except Err (Option (List Y) × Option (St Y)) :=
  match setRow st.buffer st.index y with
  | .error e => .error e
  | .ok b =>
    match (if st.strideIndex = (c.S : Int) - 1 then
        (select c b ((st.index + 1) % (c.K : Int))).map fun sel => some (c.pool sel) else .ok none) with
    | .error e => .error e
    | .ok out => .ok (out, some ⟨b, (st.index + 1) % (c.K : Int), CoInf.Conv.nextStride c.S st.strideIndex⟩)

/-- `_forward_step`: pooling.py:180-212. -/
def pstep (x : List X) (s : Option (St Y)) : Except Err (Option (List Y) × Option (St Y)) :=
  match c.spatial x with
  | .error e => .error e
  | .ok y => run c y (match s with | some st => st | none => initState c y)

/-- `get_state`: pooling.py:173-175. -/
def get (i : St Y) : Option (St Y) := if i.buffer.length > 0 then some i else none

/-- `_PoolNd`. -/
def mod : EMod (List X) (List Y) := ofStep ⟨[], 0, 0⟩ get (pstep c)

end Pool

end CoInf.Shape
