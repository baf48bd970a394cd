/-
Devices of the tensors of a step.

/repo/continual/conv.py:121-123, 143-160, 200-278; pooling.py:139-212; delay.py:62-117; skip.py:30-57; rnn.py:176-217 (GRU 391-432,
LSTM 648-690); positional_encoding.py:89-90, 136-148, 172-196; multihead_attention/mha_base.py:374-478; container.py:639-648,
714-717, 871-879, 914-917, 1048-1053.

The rules of torch, which are assumed:
* an operation of two tensors raises `RuntimeError` if they lie on different devices, except that a tensor without axes on the
  CPU goes with any device;
* `t[i]` takes an index tensor without axes from any device, other index tensors from the CPU or the device of `t`;
* `index_select`, embeddings and recurrent layers want everything on one device;
* `t[i] = v` copies `v` to the device of `t`;
* `module.to(device)` moves parameters and registered buffers of the module and its children, but no other attributes.

The values of the tensors are those of the models of the modules without devices.
-/
import Verif.Model.Container
import Verif.Model.Broadcast
import Verif.Model.Pool
import Verif.Model.Rnn
import Verif.Model.PosEnc
import Verif.Model.Attention
import Verif.Model.Conditional

set_option autoImplicit false

namespace CoInf.Device

/-- Devices. -/
inductive Dev where
  | cpu
  | gpu (n : Nat)
  deriving DecidableEq, Repr

/-- A tensor with at least one axis. -/
structure T (α : Type) where
  dev : Dev
  val : α

/-- An operation of two tensors with axes. -/
def same (a b : Dev) : Except Err Dev := if a = b then .ok a else .error .runtime

/-- An operation of a tensor with axes and one without. -/
def withScalar (a scalar : Dev) : Except Err Dev := if scalar = a ∨ scalar = .cpu then .ok a else .error .runtime

/-- `t[idx]`, where `idx` has axes. -/
def indexBy (t idx : Dev) : Except Err Dev := if idx = .cpu ∨ idx = t then .ok t else .error .runtime

/-- `t.index_select(dim, idx)` and embeddings. -/
def selectBy (t idx : Dev) : Except Err Dev := if idx = t then .ok t else .error .runtime

/-- A module with devices. -/
structure Mov (X Y : Type) where
  Inst : Type
  init : Inst
  /-- `module.to(device)` -/
  move : Dev → Inst → Inst
  /-- `clean_state()` -/
  clean : Inst → Inst
  /-- `forward_step(input)` -/
  step : Inst → T X → Except Err (Option (T Y) × Inst)

variable {X Y Z : Type}

/-! ### Convolution -/

/-- Device of the parameters; the state tensors and their devices. -/
structure ConvInst (Y : Type) where
  w : Dev
  st : Conv.St Y
  buf : Dev
  idx : Dev
  str : Dev

section conv
variable [Zero X] [Zero Y] [Add Y] (c : Conv.Cfg X Y)

/-- `forward_step`: conv.py:200-278, module.py:213-219.  `init_state` makes both counters on the CPU and the buffer on the device of
the frame, which has been brought to the device of the weights (conv.py:143-155, 204). -/
def convStep (i : ConvInst Y) (x : T X) : Except Err (Option (T Y) × ConvInst Y) :=
  if Conv.stateless c then
    match Conv.pstep c x.val ((Conv.leaf c).get i.st) with
    | .error e => .error e
    | .ok (o, _) => .ok (o.map (T.mk i.w), i)
  else
    let held := 0 < i.st.buffer.length
    let buf := if held then i.buf else i.w
    let idx := if held then i.idx else .cpu
    let str := if held then i.str else .cpu
    let stride := if held then i.st.strideIndex else (Conv.initState c []).strideIndex
    let out : Except Err Dev :=
      if stride = (c.S : Int) - 1 then
        -- `torch.arange(tot) + index`
        match withScalar .cpu idx with
        | .error e => .error e
        | .ok sel =>
          -- `buffer[…]`
          match indexBy buf sel with
          | .error e => .error e
          -- `x_out + …`
          | .ok rows => same i.w rows
      else .ok i.w
    match out with
    | .error e => .error e
    | .ok d =>
      match Conv.pstep c x.val ((Conv.leaf c).get i.st) with
      | .error e => .error e
      | .ok (o, some st) => .ok (o.map (T.mk d), ⟨i.w, st, buf, idx, str⟩)
      | .ok (o, none) => .ok (o.map (T.mk d), i)

/-- conv.py:121-123 (registered buffers), 157-160 (`clean_state`). -/
@[reducible] def conv : Mov X Y where
  Inst := ConvInst Y
  init := ⟨.cpu, (Conv.leaf c).init, .cpu, .cpu, .cpu⟩
  move := fun d i => ⟨d, i.st, d, d, d⟩
  clean := fun i => ⟨i.w, (Conv.leaf c).clean i.st, i.buf, .cpu, .cpu⟩
  step := convStep c

end conv

/-! ### Pooling -/

/-- The state tensors and their devices. -/
structure PoolInst (Y : Type) where
  st : Pool.St Y
  buf : Dev
  idx : Dev
  str : Dev

section pool
variable (c : Pool.Cfg X Y)

/-- `forward_step`: pooling.py:180-212.  `_frame_index_selection` (139-146) is an attribute of the object, but not a registered
buffer, so that it remains on the CPU. -/
def poolStep (i : PoolInst Y) (x : T X) : Except Err (Option (T Y) × PoolInst Y) :=
  let held := 0 < i.st.buffer.length
  let buf := if held then i.buf else x.dev
  let idx := if held then i.idx else .cpu
  let str := if held then i.str else .cpu
  let stride := if held then i.st.strideIndex else (c.S : Int) - Pool.bufLen c + c.P
  let out : Except Err Dev :=
    if stride = (c.S : Int) - 1 ∧ c.dil ≠ 1 then
      -- `self._frame_index_selection + next_index`
      match withScalar .cpu idx with
      | .error e => .error e
      -- `buffer.index_select`
      | .ok sel => selectBy buf sel
    else .ok buf
  match out with
  | .error e => .error e
  | .ok d =>
    match Pool.pstep c x.val ((Pool.leaf c).get i.st) with
    | .error e => .error e
    | .ok (o, some st) => .ok (o.map (T.mk d), ⟨st, buf, idx, str⟩)
    | .ok (o, none) => .ok (o.map (T.mk d), i)

/-- pooling.py:148-150 (registered buffers), 168-171 (`clean_state`). -/
@[reducible] def pool : Mov X Y where
  Inst := PoolInst Y
  init := ⟨(Pool.leaf c).init, .cpu, .cpu, .cpu⟩
  move := fun d i => ⟨i.st, d, d, d⟩
  clean := fun i => ⟨(Pool.leaf c).clean i.st, i.buf, .cpu, .cpu⟩
  step := poolStep c

end pool

/-! ### Delay and skip -/

section delay
variable (c : Delay.Cfg X)

/-- `forward_step`: delay.py:90-117.  Object: the state tensors and the device of the buffer (the index has no axes, its device does
not matter). -/
def delayStep (i : Delay.St X × Dev) (x : T X) : Except Err (Option (T X) × (Delay.St X × Dev)) :=
  if c.d = 0 then .ok (some x, i)
  else
    let buf := if 0 < i.1.1.length then i.2 else x.dev
    match Delay.pstep c x.val ((Delay.leaf c).get i.1) with
    | .error e => .error e
    | .ok (o, some st) => .ok (o.map (T.mk buf), (st, buf))
    | .ok (o, none) => .ok (o.map (T.mk buf), i)

/-- delay.py:62-63 (registered buffers), 78-80 (`clean_state`). -/
@[reducible] def delay : Mov X X where
  Inst := Delay.St X × Dev
  init := ((Delay.leaf c).init, .cpu)
  move := fun d i => (i.1, d)
  clean := fun i => ((Delay.leaf c).clean i.1, i.2)
  step := delayStep c

end delay

/-- skip.py:30-57: the frames pass as they are. -/
@[reducible] def skip (n : Nat) (X : Type) : Mov X X where
  Inst := Int
  init := (Skip.leaf n X).init
  move := fun _ i => i
  clean := (Skip.leaf n X).clean
  step := fun i x =>
    match Skip.pstep n x (some i) with
    | .error e => .error e
    | .ok (o, some s) => .ok (o, s)
    | .ok (o, none) => .ok (o, i)

/-- A layer that works frame by frame, with parameters or (`none`) without: the torch layer wants the frame on the device of its
parameters. -/
@[reducible] def framewise (params : Bool) (f : X → Y) : Mov X Y where
  Inst := Dev
  init := .cpu
  move := fun d _ => d
  clean := fun i => i
  step := fun i x =>
    if params ∧ i ≠ x.dev then .error .runtime
    else .ok (some ⟨x.dev, f x.val⟩, i)

/-! ### Recurrent layers -/

/-- Device of the parameters; the hidden state and its device. -/
structure RnnInst (S : Type) where
  w : Dev
  hidden : Option (List S)
  h : Dev

section rnn
variable {V S : Type} (c : Rnn.Cfg V S)

/-- `forward_step`: rnn.py:204-217, 419-432, 678-690. -/
def rnnStep (i : RnnInst S) (x : T V) : Except Err (Option (T V) × RnnInst S) :=
  match same x.dev i.w with
  | .error e => .error e
  | .ok d =>
    match (match i.hidden with
      | none => Except.ok d
      | some _ => same d i.h) with
    | .error e => .error e
    | .ok d =>
      match Rnn.forwardStep c i.hidden true x.val with
      | .error e => .error e
      | .ok (o, s) => .ok (o.map (T.mk d), ⟨i.w, s, d⟩)

/-- `_hidden_state` and `_cell_state` are not registered (rnn.py:183-194, 398-409, 655-666): `to` leaves them where they are. -/
@[reducible] def rnn : Mov V V where
  Inst := RnnInst S
  init := ⟨.cpu, none, .cpu⟩
  move := fun d i => ⟨d, i.hidden, i.h⟩
  clean := fun i => ⟨i.w, none, i.h⟩
  step := rnnStep c

end rnn

/-! ### Positional encoding -/

/-- Device of the embeddings; `state_index` and its device. -/
structure PosInst where
  w : Dev
  s : Int
  idx : Dev

section pos
variable {V : Type} (c : PosEnc.Cfg V) (learned : Bool)

/-- `forward_step`: positional_encoding.py:172-177.  `self.state_index.unsqueeze(0)` has an axis; it goes to `nn.Embedding`
(`learned`) or into `self.pattern[…]` (89-90). -/
def posStep (i : PosInst) (x : T V) : Except Err (Option (T V) × PosInst) :=
  match (if learned then selectBy i.w i.idx else indexBy i.w i.idx) with
  | .error e => .error e
  | .ok e =>
    -- `input + …`
    match same x.dev e with
    | .error e => .error e
    | .ok d =>
      match PosEnc.forwardStep c i.s true x.val with
      | .error e => .error e
      | .ok (o, s) => .ok (o.map (T.mk d), ⟨i.w, s, i.idx⟩)

/-- positional_encoding.py:136-148 (`state_index` is a registered buffer), 195-196 (`clean_state`). -/
@[reducible] def pos : Mov V V where
  Inst := PosInst
  init := ⟨.cpu, 0, .cpu⟩
  move := fun d i => ⟨d, i.s, d⟩
  clean := fun i => ⟨i.w, 0, .cpu⟩
  step := posStep c learned

end pos

/-! ### Attention -/

/-- Device of the parameters; the state tensors, all of which are registered (retroactive_mha.py:250-255, single_output_mha.py:
231-234), and their device. -/
structure AttnInst (b : Attn.Base X Y) where
  w : Dev
  st : Option (b.S × Int)
  mem : Dev

section attn
variable (b : Attn.Base X Y)

/-- `forward_step`: mha_base.py:374-478.  The state is made on the device of the query (391-399). -/
def attnStep (i : AttnInst b) (x : T X) : Except Err (Option (T Y) × AttnInst b) :=
  match same x.dev i.w with
  | .error e => .error e
  | .ok d =>
    match (match i.st with
      | none => Except.ok d
      | some _ => same d i.mem) with
    | .error e => .error e
    | .ok d =>
      match Attn.step b i.st true x.val with
      | .error e => .error e
      | .ok (o, s) => .ok (o.map (T.mk d), ⟨i.w, s, d⟩)

/-- retroactive_mha.py:250-284, single_output_mha.py:231-258. -/
@[reducible] def attn : Mov X Y where
  Inst := AttnInst b
  init := ⟨.cpu, none, .cpu⟩
  move := fun d i => ⟨d, i.st, d⟩
  clean := fun i => ⟨i.w, none, i.mem⟩
  step := attnStep b

end attn

/-! ### Containers -/

/-- `Sequential` of two members (the second of which may again be one): container.py:639-648, 714-717. -/
@[reducible] def seq (M : Mov X Y) (N : Mov Y Z) : Mov X Z where
  Inst := M.Inst × N.Inst
  init := (M.init, N.init)
  move := fun d i => (M.move d i.1, N.move d i.2)
  clean := fun i => (M.clean i.1, N.clean i.2)
  step := fun i x =>
    match M.step i.1 x with
    | .error e => .error e
    | .ok (none, i1) => .ok (none, (i1, i.2))
    | .ok (some y, i1) =>
      match N.step i.2 y with
      | .error e => .error e
      | .ok (z, i2) => .ok (z, (i1, i2))

namespace Branches

/-- The objects of the branches. -/
@[reducible] def Inst : List (Mov X Y) → Type
  | [] => Unit
  | M :: Ms => M.Inst × Inst Ms

/-- The branches after construction. -/
def init : (Ms : List (Mov X Y)) → Inst Ms
  | [] => ()
  | M :: Ms => (M.init, init Ms)

/-- `to` moves the children. -/
def move (d : Dev) : (Ms : List (Mov X Y)) → Inst Ms → Inst Ms
  | [], i => i
  | M :: Ms, i => (M.move d i.1, move d Ms i.2)

/-- `clean_state`: container.py:914-917. -/
def clean : (Ms : List (Mov X Y)) → Inst Ms → Inst Ms
  | [], i => i
  | M :: Ms, i => (M.clean i.1, clean Ms i.2)

/-- The loop of `forward_step`: container.py:872-875. -/
def stepAll : (Ms : List (Mov X Y)) → Inst Ms → T X → Except Err (List (Option (T Y)) × Inst Ms)
  | [], i, _ => .ok ([], i)
  | M :: Ms, i, x =>
    match M.step i.1 x with
    | .error e => .error e
    | .ok (o, i1) =>
      match stepAll Ms i.2 x with
      | .error e => .error e
      | .ok (os, i2) => .ok (o :: os, (i1, i2))

/-- The reduction of the results, a torch operation on tensors that have to lie on one device. -/
def reduce (r : Reducer Y Z) : List (T Y) → Except Err (T Z)
  | [] => .error .runtime
  | t :: ts =>
    if ∀ t' ∈ ts, t'.dev = t.dev then (r.frame ((t :: ts).map T.val)).map (T.mk t.dev)
    else .error .runtime

end Branches

/-- `BroadcastReduce.forward_step`: container.py:871-879. -/
@[reducible] def branches (r : Reducer Y Z) (Ms : List (Mov X Y)) : Mov X Z where
  Inst := Branches.Inst Ms
  init := Branches.init Ms
  move := fun d => Branches.move d Ms
  clean := Branches.clean Ms
  step := fun i x =>
    match Branches.stepAll Ms i x with
    | .error e => .error e
    | .ok (os, i') =>
      match nonempty (Branches.reduce r) os with
      | .error e => .error e
      | .ok o => .ok (o, i')

/-- `Conditional.forward_step` with two branches: container.py:1048-1053.  The predicate looks at the values of the frame; `clean_state`
is the default, which does nothing (module.py:184-186). -/
@[reducible] def conditional (p : Conditional.Pred X) (M N : Mov X X) : Mov X X where
  Inst := M.Inst × N.Inst
  init := (M.init, N.init)
  move := fun d i => (M.move d i.1, N.move d i.2)
  clean := id
  step := fun i x => if p.frame x.val then (M.step i.1 x).map fun q => (q.1, (q.2, i.2))
    else (N.step i.2 x).map fun q => (q.1, (i.1, q.2))

/-- `Conditional.forward_step` without an alternative: container.py:1048-1053. -/
@[reducible] def conditionalOnly (p : Conditional.Pred X) (M : Mov X X) : Mov X X where
  Inst := M.Inst
  init := M.init
  move := M.move
  clean := id
  step := fun i x => if p.frame x.val then M.step i x else .ok (some x, i)

end CoInf.Device
