/-
Tensors as mutable objects: the state handling of /repo/continual with in-place writes and aliasing.

A memory is a list of tensors; a tensor is the list of its rows along the first axis.  A state tuple holds the address of
its buffer, the counters are plain values (the code never writes to them in place: it rebinds them, delay.py:107-109,
pooling.py:194-197, conv.py:267-274).  Tensors created by an operation get a new address.
-/
import Verif.Model.Pool

set_option autoImplicit false

namespace CoInf.Heap

/-- The memory: address `a` holds the tensor `h[a]`, whose rows are frames (or what a module keeps per frame). -/
abbrev Mem (V : Type) := List (List V)

/-- A tensor that is row `row` of the tensor at `addr` (as `buffer[index]` is in torch). -/
structure View where
  addr : Nat
  row : Nat
  deriving DecidableEq, Repr

variable {V : Type}

/-- Rows of the tensor at an address. -/
def read (h : Mem V) (a : Nat) : List V := h.getD a []

/-- The row that a view shows. -/
def View.read (h : Mem V) (v : View) : Option V := (Heap.read h v.addr)[v.row]?

/-- A new tensor. -/
def alloc (h : Mem V) (b : List V) : Nat × Mem V := (h.length, h ++ [b])

/-- `buffer[i] = v`: writes in place; everybody who holds the address sees it. -/
def store (h : Mem V) (a : Nat) (i : Int) (v : V) : Except Err (Mem V) :=
  (pySet (read h a) i v).map fun b => h.set a b

/-- Result of a functional step: output tensor, state, memory. -/
structure Out (V A : Type) where
  out : Option View
  state : Option (Nat × A)
  mem : Mem V

/-- A module that keeps a buffer and counters `A` and inherits the loops of `CoModule` (`Verif.Model.Core.Leaf` with
memory).  `reset` are the counters after construction and after `clean_state`. -/
structure HLeaf (X Y V : Type) where
  A : Type
  reset : A
  pstep : X → Option (Nat × A) → Mem V → Except Err (Out V A)
  fwd : List X → Except Err (List Y)
  padding : Nat
  makePad : X → X
  /-- The frame that a row of an output tensor stands for. -/
  frame : V → Option Y

namespace HLeaf
variable {X Y : Type} (L : HLeaf X Y V)

/-- Attributes `state_buffer` (an address) and counters. -/
abbrev Inst := Nat × L.A

/-- Construction: the buffer is `torch.tensor([])` (delay.py:62, conv.py:121, pooling.py:148). -/
def init : L.Inst × Mem V := ((0, L.reset), [[]])

/-- `clean_state`: delay.py:78-80, conv.py:157-160, pooling.py:168-171. -/
def clean (_ : L.Inst) (h : Mem V) : L.Inst × Mem V :=
  let (a, h) := alloc h []
  ((a, L.reset), h)

/-- `get_state`: delay.py:82-85, conv.py:162-165, pooling.py:173-175.  The returned tuple holds the buffer itself. -/
def get (i : L.Inst) (h : Mem V) : Option (Nat × L.A) := if (read h i.1).length > 0 then some i else none

/-- `_clone_first`: module.py:95-98. -/
def clone (s : Nat × L.A) (h : Mem V) : (Nat × L.A) × Mem V :=
  let (a, h) := alloc h (read h s.1)
  ((a, s.2), h)

/-- `if not update_state and state: state = _clone_first(state)`: module.py:213-214, 265-266. -/
def protect (upd : Bool) (s : Option (Nat × L.A)) (h : Mem V) : Option (Nat × L.A) × Mem V :=
  match upd, s with
  | false, some st => let (st', h') := L.clone st h; (some st', h')
  | _, _ => (s, h)

/-- `if update_state and state: self.set_state(state)`: module.py:217-218, 273-274. -/
def save (upd : Bool) (s : Option (Nat × L.A)) (i : L.Inst) : L.Inst :=
  match upd, s with
  | true, some st => st
  | _, _ => i

/-- `CoModule.forward_step`: module.py:213-219.  The returned tensor is the one `_forward_step` made. -/
def forwardStep (i : L.Inst) (upd : Bool) (x : X) (h : Mem V) : Except Err (Option View × L.Inst × Mem V) :=
  let (s, h) := L.protect upd (L.get i h) h
  match L.pstep x s h with
  | .error e => .error e
  | .ok r => .ok (r.out, L.save upd r.state i, r.mem)

/-- The loops of module.py:268-271 and 282-287; the list of collected output tensors. -/
def loop : List X → Option (Nat × L.A) → Mem V → Except Err (List View × Option (Nat × L.A) × Mem V)
  | [], s, h => .ok ([], s, h)
  | x :: xs, s, h =>
    match L.pstep x s h with
    | .error e => .error e
    | .ok r => match loop xs r.state r.mem with
      | .error e => .error e
      | .ok (os, s', h') => .ok (r.out.toList ++ os, s', h')

/-- `torch.stack(outs, dim=2)`: module.py:289-292; reads the tensors and makes a new one. -/
def stack (os : List View) (h : Mem V) : Option Nat × Mem V :=
  match os with
  | [] => (none, h)
  | _ => let (a, h') := alloc h (os.filterMap (View.read h)); (some a, h')

/-- The end padding frames: module.py:282-284. -/
def endPads (xs : List X) : Except Err (List X) :=
  match L.padding, xs.getLast? with
  | 0, _ => .ok []
  | _ + 1, none => .error .index
  | p + 1, some x => .ok (List.replicate (p + 1) (L.makePad x))

/-- The state from which the end padding runs: module.py:278-280. -/
def padState (i : L.Inst) (s : Option (Nat × L.A)) (h : Mem V) : Option (Nat × L.A) × Mem V :=
  match L.get i h with
  | some st => let (st', h') := L.clone st h; (some st', h')
  | none => (s, h)

/-- `CoModule._forward_steps_impl`: module.py:248-292. -/
def forwardSteps (i : L.Inst) (padEnd upd : Bool) (xs : List X) (h : Mem V) :
    Except Err (Option Nat × L.Inst × Mem V) :=
  let (s, h) := L.protect upd (L.get i h) h
  match L.loop xs s h with
  | .error e => .error e
  | .ok (os, s, h) =>
    let i := L.save upd s i
    if padEnd then
      match L.endPads xs with
      | .error e => .error e
      | .ok pads =>
        let (s, h) := L.padState i s h
        match L.loop pads s h with
        | .error e => .error e
        | .ok (os2, _, h) =>
          let (o, h) := stack (os ++ os2) h
          .ok (o, i, h)
    else
      let (o, h) := stack os h
      .ok (o, i, h)

end HLeaf

/-! ### The modules -/

/-- `Delay._forward_step`: delay.py:90-111. -/
def delayStep {X : Type} (c : Delay.Cfg X) (x : X) (s : Option (Nat × Int)) (h : Mem X) : Except Err (Out X Int) :=
  if c.d = 0 then
    -- returns the input tensor itself, which is not a tensor of this module
    let (a, h) := alloc h [x]
    .ok ⟨some ⟨a, 0⟩, s, h⟩
  else
    let ((a, index), h) := match s with
      | some st => (st, h)
      | none => let (a, h) := alloc h (Delay.initState c x).1; ((a, (Delay.initState c x).2), h)
    let newIndex := if index + 1 > 0 then (index + 1) % c.d else index + 1
    if index ≥ 0 then
      match pyGet (read h a) index with
      | .error e => .error e
      | .ok v =>
        -- `buffer[index].clone()`
        let (o, h) := alloc h [v]
        match store h a (index % c.d) x with
        | .error e => .error e
        | .ok h => .ok ⟨some ⟨o, 0⟩, some (a, newIndex), h⟩
    else
      match store h a (index % c.d) x with
      | .error e => .error e
      | .ok h => .ok ⟨none, some (a, newIndex), h⟩

/-- `Delay` with memory. (`padding` is temporarily `(delay,)`, delay.py:123.) -/
@[reducible] def delay {X : Type} (c : Delay.Cfg X) : HLeaf X X X where
  A := Int
  reset := 0
  pstep := delayStep c
  fwd := fun xs => .ok (Delay.forward c xs)
  padding := c.d
  makePad := c.fill
  frame := some

/-- `_PoolNd._forward_step`: pooling.py:180-212; the output is a new tensor made by the pooling function. -/
def poolStep {X Y : Type} (c : Pool.Cfg X Y) (x : X) (s : Option (Nat × Int × Int)) (h : Mem Y) :
    Except Err (Out Y (Int × Int)) :=
  let y := c.spatial x
  let ((a, index, strideIndex), h) := match s with
    | some st => (st, h)
    | none =>
      let st := Pool.initState c y
      let (a, h) := alloc h st.buffer
      ((a, st.index, st.strideIndex), h)
  match store h a index y with
  | .error e => .error e
  | .ok h =>
    let nextIndex := (index + 1) % (c.K : Int)
    if strideIndex = (c.S : Int) - 1 then
      match Pool.select c (read h a) nextIndex with
      | .error e => .error e
      | .ok sel =>
        let (o, h) := alloc h [c.pool sel]
        .ok ⟨some ⟨o, 0⟩, some (a, nextIndex, Conv.nextStride c.S strideIndex), h⟩
    else .ok ⟨none, some (a, nextIndex, Conv.nextStride c.S strideIndex), h⟩

/-- Pooling with memory. -/
@[reducible] def pool {X Y : Type} (c : Pool.Cfg X Y) : HLeaf X Y Y where
  A := Int × Int
  reset := (0, 0)
  pstep := poolStep c
  fwd := Pool.forward c
  padding := c.P
  makePad := c.fillIn
  frame := some

section
variable {X Y : Type} [Zero X] [AddCommMonoid Y]

/-- Next buffer: conv.py:263-270 (`next_buffer = buffer.clone() if self.training else buffer`). -/
def convWrite (c : Conv.Cfg X Y) (training : Bool) (a : Nat) (index : Int) (xRest : List Y) (h : Mem (List Y)) :
    Except Err ((Nat × Int) × Mem (List Y)) :=
  if c.K > 1 then
    let (a, h) := if training then alloc h (read h a) else (a, h)
    match store h a index xRest with
    | .error e => .error e
    | .ok h => .ok ((a, (index + 1) % ((c.K - 1 : Nat) : Int)), h)
  else .ok ((a, index), h)

/-- `_forward_step_py`: conv.py:200-278.  Outputs are new tensors; a frame `y` is stored as the row `[y]`. -/
def convStep (c : Conv.Cfg X Y) (training : Bool) (x : X) (s : Option (Nat × Int × Int)) (h : Mem (List Y)) :
    Except Err (Out (List Y) (Int × Int)) :=
  if Conv.stateless c then
    match Conv.forward c [x] with
    | .error e => .error e
    | .ok ys => match pyGet ys 0 with
      | .error e => .error e
      | .ok y => let (o, h) := alloc h [[y]]; .ok ⟨some ⟨o, 0⟩, s, h⟩
  else
    match pyGet (Conv.taps c x) 0 with
    | .error e => .error e
    | .ok xOut =>
      let xRest := (Conv.taps c x).drop 1
      let ((a, index, strideIndex), h) := match s with
        | some st => (st, h)
        | none =>
          let st := Conv.initState c xRest
          let (a, h) := alloc h st.buffer
          ((a, st.index, st.strideIndex), h)
      match Conv.output c ⟨read h a, index, strideIndex⟩ xOut with
      | .error e => .error e
      | .ok out =>
        let (o, h) := match out with
          | some y => let (o, h) := alloc h [[y]]; (some (View.mk o 0), h)
          | none => (none, h)
        match convWrite c training a index xRest h with
        | .error e => .error e
        | .ok ((a, index), h) => .ok ⟨o, some (a, index, Conv.nextStride c.S strideIndex), h⟩

/-- Convolution with memory, in training or evaluation mode. -/
@[reducible] def conv (c : Conv.Cfg X Y) (training : Bool) : HLeaf X Y (List Y) where
  A := Int × Int
  reset := (0, 0)
  pstep := convStep c training
  fwd := Conv.forward c
  padding := c.P
  makePad := c.fill.make 0
  frame := List.head?

end

/-! ### Scripts -/

/-- Calls of a user, including taking and putting back states. -/
inductive HCall (X : Type) where
  | step (upd : Bool) (x : X)
  | steps (padEnd upd : Bool) (xs : List X)
  | clean
  | fwd (xs : List X)
  | save            -- keep `m.get_state()`
  | saveClone       -- keep a copy of it: `_clone_first(m.get_state())`
  | restore (k : Nat)   -- `m.set_state` of the `k`-th kept state

/-- What a call returned: tensors by reference. -/
inductive HRes (Y : Type) where
  | frame (o : Option View)
  | clip (o : Option Nat)
  | done
  | whole (ys : List Y)
  | raised (e : Err)

/-- The module object, the states kept by the user, the memory. -/
structure World {X Y : Type} (L : HLeaf X Y V) where
  obj : L.Inst
  kept : List (Option (Nat × L.A))
  mem : Mem V

/-- A new object. -/
def World.new {X Y : Type} (L : HLeaf X Y V) : World L := ⟨L.init.1, [], L.init.2⟩

/-- Perform a call. Unpacking `None` or a missing entry raises (delay.py:88, conv.py:168, pooling.py:178). -/
def hcall {X Y : Type} (L : HLeaf X Y V) (w : World L) : HCall X → Except Err (HRes Y × World L)
  | .step u x => match L.forwardStep w.obj u x w.mem with
    | .error e => .error e
    | .ok (o, i, h) => .ok (.frame o, { w with obj := i, mem := h })
  | .steps p u xs => match L.forwardSteps w.obj p u xs w.mem with
    | .error e => .error e
    | .ok (o, i, h) => .ok (.clip o, { w with obj := i, mem := h })
  | .clean => .ok (.done, { w with obj := (L.clean w.obj w.mem).1, mem := (L.clean w.obj w.mem).2 })
  | .fwd xs => match L.fwd xs with
    | .error e => .error e
    | .ok ys => .ok (.whole ys, w)
  | .save => .ok (.done, { w with kept := w.kept ++ [L.get w.obj w.mem] })
  | .saveClone => match L.get w.obj w.mem with
    | none => .ok (.done, { w with kept := w.kept ++ [none] })
    | some s => .ok (.done, { w with kept := w.kept ++ [some (L.clone s w.mem).1], mem := (L.clone s w.mem).2 })
  | .restore k => match w.kept[k]? with
    | none => .error .index
    | some none => .error .type
    | some (some s) => .ok (.done, { w with obj := s })

/-- Perform calls up to the first exception. -/
def hcalls {X Y : Type} (L : HLeaf X Y V) (w : World L) : List (HCall X) → List (HRes Y) × World L
  | [] => ([], w)
  | c :: cs => match hcall L w c with
    | .error e => ([.raised e], w)
    | .ok (r, w') => (r :: (hcalls L w' cs).1, (hcalls L w' cs).2)

end CoInf.Heap
