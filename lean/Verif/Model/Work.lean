/-
The products that the calls of continual convolutions carry out (/repo/continual/conv.py:200-278, 288-325), one by one:
instrumented versions of the functions of `Verif.Model.Conv` and of `Sequential` (/repo/continual/container.py:633-648),
which return next to their result the number of products of a temporal slice of a kernel with a frame.

Assumed: `torch`'s convolutions carry out the products of the convolution formula, including those with frames that the
`padding` argument adds (a backend may skip them; both numbers are kept).  Additions and frame-wise modules are not counted.
-/
import Verif.Model.Conv
import Verif.Model.Container
import Verif.Model.Closure
import Mathlib.Algebra.Group.Prod

set_option autoImplicit false

namespace CoInf.Work

variable {X Y Z : Type}

/-- Products in all, and those with a frame that is not zero padding. -/
abbrev Cost := Nat × Nat

/-- The product of a temporal slice of the kernel with a frame; `none` is a frame of zeros that the convolution pads with. -/
def prod [Zero Y] (f : X → Y) : Option X → Y × Cost
  | some z => (f z, (1, 1))
  | none => (0, (1, 0))

/-- Results of a list of computations and what they cost together. -/
def seqC {α : Type} (l : List (α × Cost)) : List α × Cost := (l.map Prod.fst, (l.map Prod.snd).sum)

/-- The product at position `i` of the padded clip (all positions that occur are within the clip). -/
def tapC [Zero Y] (f : X → Y) (zs : List (Option X)) (i : Nat) : Y × Cost :=
  match zs[i]? with
  | some z => prod f z
  | none => (0, (0, 0))

/-- One frame of the result of a convolution: the sum of `K` products. -/
def frameC [Zero Y] [Add Y] (c : Conv.Cfg X Y) (zs : List (Option X)) (i : Nat) : Y × Cost :=
  let r := seqC ((List.range c.K).map fun k => tapC (c.w k) zs (i + k))
  (r.1.sum, r.2)

/-- `self._conv_func(input, weight, bias=None, stride=S)` on a clip padded along time. -/
def convC [Zero Y] [Add Y] (c : Conv.Cfg X Y) (S : Nat) (zs : List (Option X)) : List Y × Cost :=
  seqC ((List.range ((zs.length - c.K) / S + 1)).map fun j => frameC c zs (j * S))

/-- The frames of time padding of `forward`, conv.py:302-323: zeros by the `padding` argument of the convolution, or copies of
the outermost frame by `F.pad`. -/
def padC (c : Conv.Cfg X Y) (a : X) : List (Option X) :=
  match c.padMode with
  | .zeros => List.replicate c.P none
  | .replicate => List.replicate c.P (some a)

/-- `forward`: conv.py:288-325. -/
def forwardC [Zero Y] [Add Y] (c : Conv.Cfg X Y) (xs : List X) : Except Err (List Y × Cost) :=
  match xs.head?, xs.getLast? with
  | some a, some b =>
    let zs := padC c a ++ xs.map some ++ padC c b
    if zs.length < c.K then .error .runtime
    else .ok ((convC c c.S zs).1.map (Conv.addBias c), (convC c c.S zs).2)
  | _, _ => .error .runtime

/-- The convolution of `_forward_step_py`, conv.py:209-228: stride 1 along time (`_step_stride`, conv.py:119) on the frame
padded with `K - 1` frames on each side (`_step_padding`, `_step_time_pad`, conv.py:114-118). -/
def tapsC [Zero Y] [Add Y] (c : Conv.Cfg X Y) (x : X) : List Y × Cost :=
  convC c 1 (List.replicate (c.K - 1) none ++ [some x] ++ List.replicate (c.K - 1) none)

/-- `_forward_step_py`: conv.py:200-278. -/
def pstepC [Zero Y] [Add Y] (c : Conv.Cfg X Y) (x : X) (s : Option (Conv.St Y)) :
    Except Err ((Option Y × Option (Conv.St Y)) × Cost) :=
  if Conv.stateless c then do
    let r ← forwardC c [x]
    let y ← pyGet r.1 0
    return ((some y, s), r.2)
  else do
    let xOut ← pyGet (tapsC c x).1 0
    let xRest := (tapsC c x).1.drop 1
    let st := match s with
      | some st => st
      | none => Conv.initState c xRest
    let out ← Conv.output c st xOut
    let next ← Conv.writeBack c st xRest
    return ((out, some ⟨next.1, next.2, Conv.nextStride c.S st.strideIndex⟩), (tapsC c x).2)

/-- A module with calls that count. -/
structure Metered (X Y : Type) where
  m : CoMod (.stream X) (.stream Y)
  fwd : m.Inst → List X → Except Err ((List Y × m.Inst) × Cost)
  step : m.Inst → Bool → X → Except Err ((Option Y × m.Inst) × Cost)

/-- A continual convolution: `forward_step` is module.py:192-219. -/
def conv [Zero X] [Zero Y] [Add Y] (c : Conv.Cfg X Y) : Metered X Y where
  m := Conv.mod c
  fwd := fun i xs => (forwardC c xs).map fun r => ((r.1, i), r.2)
  step := fun i upd x =>
    (pstepC c x ((Conv.leaf c).get i)).map fun r => ((r.1.1, (Conv.leaf c).save upd r.1.2 i), r.2)

/-- A frame-wise module; its operations are not counted. -/
def pointwise (f : X → Y) : Metered X Y where
  m := Pointwise.mod f
  fwd := fun i xs => ((Pointwise.mod f).fwd i xs).map fun r => (r, 0)
  step := fun i upd x => ((Pointwise.mod f).step i upd x).map fun r => (r, 0)

/-- The members of a `Sequential`. -/
inductive MChain : Type → Type → Type 1 where
  | single {X Y : Type} (M : Metered X Y) : MChain X Y
  | cons {X Y Z : Type} (M : Metered X Y) (C : MChain Y Z) : MChain X Z

/-- The members without counters. -/
@[reducible] def MChain.chain : {X Y : Type} → MChain X Y → Chain (.stream X) (.stream Y)
  | _, _, .single M => .single M.m
  | _, _, .cons M C => .cons M.m C.chain

/-- `Sequential.forward`: container.py:633-637. -/
def MChain.fwd : {X Y : Type} → (C : MChain X Y) → C.chain.Inst → List X → Except Err ((List Y × C.chain.Inst) × Cost)
  | _, _, .single M, i, xs => M.fwd i xs
  | _, _, .cons M C, i, xs =>
    let i : M.m.Inst × C.chain.Inst := i
    do
    let r ← M.fwd i.1 xs
    let q ← C.fwd i.2 r.1.1
    return ((q.1.1, (r.1.2, q.1.2)), r.2 + q.2)

/-- `Sequential.forward_step`: container.py:639-648. -/
def MChain.step : {X Y : Type} → (C : MChain X Y) → C.chain.Inst → Bool → X → Except Err ((Option Y × C.chain.Inst) × Cost)
  | _, _, .single M, i, u, x => M.step i u x
  | _, _, .cons M C, i, u, x =>
    let i : M.m.Inst × C.chain.Inst := i
    do
    let r ← M.step i.1 u x
    match r.1.1 with
    | none => return ((none, (r.1.2, i.2)), r.2)
    | some y =>
      let q ← C.step i.2 u y
      return ((q.1.1, (r.1.2, q.1.2)), r.2 + q.2)

/-- A stream of frames: the outputs, and the products of all calls together. -/
def MChain.run {X Y : Type} (C : MChain X Y) : C.chain.Inst → List X → Except Err ((List (Option Y) × C.chain.Inst) × Cost)
  | i, [] => .ok (([], i), 0)
  | i, x :: xs => do
    let r ← C.step i true x
    let q ← C.run r.1.2 xs
    return ((r.1.1 :: q.1.1, q.1.2), r.2 + q.2)

end CoInf.Work
