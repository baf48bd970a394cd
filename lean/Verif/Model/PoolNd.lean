/-
Average and max pooling of /repo/continual/pooling.py with all their axes and options.

`Verif.Model.Pool` treats the temporal axis and leaves the pooling of a frame in space, the pooling in time and
the value torch pads with abstract.  Here the torch functions called by the code are written out, including
`ceil_mode`, `count_include_pad` and `divisor_override`.
-/
import Verif.Model.Pool
import Mathlib.Algebra.BigOperators.Pi
import Mathlib.Algebra.Field.Defs
import Mathlib.Data.Fintype.Pi
import Mathlib.Data.Finset.Lattice.Fold

set_option autoImplicit false

namespace CoInf.PoolNd

/-- Kernel size, stride, padding and dilation of one axis. -/
structure Axis where
  k : Nat
  s : Nat
  p : Nat
  d : Nat

/-- Output size of torch's pooling for an axis of `h` entries (`pooling_output_shape`; floor division; in
`ceil_mode` a last window that would start in the padding behind the input is dropped). -/
def Axis.out (a : Axis) (ceil : Bool) (h : Nat) : Int :=
  let o : Int := ((h : Int) + 2 * a.p - a.d * (a.k - 1) - 1 + (if ceil then (a.s : Int) - 1 else 0)) / a.s + 1
  if ceil ∧ (o - 1) * a.s ≥ h + a.p then o - 1 else o

/-- torch's argument checks: positive kernel and stride, padding of at most half the kernel size, some output.
(For dilated max pooling recent versions of torch allow more padding.) -/
def Axis.ok (a : Axis) (ceil : Bool) (h : Nat) : Prop := 1 ≤ a.k ∧ 1 ≤ a.s ∧ 2 * a.p ≤ a.k ∧ 1 ≤ a.out ceil h

instance (a : Axis) (ceil : Bool) (h : Nat) : Decidable (a.ok ceil h) := by unfold Axis.ok; infer_instance

/-- Number of entries of the `o`-th window, padding included: the window is cut off behind the padding. -/
def Axis.full (a : Axis) (h o : Nat) : Int := min ((o : Int) * a.s - a.p + a.k) ((h : Int) + a.p) - ((o : Int) * a.s - a.p)

/-- Number of entries of the `o`-th window inside the input. -/
def Axis.inside (a : Axis) (h o : Nat) : Int := min ((o : Int) * a.s - a.p + a.k) h - max ((o : Int) * a.s - a.p) 0

/-- Constructor arguments of a pooling class together with the spatial shape `h` of the frames; `n` is the number
of spatial axes (0, 1, 2 for the 1d, 2d, 3d classes). -/
structure Shape where
  n : Nat
  time : Axis
  sp : Fin n → Axis
  h : Fin n → Nat
  ceil : Bool

/-- Spatial size of a pooled frame. -/
def Shape.hout (c : Shape) (j : Fin c.n) : Nat := ((c.sp j).out c.ceil (c.h j)).toNat

/-- One input frame; `β` indexes batch and channels, which pooling treats alike. -/
abbrev Frame (R β : Type) (c : Shape) : Type := β → ((j : Fin c.n) → Fin (c.h j)) → R

/-- One output frame. -/
abbrev OutFrame (R β : Type) (c : Shape) : Type := β → ((j : Fin c.n) → Fin (c.hout j)) → R

/-- The spatial arguments are accepted by torch. -/
def Shape.okSpace (c : Shape) : Bool := decide (∀ j, (c.sp j).ok c.ceil (c.h j))

/-- A frame padded in space with `z`, read at a position of the padded frame. -/
def padded {R β : Type} (c : Shape) (z : R) (x : Frame R β c) (b : β) (q : Fin c.n → Nat) : R :=
  if hq : ∀ j, (c.sp j).p ≤ q j ∧ q j - (c.sp j).p < c.h j then x b fun j => ⟨q j - (c.sp j).p, (hq j).2⟩ else z

section
variable {X Y : Type} (ok : Bool) (a : Pool.Cfg X Y) (fwd : List X → Except Err (List Y))

/-- `_forward_step` (pooling.py:180-212): the spatial pooling comes first and raises if its arguments are not
accepted. -/
def pstep (x : X) (s : Option (Pool.St Y)) : Except Err (Option Y × Option (Pool.St Y)) :=
  match ok with
  | true => Pool.pstep a x s
  | false => .error .runtime

/-- State handling as in `Pool.leaf`. -/
@[reducible] def leaf : Leaf X Y := { Pool.leaf a with pstep := pstep ok a }

/-- `_PoolNd` with the `forward` of the torch class (first in the method resolution order). -/
@[reducible] def mod : CoMod (.stream X) (.stream Y) where
  Inst := Pool.St Y
  init := (leaf ok a).init
  clean := (leaf ok a).clean
  fwd := fun i xs => (fwd xs).map fun ys => (ys, i)
  step := (leaf ok a).forwardStep
  steps := (leaf ok a).forwardSteps
  St := Pool.St Y
  pstep := pstep ok a
  rf := a.dil * a.K
  stride := a.S
  padding := a.P
  delay := ((a.dil * a.K : Nat) : Int) - 1 - a.P
end

/-! ### Average pooling -/

section
variable {R β : Type} [Field R]

/-- Further arguments of `AvgPool{1,2,3}d`: pooling.py:274-302, 386-423, 516-554. -/
structure Avg where
  shape : Shape
  includePad : Bool
  divisor : Option Nat
  fill : Fill

variable (c : Avg)

/-- `divisor_override` reaches the reference of `AvgPool2d` and `AvgPool3d` but not `AvgPool1d`, which lacks the
argument. -/
def Avg.refDivisor : Option Nat := if c.shape.n = 0 then none else c.divisor

/-- `divisor_override` reaches the spatial pooling of `AvgPool3d` (pooling.py:546) but not that of `AvgPool2d`
(pooling.py:409-416: `F.avg_pool1d` lacks the argument). -/
def Avg.spDivisor : Option Nat := if c.shape.n = 2 then c.divisor else none

/-- Divisor of the spatial window at `p`. -/
def Avg.spDiv (p : (j : Fin c.shape.n) → Fin (c.shape.hout j)) : R :=
  match c.spDivisor with
  | some d => d
  | none =>
    if c.includePad then ∏ j, (((c.shape.sp j).full (c.shape.h j) (p j) : Int) : R)
    else ∏ j, (((c.shape.sp j).inside (c.shape.h j) (p j) : Int) : R)

/-- Sum over the spatial window at `p`. -/
def Avg.spSum (x : Frame R β c.shape) (b : β) (p : (j : Fin c.shape.n) → Fin (c.shape.hout j)) : R :=
  ∑ κ : (j : Fin c.shape.n) → Fin (c.shape.sp j).k, padded c.shape 0 x b fun j => p j * (c.shape.sp j).s + κ j

/-- `F.avg_pool1d` / `F.avg_pool2d` on one frame; `unity` for `AvgPool1d` (pooling.py:295, 409-416, 539-547). -/
def Avg.spatial (x : Frame R β c.shape) : OutFrame R β c.shape := fun b p => c.spSum x b p / c.spDiv p

/-- The temporal part; `AdaptiveAvgPool1d(1)` is the mean (pooling.py:101-137). -/
@[reducible] def Avg.cfg : Pool.Cfg (Frame R β c.shape) (OutFrame R β c.shape) where
  K := c.shape.time.k
  S := c.shape.time.s
  P := c.shape.time.p
  dil := c.shape.time.d
  spatial := c.spatial
  pool := fun l b p => (l.map fun y => y b p).sum / (l.length : R)
  fillIn := c.fill.make 0
  fillOut := c.fill.make 0
  refPad := 0

/-- The time axis as seen by the reference: average pooling of torch knows no dilation. -/
def Avg.refTime : Axis := { c.shape.time with d := 1 }

/-- Divisor of the window at time `m` and position `p` in the reference for a clip of `L` frames. -/
def Avg.refDiv (L m : Nat) (p : (j : Fin c.shape.n) → Fin (c.shape.hout j)) : R :=
  match c.refDivisor with
  | some d => d
  | none =>
    if c.includePad then (c.refTime.full L m : R) * ∏ j, (((c.shape.sp j).full (c.shape.h j) (p j) : Int) : R)
    else (c.refTime.inside L m : R) * ∏ j, (((c.shape.sp j).inside (c.shape.h j) (p j) : Int) : R)

/-- `forward` of `nn.AvgPool{1,2,3}d`. -/
def Avg.forward (xs : List (Frame R β c.shape)) : Except Err (List (OutFrame R β c.shape)) :=
  if xs = [] ∨ ¬ c.refTime.ok c.shape.ceil xs.length ∨ c.shape.okSpace = false then .error .runtime
  else .ok ((List.range (c.refTime.out c.shape.ceil xs.length).toNat).map fun m b p =>
    (∑ k : Fin c.refTime.k,
      if c.refTime.p ≤ m * c.refTime.s + k then
        match xs[m * c.refTime.s + k - c.refTime.p]? with
        | some x => c.spSum x b p
        | none => 0
      else 0) / c.refDiv xs.length m p)

/-- `AvgPool1d`, `AvgPool2d`, `AvgPool3d`. -/
@[reducible] def Avg.mod : CoMod (.stream (Frame R β c.shape)) (.stream (OutFrame R β c.shape)) :=
  PoolNd.mod c.shape.okSpace c.cfg c.forward

end

/-! ### Max pooling -/

section
variable {R β : Type} [Zero R] [LinearOrder R] [OrderBot R]

/-- Further arguments of `MaxPool{1,2,3}d`: pooling.py:630-657, 744-779, 868-903. -/
structure Max where
  shape : Shape
  fill : Pool.TFill

variable (c : Max)

/-- Maximum over the spatial window at `p`; torch pads with `-inf`: pooling.py:650, 764-772, 888-896. -/
def Max.spatial (x : Frame R β c.shape) : OutFrame R β c.shape := fun b p =>
  Finset.univ.sup fun κ : (j : Fin c.shape.n) → Fin (c.shape.sp j).k =>
    padded c.shape ⊥ x b fun j => p j * (c.shape.sp j).s + κ j * (c.shape.sp j).d

/-- The temporal part; `AdaptiveMaxPool1d(1)` is the maximum. -/
@[reducible] def Max.cfg : Pool.Cfg (Frame R β c.shape) (OutFrame R β c.shape) where
  K := c.shape.time.k
  S := c.shape.time.s
  P := c.shape.time.p
  dil := c.shape.time.d
  spatial := c.spatial
  pool := fun l b p => (l.map fun y => y b p).foldr max ⊥
  fillIn := c.fill.make
  fillOut := c.fill.make
  refPad := ⊥

/-- `forward` of `nn.MaxPool{1,2,3}d`. -/
def Max.forward (xs : List (Frame R β c.shape)) : Except Err (List (OutFrame R β c.shape)) :=
  if xs = [] ∨ ¬ c.shape.time.ok c.shape.ceil xs.length ∨ c.shape.okSpace = false then .error .runtime
  else .ok ((List.range (c.shape.time.out c.shape.ceil xs.length).toNat).map fun m b p =>
    Finset.univ.sup fun k : Fin c.shape.time.k =>
      if c.shape.time.p ≤ m * c.shape.time.s + k * c.shape.time.d then
        match xs[m * c.shape.time.s + k * c.shape.time.d - c.shape.time.p]? with
        | some x => c.spatial x b p
        | none => ⊥
      else ⊥)

/-- `MaxPool1d`, `MaxPool2d`, `MaxPool3d`. -/
@[reducible] def Max.mod : CoMod (.stream (Frame R β c.shape)) (.stream (OutFrame R β c.shape)) :=
  PoolNd.mod c.shape.okSpace c.cfg c.forward

end

end CoInf.PoolNd
