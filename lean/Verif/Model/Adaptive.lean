/-
Model of the adaptive poolings of /repo/continual/pooling.py:924-1232: `AdaptiveAvgPool{2,3}d`, `AdaptiveMaxPool{2,3}d`.
-/
import Verif.Model.Pool
import Mathlib.Algebra.Field.Defs
import Mathlib.Algebra.BigOperators.Group.List.Basic

set_option autoImplicit false

namespace CoInf.AdaptivePool

/-- Constructor arguments (pooling.py:954-978 and its copies): `outT` is `output_size[0]`, `pool` holds the arguments that
are passed on to `_PoolNd`, `clip` is what torch's adaptive pooling to one output frame computes for a whole clip. -/
structure Cfg (X Y : Type) where
  outT : Nat
  pool : Pool.Cfg X Y
  clip : List X → Y

variable {X Y : Type}

/-- `forward` is inherited from torch (`nn.AdaptiveAvgPool3d` precedes `_PoolNd` among the base classes): the time axis is
pooled to `output_size[0] = 1` frames; torch raises for a clip without frames.  Everything else is inherited from `_PoolNd`. -/
@[reducible] def mod (c : Cfg X Y) : CoMod (.stream X) (.stream Y) :=
  { Pool.mod c.pool with
    fwd := fun i xs => if xs = [] then .error .runtime else .ok ([c.clip xs], i) }

/-- The constructor: pooling.py:963-964 asserts `output_size[0] == 1`, pooling.py:82-84 that the kernel is not empty. -/
def make (c : Cfg X Y) : Except Err (CoMod (.stream X) (.stream Y)) :=
  if c.outT = 1 then
    if 0 < c.pool.K then .ok (mod c) else .error .assertion
  else .error .assertion

/-! ### The two kinds

A frame is a function from cells (pixels) to numbers; the output cell `q` pools the cells `region q`. -/

/-- `F.adaptive_avg_pool{1,2}d` of one frame. -/
def avgSpace {F P Q : Type} [Field F] (region : Q → List P) (x : P → F) : Q → F :=
  fun q => ((region q).map x).sum / (region q).length

/-- `nn.AdaptiveAvgPool1d(1)` over the time axis: pooling.py:101-105. -/
def avgTime {F Q : Type} [Field F] (ys : List (Q → F)) : Q → F :=
  fun q => (ys.map fun y => y q).sum / ys.length

/-- torch's adaptive average pooling of a clip to one frame: the mean over all frames and all cells of the region. -/
def avgClip {F P Q : Type} [Field F] (region : Q → List P) (xs : List (P → F)) : Q → F :=
  fun q => (xs.flatMap fun x => (region q).map x).sum / (xs.flatMap fun x => (region q).map x).length

/-- `AdaptiveAvgPool{2,3}d(output_size, kernel_size, stride, padding)`, `temporal_fill="zeros"`. -/
def avg {F P Q : Type} [Field F] (region : Q → List P) (outT K S Pad : Nat) : Cfg (P → F) (Q → F) where
  outT := outT
  pool :=
    { K := K, S := S, P := Pad, dil := 1, spatial := avgSpace region, pool := avgTime,
      fillIn := fun _ _ => 0, fillOut := fun _ _ => 0, refPad := fun _ => 0 }
  clip := avgClip region

/-- The largest element. -/
def maxOf {F : Type} [LinearOrder F] [OrderBot F] (l : List F) : F := l.foldr max ⊥

/-- `AdaptiveMaxPool{2,3}d(output_size, kernel_size, stride, padding)`, `temporal_fill="zeros"`. -/
def maximum {F P Q : Type} [Zero F] [LinearOrder F] [OrderBot F] (region : Q → List P) (outT K S Pad : Nat) : Cfg (P → F) (Q → F) where
  outT := outT
  pool :=
    { K := K, S := S, P := Pad, dil := 1, spatial := fun x q => maxOf ((region q).map x),
      pool := fun ys q => maxOf (ys.map fun y => y q), fillIn := fun _ _ => 0, fillOut := fun _ _ => 0, refPad := fun _ => ⊥ }
  clip := fun xs q => maxOf (xs.flatMap fun x => (region q).map x)

end CoInf.AdaptivePool
