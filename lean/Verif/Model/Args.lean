/-
The forms in which kernel size, stride, padding and dilation may be given.

/repo/continual/conv.py:68-119, 197-218, 302-311, 327-329, pooling.py:62-84 and the constructors of the pooling
modules (pooling.py:275-302, 386-423, 516-554, 630-657, 744-779, 868-903).

Assumed of torch: `_ntuple(n)(x)` is `tuple(x)` for an iterable `x`, of whatever length, and `(x, ..., x)` otherwise; the functional
convolutions and poolings repeat a sequence of length one for all axes, refuse other lengths than one and the number of axes
(`RuntimeError`) and values that are not integers (`TypeError`); an empty stride of a pooling means the kernel size; `nn.ConvNd` stores
padding that is not a `str` as it is.  `n` is the number of axes, the first of which is time.
-/
import Verif.Model.Core

set_option autoImplicit false

namespace CoInf.Args

/-- An argument. -/
inductive Size where
  | int (k : Nat)
  | seq (l : List Nat)
  | str (s : String)
  | none
  deriving DecidableEq, Repr

/-- An element of a tuple of sizes. -/
inductive Elem where
  | num (k : Nat)
  | letter (c : Char)
  | none
  deriving DecidableEq, Repr

/-- `_ntuple(n)`. -/
def ntuple (n : Nat) : Size → List Elem
  | .int k => List.replicate n (.num k)
  | .seq l => l.map .num
  | .str s => s.toList.map .letter
  | .none => List.replicate n .none

/-- The integers among the elements; anything else raises `TypeError` in torch. -/
def nums : List Elem → Except Err (List Nat)
  | [] => .ok []
  | .num k :: es => (nums es).map (k :: ·)
  | _ :: _ => .error .type

/-- How the functions of torch read a parameter for `n` axes. -/
def expand (n : Nat) (es : List Elem) : Except Err (List Nat) := do
  match ← nums es with
  | [k] => pure (List.replicate n k)
  | l => if l.length = n then pure l else throw .runtime

/-- `x[0]` as a number in an expression. -/
def first : List Elem → Except Err Nat
  | [] => .error .index
  | .num k :: _ => .ok k
  | _ :: _ => .error .type

/-- Attributes of a convolution. -/
structure Conv where
  kernel : List Elem
  stride : List Elem
  padding : List Elem
  dilation : List Elem

/-- `_ConvCoNd.__init__`: conv.py:68-119.  The stride is compared with a number, the dilation for equality. -/
def convInit (n : Nat) (kernel stride padding dilation : Size) : Except Err Conv := do
  let c : Conv := ⟨ntuple n kernel, ntuple n stride, ntuple n padding, ntuple n dilation⟩
  let _ ← first c.stride
  match c.dilation with
  | [] => throw .index
  | d :: _ => if d = .num 1 then pure () else throw .assertion
  let _ ← first c.kernel
  pure c

/-- Stride, padding and dilation that `forward` uses, conv.py:302-311. -/
def Conv.forwardAxes (n : Nat) (c : Conv) : Except Err (List Nat × List Nat × List Nat) := do
  return (← expand n c.stride, ← expand n c.padding, ← expand n c.dilation)

/-- Those that `forward_step` uses: conv.py:112-119, 208-218. -/
def Conv.stepAxes (n : Nat) (c : Conv) : Except Err (List Nat × List Nat × List Nat) := do
  let k ← first c.kernel
  return (← expand n (.num 1 :: c.stride.tail), ← expand n (.num (k - 1) :: c.padding.tail), ← expand n c.dilation)

/-- `delay`: module.py:188-190, conv.py:327-329. -/
def Conv.delay (c : Conv) : Except Err Int := do
  let k ← first c.kernel
  let d ← first c.dilation
  let p ← first c.padding
  return ((k + (k - 1) * (d - 1) : Nat) : Int) - 1 - p

/-- Attributes of a pooling. -/
structure Pool where
  kernel : List Elem
  stride : List Elem
  padding : List Elem
  dilation : List Elem

/-- Constructor of a pooling, e.g. pooling.py:868-903: the default of the stride is the kernel size. -/
def poolInit (n : Nat) (kernel : Size) (stride : Size) (padding dilation : Size) : Except Err Pool := do
  let s := if stride = .none then kernel else stride
  let c : Pool := ⟨ntuple n kernel, ntuple n s, ntuple n padding, ntuple n dilation⟩
  let k ← first c.kernel
  if 0 < k then pure c else throw .assertion

/-- A parameter that may be left out: the stride of a pooling. -/
def expandStride (n : Nat) (kernel es : List Elem) : Except Err (List Nat) :=
  if es = [] then expand n kernel else expand n es

/-- Kernel size, stride and padding that `forward` uses (inherited from torch). -/
def Pool.forwardAxes (n : Nat) (c : Pool) : Except Err (List Nat × List Nat × List Nat) := do
  return (← expand n c.kernel, ← expandStride n c.kernel c.stride, ← expand n c.padding)

/-- Those that `_spatial_pool_fn` uses for `n` axes of which the first is time, e.g. pooling.py:885-895. -/
def Pool.spatialAxes (n : Nat) (c : Pool) : Except Err (List Nat × List Nat × List Nat) := do
  return (← expand (n - 1) c.kernel.tail, ← expandStride (n - 1) c.kernel.tail c.stride.tail, ← expand (n - 1) c.padding.tail)

end CoInf.Args
