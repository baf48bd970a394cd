/-
`continual.Linear` (/repo/continual/linear.py) on tensors of any rank, with its `channel_dim`.
-/
import Verif.Model.Tensor
import Mathlib.Algebra.Ring.Defs
import Mathlib.Algebra.BigOperators.Group.List.Basic

set_option autoImplicit false

namespace CoInf.LinearNd
variable {F : Type} [Semiring F]

/-- The module's parameters (linear.py:64-74): `in_features`, `out_features`, `weight` of shape
`(out_features, in_features)`, `bias` (`None` if `bias=False`), `channel_dim`. -/
structure Cfg (F : Type) where
  nin : Nat
  nout : Nat
  weight : Nat → Nat → F
  bias : Option (Nat → F)
  channelDim : Int

/-- `torch.nn.functional.linear` (called at linear.py:83): `x Wᵀ + b` along the last axis; raises if its size is not
`in_features` (or if there is no axis). -/
def linear (c : Cfg F) (x : Tensor F) : Except Err (Tensor F) :=
  if x.shape.getLast? = some c.nin then
    .ok (Tensor.of (x.shape.set (x.shape.length - 1) c.nout) fun idx =>
      let o := idx.getD (x.shape.length - 1) 0
      let s := ((List.range c.nin).map fun i => x.get (idx.set (x.shape.length - 1) i) * c.weight o i).sum
      match c.bias with
      | some b => s + b o
      | none => s)
  else .error .runtime

/-- `Linear.forward` (linear.py:79-88). -/
def forward (c : Cfg F) (x : Tensor F) : Except Err (Tensor F) := do
  let x ← if c.channelDim ≠ -1 then x.transpose c.channelDim (-1) else pure x
  let y ← linear c x
  if c.channelDim ≠ -1 then y.transpose c.channelDim (-1) else pure y

/-- `Linear.forward_step` (linear.py:90-91). -/
def forwardStep (c : Cfg F) (x : Tensor F) : Except Err (Tensor F) := forward c x

/-- `Linear.forward_steps` (linear.py:96-97). -/
def forwardSteps (c : Cfg F) (x : Tensor F) : Except Err (Tensor F) := forward c x

end CoInf.LinearNd
