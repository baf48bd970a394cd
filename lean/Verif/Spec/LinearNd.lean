/-
An affine map along one axis of a tensor.
-/
import Verif.Model.LinearNd

set_option autoImplicit false

namespace CoInf.Spec
variable {F : Type} [Semiring F]

/-- `y` is `W x + b` along axis `k` of `x`: only the size of that axis changes, and each entry of `y` is the affine
combination of the entries of `x` that differ from it in that index only. -/
def AffineAlong (k nin nout : Nat) (W : Nat → Nat → F) (b : Nat → F) (x y : Tensor F) : Prop :=
  x.shape[k]? = some nin ∧ y.shape = x.shape.set k nout ∧
  ∀ idx, within idx y.shape = true →
    y.get idx = ((List.range nin).map fun i => W (idx.getD k 0) i * x.get (idx.set k i)).sum + b (idx.getD k 0)

end CoInf.Spec
