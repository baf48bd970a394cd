/-
`continual.Reshape` (/repo/continual/shape.py) on tensors of any rank.
-/
import Verif.Model.Tensor

set_option autoImplicit false

namespace CoInf.ReshapeNd
variable {F : Type} [Zero F]

/-- `x.moveaxis(src, dst)` for non-negative axes; raises if one of them is out of range. -/
def moveaxis (x : Tensor F) (src dst : Nat) : Except Err (Tensor F) :=
  match x.shape[src]? with
  | none => .error .index
  | some n =>
    if dst < x.shape.length then
      .ok (Tensor.of ((x.shape.eraseIdx src).insertIdx dst n) fun idx => x.get ((idx.eraseIdx dst).insertIdx src (idx.getD dst 0)))
    else .error .index

/-- Product of the given sizes. -/
def known (shape : List (Option Nat)) : Nat := (shape.map (·.getD 1)).prod

/-- The sizes that a shape given to `reshape` stands for, for a tensor with `n` entries: one entry may be `-1` (here
`none`); torch raises if there are several, or if that size is not determined. -/
def sizes (shape : List (Option Nat)) (n : Nat) : Except Err (List Nat) :=
  match shape.count none with
  | 0 => .ok (shape.map (·.getD 1))
  | 1 => if known shape ≠ 0 ∧ n % known shape = 0 then .ok (shape.map (·.getD (n / known shape))) else .error .runtime
  | _ => .error .runtime

/-- `x.reshape(shape)` where an entry may be `-1`. -/
def reshape (x : Tensor F) (shape : List (Option Nat)) : Except Err (Tensor F) :=
  match sizes shape x.shape.prod with
  | .error e => .error e
  | .ok s => x.reshape s

/-- `Reshape.forward` (shape.py:48-53).  `contiguous` changes the memory layout only. -/
def forward (shape : List (Option Nat)) (x : Tensor F) : Except Err (Tensor F) :=
  match x.shape[2]? with
  | none => .error .index
  | some T => do
    let x ← moveaxis x 2 0
    let x ← reshape x (some T :: shape)
    moveaxis x 0 2

/-- `Reshape.forward_steps` (shape.py:55-56). -/
def forwardSteps (shape : List (Option Nat)) (x : Tensor F) : Except Err (Tensor F) := forward shape x

/-- `Reshape.forward_step` (shape.py:58-65). -/
def forwardStep (shape : List (Option Nat)) (x : Tensor F) : Except Err (Tensor F) := reshape x shape

end CoInf.ReshapeNd
