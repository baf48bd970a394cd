/-
Tensors with their axes, and the torch operations that rearrange axes, as they are used throughout /repo/continual
(`permute`, `transpose`, `swapaxes`, `squeeze`, `unsqueeze`, indexing, `torch.stack`, `reshape`).

A tensor is a shape and an entry for every index list within the shape.  (Entries at other index lists are fixed to be
zero, so that tensors are equal exactly if their shapes and entries are.)  Strides and memory sharing are not part of this
model; see `Verif.Model.Heap` for in-place effects.
-/
import Verif.Model.Core
import Mathlib.Algebra.Group.Basic

set_option autoImplicit false

namespace CoInf

/-- An index list within a shape. -/
def within : List Nat → List Nat → Bool
  | [], [] => true
  | i :: is, n :: ns => decide (i < n) && within is ns
  | _, _ => false

/-- A tensor. -/
structure Tensor (F : Type) [Zero F] where
  shape : List Nat
  get : List Nat → F
  outside : ∀ idx, within idx shape = false → get idx = 0

namespace Tensor
variable {F : Type} [Zero F]

/-- The tensor with given entries. -/
def of (shape : List Nat) (g : List Nat → F) : Tensor F where
  shape := shape
  get := fun idx => if within idx shape then g idx else 0
  outside := fun idx h => by simp [h]

/-- Python's dimension index: negative ones count from the end; `IndexError` if out of range. -/
def axis (rank : Nat) (d : Int) : Except Err Nat :=
  if 0 ≤ d then (if d < rank then .ok d.toNat else .error .index)
  else if 0 ≤ rank + d then .ok (rank + d).toNat else .error .index

/-- Exchange of two entries of a list. -/
def swap {α : Type} (l : List α) (i j : Nat) : List α :=
  match l[i]?, l[j]? with
  | some a, some b => (l.set i b).set j a
  | _, _ => l

/-- `x.transpose(i, j)`, also called `swapaxes`. -/
def transpose (x : Tensor F) (i j : Int) : Except Err (Tensor F) :=
  match axis x.shape.length i, axis x.shape.length j with
  | .ok i, .ok j => .ok (of (swap x.shape i j) fun idx => x.get (swap idx i j))
  | .error e, _ => .error e
  | _, .error e => .error e

/-- `x.permute(σ)`: axis `k` of the result is axis `σ k` of `x`. -/
def permute (x : Tensor F) (σ : List Nat) : Except Err (Tensor F) :=
  if σ.length = x.shape.length then
    .ok (of (σ.map fun a => x.shape.getD a 0) fun idx =>
      x.get ((List.range x.shape.length).map fun a => idx.getD (σ.idxOf a) 0))
  else .error .runtime

/-- `x.squeeze(d)`: drops the axis if it has size one. -/
def squeeze (x : Tensor F) (d : Int) : Except Err (Tensor F) :=
  match axis x.shape.length d with
  | .error e => .error e
  | .ok d =>
    if x.shape[d]? = some 1 then .ok (of (x.shape.eraseIdx d) fun idx => x.get (idx.insertIdx d 0)) else .ok x

/-- `x.unsqueeze(d)`: a new axis of size one. -/
def unsqueeze (x : Tensor F) (d : Int) : Except Err (Tensor F) :=
  match axis (x.shape.length + 1) d with
  | .error e => .error e
  | .ok d => .ok (of (x.shape.insertIdx d 1) fun idx => x.get (idx.eraseIdx d))

/-- `x[:, .., t]`, with `d` times `:` before the index. -/
def select (x : Tensor F) (d t : Nat) : Except Err (Tensor F) :=
  match x.shape[d]? with
  | none => .error .index
  | some n =>
    if t < n then .ok (of (x.shape.eraseIdx d) fun idx => x.get (idx.insertIdx d t)) else .error .index

/-- `torch.stack(xs, dim=d)`: raises if there is no tensor or if shapes differ. -/
def stack (xs : List (Tensor F)) (d : Nat) : Except Err (Tensor F) :=
  match xs with
  | [] => .error .runtime
  | x :: _ =>
    if xs.all (fun y => y.shape = x.shape) then
      if d ≤ x.shape.length then
        .ok (of (x.shape.insertIdx d xs.length) fun idx =>
          match xs[idx.getD d 0]? with
          | some y => y.get (idx.eraseIdx d)
          | none => 0)
      else .error .index
    else .error .runtime

/-- Position of an index in memory (row-major). -/
def flat : List Nat → List Nat → Nat
  | _ :: ns, i :: is => i * ns.prod + flat ns is
  | _, _ => 0

/-- Index of a position in memory. -/
def unflat : List Nat → Nat → List Nat
  | [], _ => []
  | _ :: ns, k => (k / ns.prod) :: unflat ns (k % ns.prod)

/-- `x.reshape(shape)` (or `view`): raises if the number of entries differs. -/
def reshape (x : Tensor F) (shape : List Nat) : Except Err (Tensor F) :=
  if shape.prod = x.shape.prod then .ok (of shape fun idx => x.get (unflat x.shape (flat shape idx)))
  else .error .runtime

end Tensor
end CoInf
