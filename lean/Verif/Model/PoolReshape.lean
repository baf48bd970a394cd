/-
Temporal pooling of the buffered frames: /repo/continual/pooling.py:101-137.  The frames `(T, B, C, *S)` are rearranged so
that torch's one-dimensional adaptive pooling runs over time, and back.
-/
import Verif.Model.Tensor

set_option autoImplicit false

namespace CoInf.PoolReshape
variable {F : Type} [Zero F]

/-- `nn.AdaptiveAvgPool1d(1)` or `nn.AdaptiveMaxPool1d(1)` on `(B, C, T)`: all entries along the last axis are pooled
(`pool` is the mean or the maximum).  pooling.py:101-105. -/
def temporalPool (pool : List F → F) (x : Tensor F) : Except Err (Tensor F) :=
  match x.shape with
  | [b, c, t] => .ok (Tensor.of [b, c, 1] fun idx =>
      pool ((List.range t).map fun k => x.get [idx.getD 0 0, idx.getD 1 0, k]))
  | _ => .error .runtime

/-- `pooling_with_1d_reshape`: pooling.py:108-113. -/
def pool1 (pool : List F → F) (x : Tensor F) : Except Err (Tensor F) :=
  match x.shape with
  | [_, B, C] => do
    let x ← x.permute [1, 2, 0]
    let x ← temporalPool pool x
    x.reshape [B, C]
  | _ => .error .value

/-- `pooling_with_2d_reshape`: pooling.py:115-122. -/
def pool2 (pool : List F → F) (x : Tensor F) : Except Err (Tensor F) :=
  match x.shape with
  | [T, B, C, S] => do
    let x ← x.permute [1, 3, 2, 0]
    let x ← x.reshape [B * S, C, T]
    let x ← temporalPool pool x
    let x ← x.reshape [B, S, C]
    x.permute [0, 2, 1]
  | _ => .error .value

/-- `pooling_with_3d_reshape`: pooling.py:124-131. -/
def pool3 (pool : List F → F) (x : Tensor F) : Except Err (Tensor F) :=
  match x.shape with
  | [T, B, C, H, W] => do
    let x ← x.permute [1, 3, 4, 2, 0]
    let x ← x.reshape [B * H * W, C, T]
    let x ← temporalPool pool x
    let x ← x.reshape [B, H, W, C]
    x.permute [0, 3, 1, 2]
  | _ => .error .value

/-- The choice by `num_input_dims`: pooling.py:133-137 (`KeyError` for others; the constructor asserts 1, 2 or 3). -/
def temporal (dims : Nat) (pool : List F → F) (x : Tensor F) : Except Err (Tensor F) :=
  match dims with
  | 1 => pool1 pool x
  | 2 => pool2 pool x
  | 3 => pool3 pool x
  | _ => .error .key

end CoInf.PoolReshape
