/-
Axis order in the attention modules (`batch_first`, `embed_dim_second`): /repo/continual/multihead_attention/mha_base.py,
retroactive_mha.py and single_output_mha.py.

The attention itself is an arbitrary function here: `core` is the functional step `MultiheadAttentionBase._forward_step`
(frames `(N, E)` to an output `(R, N, E)`, see `Verif.Model.AttnNd` for its entries), `full` is torch's attention on
tensors `(T, N, E)`.  `update_state=False` is not modelled here (see `Verif.Model.Attention`).
-/
import Verif.Model.Tensor

set_option autoImplicit false

namespace CoInf.Layout

/-- The two attention modules. -/
inductive Kind
  | retro
  | single
deriving DecidableEq

/-- Constructor options that concern the axes: mha_base.py:261, 268. -/
structure Lay where
  kind : Kind
  batchFirst : Bool
  embedSecond : Bool

variable {F S : Type} [Zero F] (l : Lay)

/-- A condition on the way of a tensor. -/
def when (b : Bool) (f : Tensor F → Except Err (Tensor F)) (x : Tensor F) : Except Err (Tensor F) :=
  if b then f x else .ok x

/-- What `forward_step` does with the output `(R, N, E)` of the functional step: mha_base.py:470-471, then
retroactive_mha.py:353-354 or single_output_mha.py:369. -/
def stepOut (o : Tensor F) : Except Err (Tensor F) := do
  let o ← when l.batchFirst (·.transpose 1 0) o
  match l.kind with
  | .retro => when l.embedSecond (·.transpose 1 2) o
  | .single => o.squeeze (if l.batchFirst then 1 else 0)

/-- What `forward_steps` does with its inputs: mha_base.py:505-513. -/
def stepsIn (x : Tensor F) : Except Err (Tensor F) := do
  let x ← when l.embedSecond (·.permute [0, 2, 1]) x
  when l.batchFirst (·.transpose 1 0) x

/-- What `forward_steps` does with the outputs of the steps: mha_base.py:529-544, then retroactive_mha.py:371-372 or
single_output_mha.py:395-398. -/
def stepsOut (os : List (Tensor F)) : Except Err (Tensor F) := do
  let os ← os.mapM (when l.batchFirst (·.transpose 0 1))
  let o ← Tensor.stack os (if l.batchFirst then 1 else 0)
  match l.kind with
  | .retro => when l.embedSecond (·.permute [0, 3, 1, 2]) o
  | .single => do
    let o ← o.squeeze 2
    when l.embedSecond (·.transpose 1 2) o

/-- The functional step. -/
abbrev Core (F S : Type) [Zero F] := S → Tensor F → Tensor F → Tensor F → Except Err (Option (Tensor F) × S)

variable (core : Core F S)

/-- `forward_step`: mha_base.py:430-478, retroactive_mha.py:325-356, single_output_mha.py:340-369. -/
def forwardStep (s : S) (q k v : Tensor F) : Except Err (Option (Tensor F) × S) :=
  match core s q k v with
  | .error e => .error e
  | .ok (none, s') => .ok (none, s')
  | .ok (some o, s') => (stepOut l o).map fun o => (some o, s')

/-- What the public functional step does with the output `(R, N, E)`: retroactive_mha.py:317-321 or
single_output_mha.py:335-336. -/
def functionalOut (o : Tensor F) : Except Err (Tensor F) :=
  match l.kind with
  | .retro => do
    let o ← when l.batchFirst (·.transpose 1 0) o
    when l.embedSecond (·.transpose 1 2) o
  | .single => o.squeeze 0

/-- The public functional step `_forward_step` of the two modules, which a container calls on its attention modules when
it is itself stepped functionally: retroactive_mha.py:286-323, single_output_mha.py:302-338. -/
def functionalStep (s : S) (q k v : Tensor F) : Except Err (Option (Tensor F) × S) :=
  match core s q k v with
  | .error e => .error e
  | .ok (none, s') => .ok (none, s')
  | .ok (some o, s') => (functionalOut l o).map fun o => (some o, s')

/-- The loop of `forward_steps`: mha_base.py:523-532. -/
def loop (s : S) (q k v : Tensor F) : List Nat → Except Err (List (Tensor F) × S)
  | [] => .ok ([], s)
  | t :: ts => do
    let qt ← q.select 0 t
    let kt ← k.select 0 t
    let vt ← v.select 0 t
    let (o, s') ← core s qt kt vt
    let (os, s'') ← loop s' q k v ts
    return (o.toList ++ os, s'')

/-- `forward_steps`: mha_base.py:480-544.  On a clip without frames, the result `o` is unassigned. -/
def forwardSteps (s : S) (q k v : Tensor F) : Except Err (Option (Tensor F) × S) := do
  let q ← stepsIn l q
  let k ← stepsIn l k
  let v ← stepsIn l v
  let T := q.shape.headD 0
  if T = k.shape.headD 0 ∧ T = v.shape.headD 0 then
    let (os, s') ← loop core s q k v (List.range T)
    if T = 0 then .error .unbound
    else if os.isEmpty then .ok (none, s')
    else (stepsOut l os).map fun o => (some o, s')
  else .error .assertion

/-- `MultiheadAttentionBase.forward`: mha_base.py:350-372, with torch's `MultiheadAttention.forward`, which computes on
`(T, N, E)` and transposes its inputs and its output if `batch_first`. -/
def baseForward (full : Tensor F → Tensor F → Tensor F → Except Err (Tensor F)) (q k v : Tensor F) :
    Except Err (Tensor F) := do
  let q ← stepsIn l q
  let k ← stepsIn l k
  let v ← stepsIn l v
  let o ← full q k v
  let o ← when l.batchFirst (·.transpose 1 0) o
  when l.embedSecond (·.permute [0, 2, 1]) o

/-- `SingleOutputMultiheadAttention.forward` with `single_output_forward`, for a query index `i` counted from the start of
the clip: single_output_mha.py:282-300. -/
def singleForward (full : Tensor F → Tensor F → Tensor F → Except Err (Tensor F)) (i : Nat) (q k v : Tensor F) :
    Except Err (Tensor F) := do
  let q ← if l.batchFirst then
      (if l.embedSecond then do (← q.select 2 i).unsqueeze 2 else do (← q.select 1 i).unsqueeze 1)
    else do (← q.select 0 i).unsqueeze 0
  baseForward l full q k v

end CoInf.Layout
