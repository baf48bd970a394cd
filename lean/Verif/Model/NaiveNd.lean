/-
The torch modules which `continual` maps naively (/repo/continual/convert.py: NAIVE_MAPPING and CONDITIONAL_MAPPING), on
tensors of any rank, and `forward_stepping`, which gives them `forward_step` and `forward_steps`.

The modules themselves are torch's; what is modelled here is the documented behaviour of `torch.nn` (torch >= 1.9, see
/repo/requirements.txt:1), with the checks that raise.  Numbers are the elements of a field; the exponential function, the
inverse square root and the like are parameters.  Dropout is modelled in evaluation mode only (in training mode it is random).
-/
import Verif.Model.Tensor
import Mathlib.Algebra.Field.Defs
import Mathlib.Algebra.BigOperators.Group.List.Basic

set_option autoImplicit false

namespace CoInf.NaiveNd
variable {F : Type} [Field F]

/-- All index lists which have, on every axis, one of the indices listed for it. -/
def slab : List (List Nat) → List (List Nat)
  | [] => [[]]
  | c :: cs => c.flatMap fun i => (slab cs).map (i :: ·)

/-- The entries of a tensor that an operation reads: on axis `a` the indices `pick a`. -/
def entries (x : Tensor F) (pick : Nat → List Nat) : List F :=
  (slab ((List.range x.shape.length).map pick)).map x.get

/-- On axis `a` all indices if `mix a`, else that of `idx`. -/
def along (shape : List Nat) (mix : Nat → Bool) (idx : List Nat) (a : Nat) : List Nat :=
  if mix a then List.range (shape.getD a 0) else [idx.getD a 0]

/-- The mean. -/
def mean (xs : List F) : F := xs.sum / xs.length

/-- The biased variance. -/
def var (xs : List F) : F := (xs.map fun x => (x - mean xs) * (x - mean xs)).sum / xs.length

/-- The unbiased variance, used for running statistics. -/
def uvar (xs : List F) : F := (xs.map fun x => (x - mean xs) * (x - mean xs)).sum / (xs.length - 1)

/-- Running statistics: `running_mean`, `running_var`, `num_batches_tracked`. -/
structure Stats (F : Type) where
  mean : Nat → F
  var : Nat → F
  count : Nat

/-- Parameters of a batch or instance normalisation: the ranks that it accepts, `num_features`, `eps` together with the
inverse square root (`scale v` is `1 / sqrt (v + eps)`), `momentum`, `track_running_stats`, `weight` and `bias` (ones and
zeros if `affine=False`). -/
structure NormCfg (F : Type) where
  ranks : List Nat
  features : Nat
  scale : F → F
  momentum : Option F
  track : Bool
  weight : Nat → F
  bias : Nat → F

/-- The kinds of modules in NAIVE_MAPPING and CONDITIONAL_MAPPING (convert.py:120-161, 179-183).
* `act f`: an activation that works entry by entry; for `nn.PReLU`, with the weight of the channel.
* `soft e post dim`: `nn.Softmax`, `nn.Softmin`, `nn.LogSoftmax`: `post (e x / sum of e)` along `dim`.
* `softmax2d e`: `nn.Softmax2d`.
* `glu gate dim`: `nn.GLU`.
* `dropout`: the dropout modules.
* `batchNorm c`, `instanceNorm c`: `nn.BatchNorm*d`, `nn.InstanceNorm*d`.
* `layerNorm ns scale w b`: `nn.LayerNorm`, parameters indexed by the normalised axes.
* `groupNorm groups channels scale w b`: `nn.GroupNorm`. -/
inductive Layer (F : Type) where
  | act (f : Nat → F → F)
  | soft (e post : F → F) (dim : Option Int)
  | softmax2d (e : F → F)
  | glu (gate : F → F) (dim : Int)
  | dropout
  | batchNorm (c : NormCfg F)
  | instanceNorm (c : NormCfg F)
  | layerNorm (ns : List Nat) (scale : F → F) (w b : List Nat → F)
  | groupNorm (groups channels : Nat) (scale : F → F) (w b : Nat → F)

/-- `softmax` along axis `d`, followed by `post`. -/
def softAlong (e post : F → F) (d : Nat) (x : Tensor F) : Tensor F :=
  Tensor.of x.shape fun idx => post (e (x.get idx) / ((entries x (along x.shape (· == d) idx)).map e).sum)

/-- The axis of a softmax: `dim`, and without it torch's legacy choice (0 for ranks 0, 1 and 3, otherwise 1). -/
def softAxis (rank : Nat) : Option Int → Except Err Nat
  | some d => Tensor.axis rank d
  | none => .ok (if rank = 0 ∨ rank = 1 ∨ rank = 3 then 0 else 1)

/-- `nn.GLU`: the first half of axis `d` times the gate of the second half; raises if that axis has an odd size. -/
def gluAlong (gate : F → F) (d : Nat) (x : Tensor F) : Except Err (Tensor F) :=
  let n := x.shape.getD d 0
  if n % 2 = 0 then
    .ok (Tensor.of (x.shape.set d (n / 2)) fun idx => x.get idx * gate (x.get (idx.set d (idx.getD d 0 + n / 2))))
  else .error .runtime

/-- Normalisation of the entry `v`, given the statistics, with weight and bias. -/
def normed (scale : F → F) (m s w b v : F) : F := (v - m) * scale s * w + b

/-- The entries that batch normalisation takes statistics of for channel `ch`: all batch items, all times, all places. -/
def batchEntries (x : Tensor F) (ch : Nat) : List F := entries x fun a => if a = 1 then [ch] else List.range (x.shape.getD a 0)

/-- The entries that instance normalisation takes statistics of: one batch item, one channel. -/
def instEntries (x : Tensor F) (n ch : Nat) : List F :=
  entries x fun a => if a = 0 then [n] else if a = 1 then [ch] else List.range (x.shape.getD a 0)

/-- The factor of an update of running statistics: `momentum`, or `1 / num_batches_tracked`. -/
def factor (c : NormCfg F) (count : Nat) : F :=
  match c.momentum with
  | some m => m
  | none => 1 / (count : F)

/-- `_BatchNorm.forward` of torch: checks of rank and channels; in training mode, or without running statistics, the
statistics of the input (raises `ValueError` if there is one value per channel), else the running ones; in training mode the
running statistics move towards those of the input. -/
def batchNorm (c : NormCfg F) (training : Bool) (s : Stats F) (x : Tensor F) : Except Err (Tensor F × Stats F) :=
  if ¬ x.shape.length ∈ c.ranks then .error .value
  else if x.shape.getD 1 0 ≠ c.features then .error .runtime
  else if training || !c.track then
    if (x.shape.eraseIdx 1).prod = 1 then .error .value
    else
      let y := Tensor.of x.shape fun idx =>
        let ch := idx.getD 1 0
        let es := batchEntries x ch
        normed c.scale (mean es) (var es) (c.weight ch) (c.bias ch) (x.get idx)
      if training && c.track then
        let k := s.count + 1
        let r := factor c k
        .ok (y, ⟨fun ch => (1 - r) * s.mean ch + r * mean (batchEntries x ch),
          fun ch => (1 - r) * s.var ch + r * uvar (batchEntries x ch), k⟩)
      else .ok (y, s)
  else
    .ok (Tensor.of x.shape fun idx =>
      let ch := idx.getD 1 0
      normed c.scale (s.mean ch) (s.var ch) (c.weight ch) (c.bias ch) (x.get idx), s)

/-- `_InstanceNorm.forward` of torch, for inputs with a batch axis: as for batch normalisation, but with statistics of each
batch item; the running ones move towards the average over the batch.  `momentum=None` counts as 0. -/
def instanceNorm (c : NormCfg F) (training : Bool) (s : Stats F) (x : Tensor F) : Except Err (Tensor F × Stats F) :=
  if ¬ x.shape.length ∈ c.ranks then .error .value
  else if x.shape.getD 1 0 ≠ c.features then .error .value
  else if training || !c.track then
    if (x.shape.drop 2).prod = 1 then .error .value
    else
      let y := Tensor.of x.shape fun idx =>
        let ch := idx.getD 1 0
        let es := instEntries x (idx.getD 0 0) ch
        normed c.scale (mean es) (var es) (c.weight ch) (c.bias ch) (x.get idx)
      if training && c.track then
        let r := c.momentum.getD 0
        let items := List.range (x.shape.getD 0 0)
        .ok (y, ⟨fun ch => (1 - r) * s.mean ch + r * mean (items.map fun n => mean (instEntries x n ch)),
          fun ch => (1 - r) * s.var ch + r * mean (items.map fun n => uvar (instEntries x n ch)), s.count⟩)
      else .ok (y, s)
  else
    .ok (Tensor.of x.shape fun idx =>
      let ch := idx.getD 1 0
      normed c.scale (s.mean ch) (s.var ch) (c.weight ch) (c.bias ch) (x.get idx), s)

/-- `nn.LayerNorm`: statistics over the last axes, whose sizes must be `normalized_shape`. -/
def layerNorm (ns : List Nat) (scale : F → F) (w b : List Nat → F) (x : Tensor F) : Except Err (Tensor F) :=
  let k := x.shape.length - ns.length
  if ns.length ≤ x.shape.length ∧ x.shape.drop k = ns then
    .ok (Tensor.of x.shape fun idx =>
      let es := entries x (along x.shape (fun a => decide (k ≤ a)) idx)
      normed scale (mean es) (var es) (w (idx.drop k)) (b (idx.drop k)) (x.get idx))
  else .error .runtime

/-- The channels of the group to which channel `ch` belongs. -/
def group (groups channels ch : Nat) : List Nat :=
  (List.range channels).filter fun j => j / (channels / groups) == ch / (channels / groups)

/-- The entries that group normalisation takes statistics of: one batch item, the channels of the group, all times, all
places. -/
def groupEntries (groups : Nat) (x : Tensor F) (n ch : Nat) : List F :=
  entries x fun a =>
    if a = 0 then [n] else if a = 1 then group groups (x.shape.getD 1 0) ch else List.range (x.shape.getD a 0)

/-- `nn.GroupNorm` (its constructor makes sure that the groups divide the channels). -/
def groupNorm (groups channels : Nat) (scale : F → F) (w b : Nat → F) (x : Tensor F) : Except Err (Tensor F) :=
  if x.shape.getD 1 0 = channels then
    .ok (Tensor.of x.shape fun idx =>
      let ch := idx.getD 1 0
      let es := groupEntries groups x (idx.getD 0 0) ch
      normed scale (mean es) (var es) (w ch) (b ch) (x.get idx))
  else .error .runtime

/-- The module's own `forward`, in training or evaluation mode, with its running statistics (modules without any leave them
alone). -/
def forward (l : Layer F) (training : Bool) (s : Stats F) (x : Tensor F) : Except Err (Tensor F × Stats F) :=
  match l with
  | .act f => .ok (Tensor.of x.shape fun idx => f (idx.getD 1 0) (x.get idx), s)
  | .soft e post dim =>
    match softAxis x.shape.length dim with
    | .ok d => .ok (softAlong e post d x, s)
    | .error er => .error er
  | .softmax2d e =>
    if x.shape.length = 3 ∨ x.shape.length = 4 then
      match Tensor.axis x.shape.length (-3) with
      | .ok d => .ok (softAlong e id d x, s)
      | .error er => .error er
    else .error .value
  | .glu gate dim =>
    match Tensor.axis x.shape.length dim with
    | .ok d => (gluAlong gate d x).map fun y => (y, s)
    | .error er => .error er
  | .dropout => .ok (x, s)
  | .batchNorm c => batchNorm c training s x
  | .instanceNorm c => instanceNorm c training s x
  | .layerNorm ns scale w b => (layerNorm ns scale w b x).map fun y => (y, s)
  | .groupNorm g ch scale w b => (groupNorm g ch scale w b x).map fun y => (y, s)

/-- `forward_step` as made by `forward_stepping` (convert.py:61-67): `func(x.unsqueeze(dim)).squeeze(dim)` with `dim = 2`. -/
def forwardStep (l : Layer F) (training : Bool) (s : Stats F) (x : Tensor F) : Except Err (Tensor F × Stats F) := do
  let x ← x.unsqueeze 2
  let (y, s) ← forward l training s x
  let y ← y.squeeze 2
  pure (y, s)

/-- `forward_steps` as made by `forward_stepping` (convert.py:68-74): `func(x)`, whatever `pad_end`. -/
def forwardSteps (l : Layer F) (training : Bool) (s : Stats F) (x : Tensor F) : Except Err (Tensor F × Stats F) :=
  forward l training s x

/-- Which modules `continual` maps (convert.py:167-183, 227-248): instance normalisations only if they are affine and track
running statistics (`affine` is not a part of the model). -/
def accepts : Layer F → Bool
  | .instanceNorm c => c.track
  | _ => true

/-- A stream: `forward_step` on each frame in turn. -/
def stream (l : Layer F) (training : Bool) : Stats F → List (Tensor F) → Except Err (List (Tensor F) × Stats F)
  | s, [] => .ok ([], s)
  | s, x :: xs => do
    let (y, s) ← forwardStep l training s x
    let (ys, s) ← stream l training s xs
    pure (y :: ys, s)

end CoInf.NaiveNd
