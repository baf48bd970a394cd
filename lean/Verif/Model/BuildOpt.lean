/-
Keyword arguments of `build_from`: /repo/continual/conv.py:404-429 (504-529 and 604-629 are the same for two and three dimensions),
linear.py:99-122, rnn.py:156-177 (GRU 372-392, LSTM 628-649), with the constructors they call: conv.py:45-121, linear.py:64-74,
rnn.py:119-153 (GRU 337-369, LSTM 591-625).

Assumed of torch: `weight` of a convolution has the shape `(out_channels, in_channels // groups, *kernel_size)`, of `Linear`
`(out_features, in_features)`, `bias` the shape of the outputs; `_ConvNd` refuses numbers of channels that `groups` does not divide with
`ValueError`; `_flat_weights` of a recurrent module lists, layer by layer, `weight_ih`, `weight_hh`, then `bias_ih`, `bias_hh` if there are
biases, then `weight_hr` if `proj_size > 0`; its constructor raises `ValueError` for no layers, no hidden units, or `proj_size` of at least
`hidden_size`.  `copy_` is that of Model/AttnBuild.lean.

Left out: the forms of sizes (Model/Args.lean; here tuples of the right length), strings for `padding`, bidirectional originals (refused
or not converted faithfully: C49), weights that are missing or of another shape than torch gave them.
-/
import Verif.Model.AttnBuild

set_option autoImplicit false

namespace CoInf.BuildOpt

open CoInf.Typed (Place Casts)
open CoInf.AttnBuild (Ten copy copyIf)

variable {F : Type}

/-! ### Convolutions -/

/-- Arguments of a convolution but for `bias`, `device` and `dtype`. -/
structure ConvSizes where
  inC : Nat
  outC : Nat
  kernel : List Nat
  stride : List Nat
  padding : List Nat
  dilation : List Nat
  groups : Nat
  mode : String
  deriving DecidableEq

/-- `nn.ConvNd`. -/
structure TorchConv (F : Type) where
  sizes : ConvSizes
  weight : Ten F
  bias : Option (Ten F)

/-- `co.ConvNd`. -/
structure CoConv (F : Type) where
  sizes : ConvSizes
  fill : String
  weight : Ten F
  bias : Option (Ten F)

/-- Keyword arguments of `build_from`; `unknown` are those the constructor does not know. -/
structure ConvKw where
  fill : Option String := none
  inC : Option Nat := none
  outC : Option Nat := none
  kernel : Option (List Nat) := none
  stride : Option (List Nat) := none
  padding : Option (List Nat) := none
  dilation : Option (List Nat) := none
  groups : Option Nat := none
  bias : Option Bool := none
  mode : Option String := none
  place : Option Place := none
  unknown : List String := []

/-- Shape of `weight`. -/
def ConvSizes.shape (a : ConvSizes) : List Nat := a.outC :: a.inC / a.groups :: a.kernel

/-- What the constructor refuses: conv.py:82-87, 104-107 and torch's `_ConvNd`. -/
def ConvSizes.check (a : ConvSizes) (fill : String) : Except Err Unit :=
  if a.dilation.head? ≠ some 1 then .error .assertion
  else if a.mode ∉ ["zeros", "replicate"] ∨ fill ∉ ["zeros", "replicate", "neg_inf"] then .error .value
  else if a.groups = 0 ∨ a.inC % a.groups ≠ 0 ∨ a.outC % a.groups ≠ 0 then .error .value
  else if fill = "neg_inf" then .error .key
  else .ok ()

/-- The constructor: conv.py:45-121; `seed` are the values parameters are initialised with. -/
def makeConv (seed : String → List Nat → F) (a : ConvSizes) (fill : String) (bias : Bool) (p : Place) : Except Err (CoConv F) := do
  a.check fill
  return ⟨a, fill, AttnBuild.fresh seed p "weight" a.shape, bif bias then some (AttnBuild.fresh seed p "bias" [a.outC]) else none⟩

/-- `{**dict(...), **kwargs}`: conv.py:408-422; `temporal_fill or module.padding_mode` is evaluated first. -/
def convSizes (m : TorchConv F) (k : ConvKw) : ConvSizes where
  inC := k.inC.getD m.sizes.inC
  outC := k.outC.getD m.sizes.outC
  kernel := k.kernel.getD m.sizes.kernel
  stride := k.stride.getD m.sizes.stride
  padding := k.padding.getD m.sizes.padding
  dilation := k.dilation.getD m.sizes.dilation
  groups := k.groups.getD m.sizes.groups
  mode := k.mode.getD m.sizes.mode

/-- `temporal_fill or module.padding_mode`: conv.py:420; the empty string counts as false. -/
def convFill (m : TorchConv F) (k : ConvKw) : String :=
  match k.fill with
  | some f => if f = "" then m.sizes.mode else f
  | none => m.sizes.mode

/-- `ConvNd.build_from(module, temporal_fill, **kwargs)`: conv.py:404-429; `dflt` are the default type and device. -/
def buildConv [Casts F] (seed : String → List Nat → F) (dflt : Place) (m : TorchConv F) (k : ConvKw) : Except Err (CoConv F) :=
  if k.unknown ≠ [] then .error .type
  else do
    let c ← makeConv seed (convSizes m k) (convFill m k) (k.bias.getD m.bias.isSome) (k.place.getD dflt)
    let w ← copy (some c.weight) m.weight
    let b ← copyIf c.bias m.bias
    return { c with weight := w.getD c.weight, bias := b }

/-! ### Linear -/

/-- `nn.Linear`. -/
structure TorchLinear (F : Type) where
  inF : Nat
  outF : Nat
  weight : Ten F
  bias : Option (Ten F)

/-- `co.Linear`. -/
structure CoLinear (F : Type) where
  inF : Nat
  outF : Nat
  channelDim : Int
  weight : Ten F
  bias : Option (Ten F)

/-- Keyword arguments of `build_from`. -/
structure LinearKw where
  channelDim : Int := -1
  inF : Option Nat := none
  outF : Option Nat := none
  bias : Option Bool := none
  place : Option Place := none
  unknown : List String := []

/-- `Linear.build_from(module, channel_dim, **kwargs)`: linear.py:99-122. -/
def buildLinear [Casts F] (seed : String → List Nat → F) (m : TorchLinear F) (k : LinearKw) : Except Err (CoLinear F) :=
  if k.unknown ≠ [] then .error .type
  else do
    let p := k.place.getD m.weight.place
    let inF := k.inF.getD m.inF
    let outF := k.outF.getD m.outF
    let w ← copy (some (AttnBuild.fresh seed p "weight" [outF, inF])) m.weight
    let b ← copyIf (bif k.bias.getD m.bias.isSome then some (AttnBuild.fresh seed p "bias" [outF]) else none) m.bias
    return ⟨inF, outF, k.channelDim, w.getD m.weight, b⟩

/-! ### Recurrent modules -/

/-- The three classes. -/
inductive Cell where
  | rnn
  | gru
  | lstm
  deriving DecidableEq

/-- Gates, as in the shapes of weights: rnn.py:72-80, 293-301, 528-539. -/
def Cell.gates : Cell → Nat
  | .rnn => 1
  | .gru => 3
  | .lstm => 4

/-- The kinds of weights. -/
inductive Role where
  | weightIh
  | weightHh
  | biasIh
  | biasHh
  | weightHr
  deriving DecidableEq

/-- A weight with its name, `weight_ih_l0` and so on. -/
structure Par (F : Type) where
  role : Role
  layer : Nat
  ten : Ten F

/-- Arguments of a recurrent module; `nonlinearity` is one of `RNN` only, `proj` one of `LSTM` only. -/
structure RnnSizes where
  input : Nat
  hidden : Nat
  layers : Nat
  bias : Bool
  proj : Nat
  nonlinearity : String
  deriving DecidableEq

/-- `nn.RNN`, `nn.GRU`, `nn.LSTM` with one direction, and what is built from them. -/
structure RnnMod (F : Type) where
  sizes : RnnSizes
  dropout : F
  flat : List (Par F)

/-- The weights of a layer and their shapes. -/
def layerShapes (c : Cell) (a : RnnSizes) (l : Nat) : List (Role × List Nat) :=
  let out := if a.proj = 0 then a.hidden else a.proj
  [(.weightIh, [c.gates * a.hidden, if l = 0 then a.input else out]), (.weightHh, [c.gates * a.hidden, out])] ++
    (bif a.bias then [(.biasIh, [c.gates * a.hidden]), (.biasHh, [c.gates * a.hidden])] else []) ++
    if a.proj = 0 then [] else [(.weightHr, [a.proj, a.hidden])]

/-- Names and shapes of `_flat_weights`. -/
def flatShapes (c : Cell) (a : RnnSizes) : List (Role × Nat × List Nat) :=
  (List.range a.layers).flatMap fun l => (layerShapes c a l).map fun s => (s.1, l, s.2)

/-- The constructors: rnn.py:119-153, 337-369, 591-625. -/
def makeRnn (seed : Role → Nat → List Nat → F) (c : Cell) (a : RnnSizes) (dropout : F) (p : Place) : Except Err (RnnMod F) :=
  if a.layers = 0 ∨ a.hidden = 0 ∨ a.hidden ≤ a.proj then .error .value
  else if a.nonlinearity ∉ ["tanh", "relu"] then .error .value
  else .ok ⟨a, dropout, (flatShapes c a).map fun s => ⟨s.1, s.2.1, ⟨s.2.2, seed s.1 s.2.1, p, true⟩⟩⟩

/-- Keyword arguments of `build_from`.  The constructors take any others without looking at them (`**kwargs`), among them `batch_first` and
`bidirectional`. -/
structure RnnKw (F : Type) where
  input : Option Nat := none
  hidden : Option Nat := none
  layers : Option Nat := none
  bias : Option Bool := none
  proj : Option Nat := none
  nonlinearity : Option String := none
  dropout : Option F := none
  place : Option Place := none
  unknown : List String := []

/-- `{**dict(...), **kwargs}`: rnn.py:158-170, 374-385, 630-642.  `proj_size` is not looked at by `RNN` and `GRU`, `nonlinearity` only by
`RNN`. -/
def rnnSizes (c : Cell) (m : RnnMod F) (k : RnnKw F) : RnnSizes where
  input := k.input.getD m.sizes.input
  hidden := k.hidden.getD m.sizes.hidden
  layers := k.layers.getD m.sizes.layers
  bias := k.bias.getD m.sizes.bias
  proj := if c = .lstm then k.proj.getD m.sizes.proj else m.sizes.proj
  nonlinearity := if c = .rnn then k.nonlinearity.getD m.sizes.nonlinearity else m.sizes.nonlinearity

/-- `for ours, theirs in zip(...): ours.copy_(theirs)`: rnn.py:174-176, 389-391, 646-648. -/
def copyAll [Casts F] : List (Par F) → List (Par F) → Except Err (List (Par F))
  | o :: os, t :: ts => do
    let u ← copy (some o.ten) t.ten
    let us ← copyAll os ts
    return { o with ten := u.getD o.ten } :: us
  | os, _ => .ok os

/-- `build_from`: rnn.py:156-177, 372-392, 628-649. -/
def buildRnn [Casts F] (seed : Role → Nat → List Nat → F) (c : Cell) (m : RnnMod F) (k : RnnKw F) : Except Err (RnnMod F) :=
  match m.flat with
  | [] => .error .index   -- `module._flat_weights[0]`
  | w :: _ => do
    let o ← makeRnn seed c (rnnSizes c m k) (k.dropout.getD m.dropout) (k.place.getD w.ten.place)
    let ws ← copyAll o.flat m.flat
    return { o with flat := ws }

end CoInf.BuildOpt
