/-
Transformer encoder layers: /repo/continual/transformer.py.

Simplifications
* As in `Verif.Model.Attention`, a frame is a token of arbitrary type `X` with an addition; the layer norms and the
  feed-forward block (`Linear`, activation, `Dropout` in evaluation mode, `Linear`) are arbitrary functions of a token.
* A step of a retroactive module returns all tokens of the window: its output frame is a list of tokens.  `forward` of
  such a module returns one tensor, which is a clip of one frame here.
* Layers are only modelled for a positive `sequence_len` (transformer.py:215-217, 352-354 assert it), retroactive ones for
  `sequence_len ≥ 2`: for `sequence_len = 1` the attention raises at every step (`C32_length_one_refuted`).
-/
import Verif.Model.Attention
import Verif.Model.Closure
import Verif.Model.Parallel

set_option autoImplicit false

namespace CoInf.Transformer
variable {X Y : Type}

/-! ### Residual branches -/

/-- `SelectOrDelay`: transformer.py:42-47.  The clip `x[:, :, -1 - delay].unsqueeze(2)` has one frame. -/
@[reducible] def selectOrDelay (c : Delay.Cfg X) : CoMod (.stream X) (.stream X) where
  Inst := (Delay.mod c).Inst
  init := (Delay.mod c).init
  clean := (Delay.mod c).clean
  fwd := fun i xs => (pyGet xs (-1 - (c.d : Int))).map fun x => ([x], i)
  step := (Delay.mod c).step
  steps := (Delay.mod c).steps
  St := (Delay.mod c).St
  pstep := (Delay.mod c).pstep
  rf := (Delay.mod c).rf
  stride := (Delay.mod c).stride
  padding := (Delay.mod c).padding
  delay := (Delay.mod c).delay

namespace Unity

/-- `init_state` of `RetroactiveUnity(delay = n + 1)`: transformer.py:73-80. -/
def initState (fill : X → X) (n : Nat) (x : X) : List X × Int := (List.replicate (n + 2) (fill x), -((n : Int) + 1))

/-- `torch.roll(b, shifts=-k)` for `0 ≤ k ≤ len(b)`. -/
def rollLeft (b : List X) (k : Nat) : List X := b.drop k ++ b.take k

/-- `_forward_step`: transformer.py:82-109. -/
def pstep (fill : X → X) (n : Nat) (x : X) (s : Option (List X × Int)) :
    Except Err (Option (List X) × Option (List X × Int)) :=
  let st : List X × Int := match s with
    | some st => st
    | none => initState fill n x
  match pySet st.1 (st.2 % ((n : Int) + 2)) x with
  | .error e => .error e
  | .ok buffer =>
    let newIndex := st.2 + 1
    let newIndex := if newIndex > 0 then newIndex % ((n : Int) + 1) else newIndex
    .ok (if st.2 ≥ 0 then some (rollLeft buffer (st.2 + 1).toNat) else none, some (buffer, newIndex))

/-- State handling, inherited from `Delay` (delay.py:78-88, 119-126). -/
@[reducible] def leaf (fill : X → X) (n : Nat) : Leaf X (List X) where
  Inst := List X × Int
  St := List X × Int
  init := ([], 0)
  clean := fun _ => ([], 0)
  get := fun i => if i.1.length > 0 then some i else none
  set := fun st _ => st
  pstep := pstep fill n
  padding := n + 1
  makePad := fill

/-- `RetroactiveUnity(delay = n + 1)`: transformer.py:50-109; `forward` is that of `Delay` without shrinking, the
identity. -/
@[reducible] def mod (fill : X → X) (n : Nat) : CoMod (.stream X) (.stream (List X)) where
  Inst := List X × Int
  init := (leaf fill n).init
  clean := (leaf fill n).clean
  fwd := fun i xs => .ok ([xs], i)
  step := (leaf fill n).forwardStep
  steps := (leaf fill n).forwardSteps
  St := List X × Int
  pstep := pstep fill n
  rf := n + 2
  stride := 1
  padding := 0
  delay := (n : Int) + 1

end Unity

/-! ### Functions after retroactive modules -/

/-- `RetroactiveLambda`: transformer.py:112-135, where `fn` is `Lambda.forward` on the tokens of one tensor.  In
`forward` the input is one tensor, a clip of one frame. (`torch.stack` of an empty list raises.) -/
@[reducible] def retroLambda (fn : List X → Except Err (List Y)) : CoMod (.stream (List X)) (.stream (List Y)) where
  Inst := Unit
  init := ()
  clean := id
  fwd := fun i xs => match xs with
    | [x] => (fn x).map fun y => ([y], i)
    | _ => .error .runtime
  step := fun i _ x => (fn x).map fun y => (some y, i)
  steps := fun i _ _ xs => if xs.isEmpty then .error .runtime else (xs.mapM fn).map fun ys => (some ys, i)
  St := Unit
  pstep := fun x s => (fn x).map fun y => (some y, s)
  rf := 1
  stride := 1
  padding := 0
  delay := 0

/-- `Lambda(unity, None, squeeze_last, squeeze_last, takes_time=True)`: transformer.py:563-571.  `forward` returns its
input, whose tokens are the frames of the result; the step functions drop a trailing axis of length one. -/
@[reducible] def squeezeLast (X : Type) : CoMod (.stream (List X)) (.stream X) where
  Inst := Unit
  init := ()
  clean := id
  fwd := fun i xs => match xs with
    | [x] => .ok (x, i)
    | _ => .error .runtime
  step := fun i _ x => (squeeze x).map fun y => (some y, i)
  steps := fun i _ _ xs => (xs.mapM squeeze).map fun ys => (some ys, i)
  St := Unit
  pstep := fun x s => (squeeze x).map fun y => (some y, s)
  rf := 1
  stride := 1
  padding := 0
  delay := 0

/-- `inp[:, :, -T:]`. -/
def lastSlice (T : Nat) (c : List X) : List X := if T = 0 then c else c.drop (c.length - T)

/-- `sum_last_pairs`: transformer.py:147-151, for the two members of the layer. -/
def sumLastPairs [Add X] : Reducer X X where
  frame := fun ys => match ys with
    | [a, b] => .ok (a + b)
    | _ => .error .index
  clip := fun cs => match cs with
    | [a, b] =>
      if a.length = b.length then bcast2 (· + ·) a b
      else bcast2 (· + ·) (lastSlice (min a.length b.length) a) (lastSlice (min a.length b.length) b)
    | _ => .error .index

/-! ### Encoder layers -/

/-- Weights of one encoder layer. -/
structure Layer (F X B E : Type) where
  attn : Attn.Cfg F X X B E
  norm1 : X → X
  norm2 : X → X
  ff : X → X

variable {F B E : Type} [Field F] [Fintype E] [Add X] [Zero X] (p : Layer F X B E)

/-- `Residual(ff)`: transformer.py:288.  (`residual_ff` in `Verif.Lemmas.EncoderLayer`: this is what the model of
`Residual` in `Verif.Model.Parallel` returns.) -/
@[reducible] def ffResidual (f : X → X) : CoMod (.stream X) (.stream X) :=
  BroadcastReduce.mod (foldReducer fun a b : X => a + b) [Delay.mod { d := 0, fill := fun _ => 0 }, Pointwise.mod f]

/-- The tail of the single-output layer: transformer.py:284-292. -/
@[reducible] def tail : CoMod (.stream X) (.stream X) :=
  Sequential.mod (.cons (Lambda.mod { fn := some (.frame p.norm1) })
    (.cons (ffResidual p.ff)
      (.single (Lambda.mod { fn := some (.frame p.norm2) }))))

/-- The residual branch of the single-output layer: transformer.py:269-274 (`Delay` asserts `delay ≥ 0`). -/
def residual (qi : Int) (sf : Bool) : CoMod (.stream X) (.stream X) :=
  if sf then selectOrDelay { d := (Attn.nq p.attn.N qi).toNat, fill := fun _ => 0 }
  else Lambda.mod (Lambda.elementwise id)

/-- `SingleOutputTransformerEncoderLayer`: transformer.py:154-293, with `query_index = qi` and
`single_output_forward = sf`. -/
@[reducible] def singleLayer (qi : Int) (sf : Bool) : CoMod (.stream X) (.stream X) :=
  Sequential.mod (.cons (BroadcastReduce.mod sumLastPairs [residual p qi sf, Attn.single p.attn qi sf])
    (.single (tail p)))

/-- `nn.Sequential(norm1, NaiveResidual(ff), norm2)`: transformer.py:138-144, 396-404. -/
def block (x : X) : X := p.norm2 (p.ff (p.norm1 x) + p.norm1 x)

/-- `Lambda.forward` without `takes_time`: closure.py:111-120. -/
def perToken (g : X → Y) (xs : List X) : Except Err (List Y) :=
  if xs.isEmpty then .error .runtime else .ok (xs.map g)

/-- `RetroactiveTransformerEncoderLayer`: transformer.py:296-406, for `sequence_len ≥ 2`. -/
@[reducible] def retroLayer : CoMod (.stream X) (.stream (List X)) :=
  Sequential.mod (.cons
    (BroadcastReduce.mod (foldReducer (List.zipWith (· + ·)))
      [Unity.mod (fun _ => 0) (p.attn.N - 2), Attn.retro p.attn])
    (.single (retroLambda (perToken (block p)))))

/-! ### The encoder -/

/-- `Lambda.forward` with `takes_time` of a layer: its `forward` (the `call_mode` of the layer is not changed by
containers, since a `Lambda` has no length: module.py:333-339). -/
def layerForward (m : CoMod (.stream X) (.stream X)) (xs : List X) : Except Err (List X) := (m.fwd m.init xs).map Prod.fst

/-- The layers of an encoder with two of them: transformer.py:551-571. -/
@[reducible] def twoLayers (p1 p2 : Layer F X B E) : CoMod (.stream X) (.stream X) :=
  Sequential.mod (.cons (retroLayer p1) (.cons (retroLambda (layerForward (singleLayer p2 (-1) true)))
    (.single (squeezeLast X))))

/-- `Sequential(OrderedDict([("layers", layers)]))` and the final norm: transformer.py:573-575. -/
@[reducible] def withNorm (m : CoMod (.stream X) (.stream X)) (norm : Option (X → X)) : CoMod (.stream X) (.stream X) :=
  match norm with
  | none => Sequential.mod (.single m)
  | some g => Sequential.mod (.cons m (.single (Lambda.mod { fn := some (.frame g) })))

/-- `TransformerEncoder(factory, num_layers)`: transformer.py:542-575.  The `k`-th layer built by the factory has the
weights `mk k`.  `range(1, num_layers - 1)` is empty for `num_layers ≤ 2`; otherwise the factory returns `None` for
`MhaType.REGULAR` (transformer.py:409-423) and the constructor of `Lambda` asserts that it got a function. -/
def encoder (mk : Nat → Layer F X B E) (n : Int) (norm : Option (X → X)) :
    Except Err (CoMod (.stream X) (.stream X)) :=
  if (mk 0).attn.N = 0 then .error .assertion
  else if n = 1 then .ok (withNorm (Sequential.mod (.single (singleLayer (mk 0) (-1) false))) norm)
  else if 1 < n - 1 then
    match Lambda.assertion ({ fn := none } : Lambda.Cfg X X) with
    | .error e => .error e
    | .ok _ => .error .type
  else .ok (withNorm (twoLayers (mk 0) (mk 1)) norm)

end CoInf.Transformer
