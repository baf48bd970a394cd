/-
A two-layer `TransformerEncoder` and the call mode context: the second layer is called by a `RetroactiveLambda` through
`__call__`, so which of its methods runs depends on the context (/repo/continual/module.py:347-353,
/repo/continual/closure.py:111-120, /repo/continual/transformer.py:112-135, 551-571).

Simplifications: as in `Verif.Model.Transformer`; the other modules of the encoder run the method that the encoder is
called with, inside a block and outside (the containers call them with this mode, `Verif.Model.CallMode`).
-/
import Verif.Model.Transformer
import Verif.Model.CallMode

set_option autoImplicit false

namespace CoInf.Transformer
open CallMode
variable {X : Type}

/-- `self.fn(input)` for a layer `fn` whose `call_mode` is the default, on a tensor `(N, E, T)`: `_call_impl`
(module.py:347-353).  `forward_step` on such a tensor reaches the attention, which asserts that it got a tensor `(N, E)`
(mha_base.py:106). -/
def innerCall (g : Ctx) (m : CoMod (.stream X) (.stream X)) (i : m.Inst) (xs : List X) :
    Except Err (Option (List X) × m.Inst) :=
  match dispatch g (.tok .forward) with
  | .error e => .error e
  | .ok .forward => (m.fwd i xs).map fun r => (some r.1, r.2)
  | .ok .steps => m.steps i false true xs
  | .ok .step => .error .assertion

/-- The frames of `forward_steps` of the `RetroactiveLambda` (transformer.py:126-129); `torch.stack` raises for `None`. -/
def innerCalls (g : Ctx) (m : CoMod (.stream X) (.stream X)) : m.Inst → List (List X) → Except Err (List (List X) × m.Inst)
  | i, [] => .ok ([], i)
  | i, x :: xs =>
    match innerCall g m i x with
    | .error e => .error e
    | .ok (none, _) => .error .type
    | .ok (some y, j) => (innerCalls g m j xs).map fun r => (y :: r.1, r.2)

/-- `RetroactiveLambda(layer, takes_time=True)`: transformer.py:112-135.  It does not hand `clean_state` on to the layer. -/
@[reducible] def retroOver (g : Ctx) (m : CoMod (.stream X) (.stream X)) : CoMod (.stream (List X)) (.stream (List X)) where
  Inst := m.Inst
  init := m.init
  clean := id
  fwd := fun i xs => match xs with
    | [x] => match innerCall g m i x with
      | .error e => .error e
      | .ok (none, _) => .error .type
      | .ok (some y, j) => .ok ([y], j)
    | _ => .error .runtime
  step := fun i _ x => innerCall g m i x
  steps := fun i _ _ xs => if xs.isEmpty then .error .runtime else (innerCalls g m i xs).map fun r => (some r.1, r.2)
  St := Unit
  pstep := fun _ _ => .error .attribute
  rf := 1
  stride := 1
  padding := 0
  delay := 0

variable {F B E : Type} [Field F] [Fintype E] [Add X] [Zero X]

/-- The first two members of the encoder with two layers, in the context `g`. -/
@[reducible] def bodyIn (g : Ctx) (p1 p2 : Layer F X B E) : CoMod (.stream X) (.stream (List X)) :=
  Sequential.mod (.cons (retroLayer p1) (.single (retroOver g (singleLayer p2 (-1) true))))

/-- All members: transformer.py:551-571. -/
@[reducible] def twoLayersIn (g : Ctx) (p1 p2 : Layer F X B E) : CoMod (.stream X) (.stream X) :=
  Sequential.mod (.cons (retroLayer p1) (.cons (retroOver g (singleLayer p2 (-1) true)) (.single (squeezeLast X))))

end CoInf.Transformer
