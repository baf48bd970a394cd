/-
The axes of the recurrent modules: /repo/continual/rnn.py takes clips `(B, C, T)` and frames `(B, C)`, torch's modules
(with `batch_first=True`) take `(B, T, C)`.

A cell (`Verif.Model.Rnn`) maps a frame, a tensor `(B, C)`, and a state to a tensor and a state.
-/
import Verif.Model.Rnn
import Verif.Model.Tensor

set_option autoImplicit false

namespace CoInf.RnnLayout
open Tensor
variable {F S : Type} [Zero F]

/-- `nn.RNN.forward(input, hx)` (also GRU, LSTM) with `batch_first=True`: the frames are the slices along axis 1, the
outputs are stacked along axis 1. -/
def torchForward (c : Rnn.Cfg (Tensor F) S) (x : Tensor F) (hx : Option (List S)) : Except Err (Tensor F × List S) :=
  if x.shape.length ≠ 3 then .error .runtime
  else do
    let frames ← (List.range (x.shape.getD 1 0)).mapM (x.select 1)
    let (ys, h) ← Rnn.torchForward c frames hx
    let y ← stack ys 1
    return (y, h)

/-- `forward`: rnn.py:196-202, 411-417, 668-676. -/
def forward (c : Rnn.Cfg (Tensor F) S) (x : Tensor F) (hx : Option (List S)) : Except Err (Tensor F × List S) := do
  let x ← x.transpose 1 2
  let (y, h) ← torchForward c x hx
  let y ← y.transpose 1 2
  return (y, h)

/-- `_forward_step`: rnn.py:210-217, 425-432, 684-690. -/
def pstep (c : Rnn.Cfg (Tensor F) S) (x : Tensor F) (s : Option (List S)) : Except Err (Tensor F × List S) := do
  let x ← x.unsqueeze 1
  let (y, h) ← torchForward c x s
  let y ← y.squeeze 1
  return (y, h)

/-- `forward_step`: rnn.py:204-208, 419-423, 678-682. -/
def forwardStep (c : Rnn.Cfg (Tensor F) S) (i : Option (List S)) (upd : Bool) (x : Tensor F) :
    Except Err (Tensor F × Option (List S)) :=
  match pstep c x i with
  | .error e => .error e
  | .ok (y, h) => .ok (y, if upd then some h else i)

/-- `forward_steps`: rnn.py:219-224, 434-439, 692-696. -/
def forwardSteps (c : Rnn.Cfg (Tensor F) S) (i : Option (List S)) (upd : Bool) (x : Tensor F) :
    Except Err (Tensor F × Option (List S)) :=
  match forward c x i with
  | .error e => .error e
  | .ok (y, h) => .ok (y, if upd then some h else i)

end CoInf.RnnLayout
