/-
Frames of varying batch size in the recurrent modules: /repo/continual/rnn.py.

As in `Verif.Model.Shape`, a frame is the list of its entries along the batch axis.  The hidden state holds the states of the layers for
every entry of the batch.
-/
import Verif.Model.Shape
import Verif.Model.Rnn

set_option autoImplicit false

namespace CoInf.Shape.Rnn
variable {V S : Type}

/-- torch's recurrent layers on a sequence of one frame, entry by entry. -/
def rows (c : CoInf.Rnn.Cfg V S) : List V → List (List S) → Except Err (List V × List (List S))
  | x :: xs, s :: ss => match CoInf.Rnn.torchForward c [x] (some s) with
    | .error e => .error e
    | .ok (ys, s') => match rows c xs ss with
      | .error e => .error e
      | .ok (zs, ss') => .ok (ys ++ zs, s' :: ss')
  | _, _ => .ok ([], [])

/-- `nn.RNN.forward` (also GRU, LSTM) on a batch: without a hidden state it is made of zeros for the batch size of the input; a hidden
state of another batch size raises (`check_hidden_size`). -/
def torchForward (c : CoInf.Rnn.Cfg V S) (x : List V) (hx : Option (List (List S))) : Except Err (List V × List (List S)) :=
  let ss := hx.getD (x.map fun _ => c.layers.map fun _ => c.zero)
  if ss.length ≠ x.length then .error .runtime else rows c x ss

/-- `_forward_step`: rnn.py:210-217, 425-432, 684-690. -/
def pstep (c : CoInf.Rnn.Cfg V S) (x : List V) (s : Option (List (List S))) :
    Except Err (Option (List V) × List (List S)) :=
  match torchForward c x s with
  | .error e => .error e
  | .ok (ys, ss) => .ok (some ys, ss)

/-- `forward_step`: rnn.py:204-208, 419-423, 678-682.  The object is the attribute `_hidden_state` (and `_cell_state`). -/
def mod (c : CoInf.Rnn.Cfg V S) : EMod (List V) (List V) where
  Inst := Option (List (List S))
  init := none
  step := fun i u x => match pstep c x i with
    | .error e => (.error e, i)
    | .ok (o, ss) => (.ok o, if u then some ss else i)

end CoInf.Shape.Rnn
