/-
Model of /repo/continual/rnn.py: `RNN`, `GRU`, `LSTM`.
-/
import Verif.Model.Core

set_option autoImplicit false

namespace CoInf.Rnn

/-- What one recurrent layer computes for one frame: `(output, next state) = cell x state`.  For `RNN` and `GRU` the
output is the new hidden vector, for `LSTM` the state is the pair of hidden and cell vector and the output is (the
projection of) the hidden vector.  Feature vectors of any size live in one type `V`. -/
abbrev Cell (V S : Type) := V → S → V × S

/-- Constructor arguments: the layers (at least one) and the zero state of a layer.  `dropout` is zero (rnn.py:119-154). -/
structure Cfg (V S : Type) where
  layers : List (Cell V S)
  zero : S

variable {V S : Type}

/-- One layer of torch's recurrent modules over a whole sequence. -/
def layer (f : Cell V S) : S → List V → List V × S
  | s, [] => ([], s)
  | s, x :: xs =>
    let (y, s') := f x s
    let (ys, s'') := layer f s' xs
    (y :: ys, s'')

/-- torch's stacked recurrent layers: every layer runs over the whole output sequence of the layer below. -/
def stack : List (Cell V S) → List S → List V → List V × List S
  | [], _, xs => (xs, [])
  | _ :: _, [], xs => (xs, [])
  | f :: fs, s :: ss, xs =>
    let (ys, s') := layer f s xs
    let (zs, ss') := stack fs ss ys
    (zs, s' :: ss')

/-- `nn.RNN.forward(input, hx)` (also GRU, LSTM): a missing hidden state is zeros; torch raises for sequences without
frames and for hidden states with the wrong number of layers. -/
def torchForward (c : Cfg V S) (xs : List V) (hx : Option (List S)) : Except Err (List V × List S) :=
  let ss := hx.getD (c.layers.map fun _ => c.zero)
  if xs = [] then .error .runtime
  else if ss.length ≠ c.layers.length then .error .runtime
  else .ok (stack c.layers ss xs)

/-- `forward(input, hx)`: rnn.py:196-202, 411-417, 668-676. -/
def forward (c : Cfg V S) (xs : List V) (hx : Option (List S)) : Except Err (List V × List S) := torchForward c xs hx

/-- `_forward_step`: rnn.py:210-217, 425-432, 684-690 (the sequence has one frame, `output.squeeze(1)`). -/
def pstep (c : Cfg V S) (x : V) (s : Option (List S)) : Except Err (Option V × Option (List S)) :=
  match torchForward c [x] s with
  | .error e => .error e
  | .ok (ys, s') => .ok (ys.head?, some s')

/-- `forward_step`: rnn.py:204-208, 419-423, 678-682. -/
def forwardStep (c : Cfg V S) (i : Option (List S)) (upd : Bool) (x : V) : Except Err (Option V × Option (List S)) :=
  match pstep c x i with
  | .error e => .error e
  | .ok (o, s) => .ok (o, if upd then s else i)

/-- `forward_steps`: rnn.py:219-224, 434-439, 692-696; `pad_end` is ignored. -/
def forwardSteps (c : Cfg V S) (i : Option (List S)) (_padEnd upd : Bool) (xs : List V) :
    Except Err (Option (List V) × Option (List S)) :=
  match forward c xs i with
  | .error e => .error e
  | .ok (ys, s) => .ok (some ys, if upd then some s else i)

/-- A recurrent module as a member of a container.  The object is the attribute `_hidden_state` (and `_cell_state`),
absent after construction and after `clean_state` (rnn.py:183-189, 398-404, 655-663).  `fwd` is `apply_forward`
(container.py:58-61), which drops the final state.  `delay` is 0 (rnn.py:179-181); `receptive_field`, `stride` and `padding`
are the class attributes of `CoModule` (module.py:114-116). -/
@[reducible] def mod (c : Cfg V S) : CoMod (.stream V) (.stream V) where
  Inst := Option (List S)
  init := none
  clean := fun _ => none
  fwd := fun i xs => (forward c xs none).map fun p => (p.1, i)
  step := forwardStep c
  steps := forwardSteps c
  St := List S
  pstep := pstep c
  rf := 1
  stride := 1
  padding := 0
  delay := 0

/-- `set_state`: rnn.py:191-194, 406-409, 665-666. -/
def setState (_ : Option (List S)) (s : List S) : Option (List S) := some s

end CoInf.Rnn
