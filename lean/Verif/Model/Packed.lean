/-
Sequences of different lengths in the recurrent modules: /repo/continual/rnn.py, whose documentation (45-47, 266-268, 494-496) says
that the input can also be a packed variable length sequence, and that the output then is a packed sequence (65-67, 286-288, 519-521).

Assumed about torch: `PackedSequence` is a named tuple of tensors without an attribute `swapaxes`.
-/
import Verif.Model.Rnn

set_option autoImplicit false

namespace CoInf.Packed
variable {V S : Type}

/-- torch's layers work on every entry of the batch separately. -/
def entrywise (n : Nat) (f : Rnn.Cell V S) : Rnn.Cell (Fin n → V) (Fin n → S) :=
  fun x s => (fun b => (f (x b) (s b)).1, fun b => (f (x b) (s b)).2)

/-- A recurrent module on batches of `n` entries. -/
def batch (n : Nat) (c : Rnn.Cfg V S) : Rnn.Cfg (Fin n → V) (Fin n → S) := ⟨c.layers.map (entrywise n), fun _ => c.zero⟩

/-- What the annotation `Union[Tensor, PackedSequence]` (rnn.py:197, 412, 670) admits: a clip of frames of `n` entries, or `n` packed
sequences of any lengths. -/
inductive Input (n : Nat) (V : Type) where
  | clip (xs : List (Fin n → V))
  | packed (seqs : Fin n → List V)

/-- `input.swapaxes(1, 2)`: rnn.py:199, 414, 673. -/
def swapaxes {n : Nat} : Input n V → Except Err (List (Fin n → V))
  | .clip xs => .ok xs
  | .packed _ => .error .attribute

/-- `forward`: rnn.py:196-202, 411-417, 668-676. -/
def forward {n : Nat} (c : Rnn.Cfg V S) (x : Input n V) (hx : Option (List (Fin n → S))) :
    Except Err (List (Fin n → V) × List (Fin n → S)) :=
  match swapaxes x with
  | .error e => .error e
  | .ok xs => Rnn.forward (batch n c) xs hx

/-- `forward_steps`: rnn.py:219-224, 434-439, 692-696. -/
def forwardSteps {n : Nat} (c : Rnn.Cfg V S) (i : Option (List (Fin n → S))) (upd : Bool) (x : Input n V) :
    Except Err (List (Fin n → V) × Option (List (Fin n → S))) :=
  match forward c x i with
  | .error e => .error e
  | .ok (ys, h) => .ok (ys, if upd then some h else i)

end CoInf.Packed
