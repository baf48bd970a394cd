/-
The names and dynamic axes that `co.onnx.export` hands to torch: /repo/continual/onnx.py:13-31, 208-231.

Assumed of `torch.onnx.export`: the inputs of the graph are the tensors of `args` and then the parameters, its outputs are the tensors
of the result; the `i`-th name is given to the `i`-th input (output), more names than inputs (outputs) are a `RuntimeError`, and
inputs (outputs) without a name get one that is not in the lists.  Axis 0 of a tensor is dynamic if its name is a key of
`dynamic_axes` with the value `{0: ...}`.

Simplifications
* `args` are the tensors of the input (usually one) and the tensors of a state of the module, as many as `_state_shape` says.
* The other options are handed to torch as they are.
-/
import Verif.Model.Onnx

set_option autoImplicit false

namespace CoInf.Export
open Onnx

variable {X T : Type}

/-- The arguments `input_names` and `output_names`. -/
inductive Names where
  | none
  | list (l : List String)
  | tuple (l : List String)

/-- `names + state_names`: onnx.py:219-220.  `None + list` and `tuple + list` are `TypeError`s. -/
def Names.plus : Names → List String → Except Err (List String)
  | .list l, s => .ok (l ++ s)
  | .none, _ => .error .type
  | .tuple _, _ => .error .type

/-- `for i in names`: onnx.py:225-226. -/
def Names.iter : Names → Except Err (List String)
  | .list l => .ok l
  | .tuple l => .ok l
  | .none => .error .type

/-- What torch is called with; `axes` are the keys of `dynamic_axes`, whose values are all `{0: "batch"}`. -/
structure Call where
  inputs : List String
  outputs : List String
  axes : List String

/-- `export(model, ...)`: onnx.py:208-231; `co` is `isinstance(model, CoModule)`.  (The names of state outputs with a dynamic axis:
onnx.py:280.) -/
def call (co : Bool) (m : Mod X T) (inp out : Names) : Except Err Call :=
  if co then
    match inp.plus (inputNames m.shape) with
    | .error e => .error e
    | .ok i =>
      match out.plus (outputNames m.shape) with
      | .error e => .error e
      | .ok o =>
        match inp.iter, out.iter with
        | .ok a, .ok b => .ok ⟨i, o, a ++ b ++ (dynamicInputs m ++ (dynamicInputs m).map fun n => "n" ++ n)⟩
        | .error e, _ => .error e
        | .ok _, .error e => .error e
  else .error .assertion

/-- The exported graph: names of inputs and outputs by position, and the names whose axis 0 is dynamic. -/
structure Graph where
  input : Nat → Option String
  output : Nat → Option String
  dynamic : String → Bool

/-- The names of `nodes` inputs or outputs. -/
def label (names : List String) (nodes : Nat) : Except Err (Nat → Option String) :=
  if nodes < names.length then .error .runtime else .ok fun i => names[i]?

/-- The graph for a module with `I` tensors in its input, `J` in its output, and `P` parameters. -/
def graph (I J P : Nat) (co : Bool) (m : Mod X T) (inp out : Names) : Except Err Graph :=
  match call co m inp out with
  | .error e => .error e
  | .ok c =>
    match label c.inputs (I + m.shape.total + P) with
    | .error e => .error e
    | .ok i =>
      match label c.outputs (J + m.shape.total) with
      | .error e => .error e
      | .ok o => .ok ⟨i, o, fun s => decide (s ∈ c.axes)⟩

end CoInf.Export
