/-
The type checks of `Sequential`: subclasses of `Tensor` and empty batches.

/repo/continual/container.py:633-676 (`forward`, `forward_step`, `forward_steps` of `Sequential`): values are looked at with
`type(input) in {Tensor, list}` (an exact comparison of types, so `nn.Parameter` and other subclasses of `Tensor` are not in the
set) and `len(input) == 0` (the size of the first axis, the batch).
-/
import Verif.Model.Core

set_option autoImplicit false

namespace CoInf.Types

/-- A tensor: is its type a subclass of `Tensor`; the size of the batch; what else there is to it. -/
structure Ten (X : Type) where
  sub : Bool
  batch : Nat
  data : X

/-- A member, by its methods on data (`S`: states).  `keeps`: are results for a subclass of that subclass?  (This is so for
subclasses defined by users, as torch documents `__torch_function__`, and for members that return their argument; results of
operations on an `nn.Parameter` are plain tensors.)  The batch is kept. -/
structure Member (X S : Type) where
  keeps : Bool
  step : S → Bool → X → Except Err (Option X × S)
  steps : S → Bool → Bool → X → Except Err (Option X × S)
  fwd : X → Except Err X

variable {X S : Type}

/-- The result of a member as a tensor. -/
def Member.wrap (m : Member X S) (t : Ten X) (o : Option X) : Option (Ten X) := o.map fun y => ⟨t.sub && m.keeps, t.batch, y⟩

/-- A `Sequential` together with the states of its members. -/
inductive Chain (X S : Type) where
  | nil
  | cons (m : Member X S) (s : S) (rest : Chain X S)

/-- `type(input) in {Tensor, list}` of a result that is a tensor or `None`. -/
def plain : Option (Ten X) → Bool
  | some t => !t.sub
  | none => false

/-- `Sequential.forward_step`, container.py:640-650: the type is checked after every member. -/
def step : Chain X S → Bool → Ten X → Except Err (Option (Ten X) × Chain X S)
  | .nil, _, t => .ok (some t, .nil)
  | .cons m s rest, u, t => match m.step s u t.data with
    | .error e => .error e
    | .ok (o, s') => match m.wrap t o with
      | none => .ok (none, .cons m s' rest)
      | some y => if plain (some y) then
          match step rest u y with
          | .error e => .error e
          | .ok (o, rest') => .ok (o, .cons m s' rest')
        else .ok (none, .cons m s' rest)

/-- `Sequential.forward_steps`, container.py:668-676: type and batch are checked before every member. -/
def steps : Chain X S → Bool → Bool → Option (Ten X) → Except Err (Option (Ten X) × Chain X S)
  | .nil, _, _, t => .ok (t, .nil)
  | .cons m s rest, p, u, t => match t with
    | none => .ok (none, .cons m s rest)
    | some t => if !plain (some t) || t.batch == 0 then .ok (none, .cons m s rest)
      else match m.steps s p u t.data with
        | .error e => .error e
        | .ok (o, s') => match steps rest p u (m.wrap t o) with
          | .error e => .error e
          | .ok (o, rest') => .ok (o, .cons m s' rest')

/-- `Sequential.forward`, container.py:633-637: no checks. -/
def fwd : Chain X S → Ten X → Except Err (Ten X)
  | .nil, t => .ok t
  | .cons m _ rest, t => match m.fwd t.data with
    | .error e => .error e
    | .ok y => fwd rest ⟨t.sub && m.keeps, t.batch, y⟩

end CoInf.Types
