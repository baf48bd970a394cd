/-
A module together with what `OnnxWrapper` makes of it: /repo/continual/onnx.py:246-281.  The typed functional step is
`CoMod.pstep` (`_forward_step`); `enc` lists the tensors of the state that it returned, provided that every member with a
state has been initialised.  (Containers have no `get_state` of their own, module.py:168-169, so the states that an exported
model is given come from `_forward_step`.)
-/
import Verif.Model.Onnx
import Verif.Model.Container
import Verif.Model.Broadcast
import Verif.Model.Closure

set_option autoImplicit false

namespace CoInf.Onnx

variable {Y T : Type}

/-- A module, its functional step on untyped states, and the tensors of its states. -/
structure Exp (Y T : Type) where
  co : CoMod (.stream Y) (.stream Y)
  mod : Mod Y T
  enc : Option co.St → Option (Nested T)

namespace Exp

/-- A module whose state is a tuple of `n` tensors, for instance `RNN` (rnn.py:116-117, 187-189) or attention inside a container
(single_output_mha.py:180-182): `enc` lists them, `dec` reads them. -/
def leaf (m : CoMod (.stream Y) (.stream Y)) (n : Nat) (inds : List Bool) (dec : List (Nested T) → Option m.St)
    (enc : m.St → List T) : Exp Y T where
  co := m
  mod := .leaf n inds (ofPstep m.pstep dec enc)
  enc := fun s => s.map fun s => .many ((enc s).map .one)

/-- `Delay`: delay.py:9, 38-44. -/
def delay (c : Delay.Cfg Y) : Exp Y (Tensor Y) where
  co := Delay.mod c
  mod := Onnx.delay c
  enc := fun s => if c.d = 0 then some (.many []) else s.map fun s => .many [.one (.buf s.1), .one (.idx s.2)]

/-- `Skip`: skip.py:10, 20-26. -/
def skip (n : Nat) : Exp Y (Tensor Y) where
  co := Skip.mod n Y
  mod := Onnx.skip n
  enc := fun s => s.map fun s => .many [.one (.idx s)]

/-- `_ConvCoNd`: conv.py:22, 129-141. -/
def conv [AddCommMonoid Y] (c : Conv.Cfg Y Y) : Exp Y (Tensor Y) where
  co := Conv.mod c
  mod := Onnx.conv c
  enc := fun s => if Conv.stateless c then some (.many []) else
    s.map fun s => .many [.one (.taps s.buffer), .one (.idx s.index), .one (.idx s.strideIndex)]

/-- `_PoolNd`: pooling.py:31, 59-60. -/
def pool (c : Pool.Cfg Y Y) : Exp Y (Tensor Y) where
  co := Pool.mod c
  mod := Onnx.pool c
  enc := fun s => s.map fun s => .many [.one (.buf s.buffer), .one (.idx s.index), .one (.idx s.strideIndex)]

/-- A module without state, `Linear` or `Lambda` of a function on frames: `_state_shape` is 0. -/
def map (f : Y → Y) : Exp Y T where
  co := Pointwise.mod f
  mod := .leaf 0 [] (ofStateless fun x => .ok (some (f x)))
  enc := fun _ => some (.many [])

/-- The members of a `Sequential`. -/
def chain : Exp Y T → List (Exp Y T) → Chain (.stream Y) (.stream Y)
  | e, [] => .single e.co
  | e, e' :: es => .cons e.co (chain e' es)

/-- Their states. -/
def chainEnc : (e : Exp Y T) → (es : List (Exp Y T)) → (chain e es).St → Option (List (Nested T))
  | e, [], (s : Option e.co.St) => (e.enc s).map fun s => [s]
  | e, e' :: es, (s : Option e.co.St × (chain e' es).St) =>
    match e.enc s.1, chainEnc e' es s.2 with
    | some s, some ss => some (s :: ss)
    | _, _ => none

/-- `Sequential`: container.py:650-666. -/
def seq (e : Exp Y T) (es : List (Exp Y T)) : Exp Y T where
  co := Sequential.mod (chain e es)
  mod := .seq (e.mod :: es.map (·.mod))
  enc := fun s => (chainEnc e es (s.getD (chain e es).noneSt)).map .many

/-- The states of the members of a parallel container. -/
def listEnc : (es : List (Exp Y T)) → BroadcastReduce.St (es.map (·.co)) → Option (List (Nested T))
  | [], _ => some []
  | e :: es, (s : Option e.co.St × BroadcastReduce.St (es.map (·.co))) =>
    match e.enc s.1, listEnc es s.2 with
    | some s, some ss => some (s :: ss)
    | _, _ => none

/-- `BroadcastReduce`, `Residual`: container.py:851-869. -/
def reduce (r : Reducer Y Y) (es : List (Exp Y T)) : Exp Y T where
  co := BroadcastReduce.mod r (es.map (·.co))
  mod := .reduce r.frame (es.map (·.mod))
  enc := fun s => (listEnc es (s.getD (BroadcastReduce.noneSt _))).map .many

end Exp

/-! ### How the state is passed -/

/-- Values that occur as arguments of `_forward_step`. -/
inductive Arg (Y T : Type) where
  | absent
  | frame (x : Y)
  | states (s : Nested T)

/-- `if key is None: key = query`: single_output_mha.py:326-329. -/
def Arg.orFrame (q : Y) : Arg Y T → Arg Y T
  | .absent => .frame q
  | a => a

/-- Python's binding of positional and keyword arguments to parameters; all defaults are `None`. -/
def bindArgs (params : List String) (pos : List (Arg Y T)) (kw : List (String × Arg Y T)) (name : String) : Arg Y T :=
  match (params.zip pos).lookup name with
  | some a => a
  | none => (kw.lookup name).getD .absent

/-- Parameters of `_forward_step` of attention: single_output_mha.py:302-308, retroactive_mha.py:286-292. -/
def attnParams : List String := ["query", "key", "value", "prev_state"]

/-- `_forward_step` of attention on bound arguments: single_output_mha.py:325-333, retroactive_mha.py:308-315; `f` is the
step of mha_base.py:374-425.  A tuple has no `shape` (mha_base.py:105-106). -/
def attnCall {S : Type} (f : Y → Y → Y → Option S → Except Err (Option Y × Option S)) (dec : List (Nested T) → Option S)
    (enc : S → List T) (arg : String → Arg Y T) : Except Err (Option Y × Nested T) :=
  match arg "query" with
  | .frame q =>
    match (arg "key").orFrame q, (arg "value").orFrame q with
    | .frame k, .frame v =>
      match arg "prev_state" with
      | .states s => ofPstep (fun q s => f q k v s) dec enc q s
      | _ =>
        match f q k v none with
        | .error e => .error e
        | .ok (o, some s') => .ok (o, .many ((enc s').map .one))
        | .ok (o, none) => .ok (o, .many [])
    | _, _ => .error .attribute
  | _ => .error .attribute

/-- `self.model._forward_step(x, shaped_state)`: onnx.py:261. -/
def wrapperArgs (x : Y) (s : Nested T) : String → Arg Y T := bindArgs attnParams [.frame x, .states s] []

/-- `module._forward_step(input, prev_state=prev_state[i])`: container.py:654, 864. -/
def containerArgs (x : Y) (s : Nested T) : String → Arg Y T := bindArgs attnParams [.frame x] [("prev_state", .states s)]

end CoInf.Onnx
