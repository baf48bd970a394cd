/-
What `torch.onnx.export` makes of `_forward_step`: the graph is obtained by tracing (docstring of /repo/continual/onnx.py:31-36), so
that every python `if` on the value of a state tensor is decided once, by the state that the model was exported with.  Indexing
by tensors and arithmetic on them are part of the graph.  Branches of the containers depend on which members give an output
(container.py:99-106, 656-657), which is settled by the branches inside the members.
-/
import Verif.Model.OnnxNet
import Verif.Model.Transformer

set_option autoImplicit false

namespace CoInf.Onnx

variable {X Y T : Type}

/-- Modules with the branches on their states made explicit: `br` are the two conditions of a state, `f` is the step with these
conditions given. -/
inductive TMod (X T : Type) where
  | leaf (n : Nat) (inds : List Bool) (br : Nested T → Bool × Bool)
      (f : Bool × Bool → X → Nested T → Except Err (Option X × Nested T))
  | seq (ms : List (TMod X T))
  | reduce (r : List X → Except Err X) (ms : List (TMod X T))

mutual
/-- The module in python: the conditions are evaluated in each step. -/
def TMod.real : TMod X T → Mod X T
  | .leaf n inds br f => .leaf n inds fun x s => f (br s) x s
  | .seq ms => .seq (TMod.reals ms)
  | .reduce r ms => .reduce r (TMod.reals ms)
def TMod.reals : List (TMod X T) → List (Mod X T)
  | [] => []
  | m :: ms => m.real :: TMod.reals ms
end

/-- Members of a state. -/
def Nested.items : Nested T → List (Nested T)
  | .one _ => []
  | .many l => l

mutual
/-- The module traced with the state `ex`: the conditions are those of `ex`. -/
def TMod.traced : TMod X T → Nested T → Mod X T
  | .leaf n inds br f, ex => .leaf n inds fun x s => f (br ex) x s
  | .seq ms, ex => .seq (TMod.traceds ms ex.items)
  | .reduce r ms, ex => .reduce r (TMod.traceds ms ex.items)
def TMod.traceds : List (TMod X T) → List (Nested T) → List (Mod X T)
  | [], _ => []
  | m :: ms, exs => m.traced (exs.headD (.many [])) :: TMod.traceds ms exs.tail
end

/-- A module whose state is a tuple of tensors, see `ofPstep`. -/
def TMod.ofBranch {S : Type} (n : Nat) (inds : List Bool) (dec : List (Nested T) → Option S) (enc : S → List T)
    (br : S → Bool × Bool) (f : Bool × Bool → X → S → Except Err (Option X × S)) : TMod X T :=
  .leaf n inds (fun s => match dec s.items with | some st => br st | none => (false, false))
    fun d => ofPstep (fun x s => match s with
      | some st => (f d x st).map fun p => (p.1, some p.2)
      | none => .error .type) dec enc

/-- A module without branches on its state. -/
def TMod.plain (n : Nat) (inds : List Bool) (f : X → Nested T → Except Err (Option X × Nested T)) : TMod X T :=
  .leaf n inds (fun _ => (true, true)) fun _ => f

namespace Traced

/-- `Delay._forward_step` with the conditions `index >= 0` and `new_index > 0`: delay.py:100-111. -/
def delayStep (c : Delay.Cfg Y) (d : Bool × Bool) (x : Y) (st : Delay.St Y) : Except Err (Option Y × Delay.St Y) :=
  match (if d.1 then (pyGet st.1 st.2).map some else .ok none) with
  | .error e => .error e
  | .ok output =>
    match pySet st.1 (st.2 % c.d) x with
    | .error e => .error e
    | .ok buffer => .ok (output, (buffer, if d.2 then (st.2 + 1) % c.d else st.2 + 1))

/-- `Delay`. -/
def delay (c : Delay.Cfg Y) : TMod Y (Tensor Y) :=
  if c.d = 0 then .plain 0 [] (ofStateless fun x => (Delay.pstep c x none).map (·.1))
  else .ofBranch 2 [true, false] (fun | [.one (.buf b), .one (.idx i)] => some (b, i) | _ => none)
    (fun s => [.buf s.1, .idx s.2]) (fun st => (decide (st.2 ≥ 0), decide (st.2 + 1 > 0))) (delayStep c)

/-- `Skip._forward_step` with the condition `index >= 0`: skip.py:44-57. -/
def skipStep (d : Bool × Bool) (x : Y) (i : Int) : Except Err (Option Y × Int) :=
  if d.1 then .ok (some x, i) else .ok (none, i + 1)

/-- `Skip`. -/
def skip : TMod Y (Tensor Y) :=
  .ofBranch 1 [false] (fun | [.one (.idx i)] => some i | _ => none) (fun s => [.idx s])
    (fun i => (decide (i ≥ 0), true)) skipStep

/-- The stride counter with the condition `next_stride_index > 0`: conv.py:272-274, pooling.py:195-197. -/
def stride (S : Nat) (wrap : Bool) (si : Int) : Int := if wrap then (si + 1) % S else si + 1

/-- `_forward_step_py` with the conditions `output_is_valid` and `next_stride_index > 0`: conv.py:230-278. -/
def convStep [AddCommMonoid Y] (c : Conv.Cfg Y Y) (d : Bool × Bool) (x : Y) (st : Conv.St Y) :
    Except Err (Option Y × Conv.St Y) :=
  match pyGet (Conv.taps c x) 0 with
  | .error e => .error e
  | .ok xOut =>
    match (if d.1 then (Conv.pick st (c.K - 1)).map fun ps => some (Conv.addBias c (xOut + ps.sum)) else .ok none) with
    | .error e => .error e
    | .ok out =>
      match Conv.writeBack c st ((Conv.taps c x).drop 1) with
      | .error e => .error e
      | .ok next => .ok (out, ⟨next.1, next.2, stride c.S d.2 st.strideIndex⟩)

/-- `_ConvCoNd`. -/
def conv [AddCommMonoid Y] (c : Conv.Cfg Y Y) : TMod Y (Tensor Y) :=
  if Conv.stateless c then .plain 0 [] (ofStateless fun x => (Conv.pstep c x none).map (·.1))
  else .ofBranch 3 [true, false, false]
    (fun | [.one (.taps b), .one (.idx i), .one (.idx k)] => some ⟨b, i, k⟩ | _ => none)
    (fun s => [.taps s.buffer, .idx s.index, .idx s.strideIndex])
    (fun st => (decide (st.strideIndex = (c.S : Int) - 1), decide (st.strideIndex + 1 > 0))) (convStep c)

/-- `_PoolNd._forward_step` with the conditions `stride_index == stride[0] - 1` and `next_stride_index > 0`:
pooling.py:189-212. -/
def poolStep (c : Pool.Cfg Y Y) (d : Bool × Bool) (x : Y) (st : Pool.St Y) : Except Err (Option Y × Pool.St Y) :=
  match pySet st.buffer st.index (c.spatial x) with
  | .error e => .error e
  | .ok buffer =>
    match (if d.1 then (Pool.select c buffer ((st.index + 1) % (c.K : Int))).map fun sel => some (c.pool sel) else .ok none) with
    | .error e => .error e
    | .ok out => .ok (out, ⟨buffer, (st.index + 1) % (c.K : Int), stride c.S d.2 st.strideIndex⟩)

/-- `_PoolNd`. -/
def pool (c : Pool.Cfg Y Y) : TMod Y (Tensor Y) :=
  .ofBranch 3 [true, false, false] (fun | [.one (.buf b), .one (.idx i), .one (.idx k)] => some ⟨b, i, k⟩ | _ => none)
    (fun s => [.buf s.buffer, .idx s.index, .idx s.strideIndex])
    (fun st => (decide (st.strideIndex = (c.S : Int) - 1), decide (st.strideIndex + 1 > 0))) (poolStep c)

/-- A module without state. -/
def map (f : Y → Y) : TMod Y T := .plain 0 [] (ofStateless fun x => .ok (some (f x)))

/-- `RetroactiveUnity(delay = n + 1)._forward_step` with the conditions `index >= 0`, `new_index > 0` and with the number
`shift = int(-index - 1)`, which becomes a constant of the graph: transformer.py:90-109. -/
def unityStep (n : Nat) (d : Bool × Bool) (shift : Nat) (x : Y) (st : List Y × Int) :
    Except Err (Option (List Y) × (List Y × Int)) :=
  match pySet st.1 (st.2 % ((n : Int) + 2)) x with
  | .error e => .error e
  | .ok buffer => .ok (if d.1 then some (Transformer.Unity.rollLeft buffer shift) else none,
      (buffer, if d.2 then (st.2 + 1) % ((n : Int) + 1) else st.2 + 1))

/-- The conditions and the shift of a state. -/
def unityBranch (st : List Y × Int) : (Bool × Bool) × Nat := ((decide (st.2 ≥ 0), decide (st.2 + 1 > 0)), (st.2 + 1).toNat)

end Traced

/-- A module with its export and its branches. -/
structure TExp (Y T : Type) where
  exp : Exp Y T
  tmod : TMod Y T

namespace TExp

/-- `Delay`. -/
def delay (c : Delay.Cfg Y) : TExp Y (Tensor Y) := ⟨.delay c, Traced.delay c⟩
/-- `Skip`. -/
def skip (n : Nat) : TExp Y (Tensor Y) := ⟨.skip n, Traced.skip⟩
/-- `_ConvCoNd`. -/
def conv [AddCommMonoid Y] (c : Conv.Cfg Y Y) : TExp Y (Tensor Y) := ⟨.conv c, Traced.conv c⟩
/-- `_PoolNd`. -/
def pool (c : Pool.Cfg Y Y) : TExp Y (Tensor Y) := ⟨.pool c, Traced.pool c⟩
/-- A module without state. -/
def map (f : Y → Y) : TExp Y T := ⟨.map f, Traced.map f⟩
/-- A module without branches on its state, for instance recurrent ones (rnn.py:210-217). -/
def leaf (m : CoMod (.stream Y) (.stream Y)) (n : Nat) (inds : List Bool) (dec : List (Nested T) → Option m.St)
    (enc : m.St → List T) : TExp Y T := ⟨.leaf m n inds dec enc, .plain n inds (ofPstep m.pstep dec enc)⟩
/-- `Sequential`. -/
def seq (e : TExp Y T) (es : List (TExp Y T)) : TExp Y T :=
  ⟨.seq e.exp (es.map (·.exp)), .seq (e.tmod :: es.map (·.tmod))⟩
/-- `BroadcastReduce`. -/
def reduce (r : Reducer Y Y) (es : List (TExp Y T)) : TExp Y T :=
  ⟨.reduce r (es.map (·.exp)), .reduce r.frame (es.map (·.tmod))⟩

end TExp

end CoInf.Onnx
