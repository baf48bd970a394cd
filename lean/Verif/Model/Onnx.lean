/-
Model of the state handling of ONNX export: /repo/continual/onnx.py:234-281 (`_shape_list`, `OnnxWrapper`),
/repo/continual/utils.py:233-247 (`flatten`), and the functional steps of the containers on untyped nested states
(/repo/continual/container.py).  Tracing is modelled in `Verif.Model.OnnxTrace`.
-/
import Verif.Model.Pool
import Verif.Model.Delay

set_option autoImplicit false

namespace CoInf.Onnx

/-- Nested tuples and lists of tensors. -/
inductive Nested (T : Type) where
  | one (t : T)
  | many (l : List (Nested T))

/-- `_state_shape`: a number of tensors, or a list of shapes. -/
inductive Shape where
  | num (n : Nat)
  | list (ss : List Shape)

variable {T X : Type}

mutual
/-- `_flatten`: utils.py:240-247.  (`remove_none` has no effect on states without `None`.) -/
def flatten : Nested T → List T
  | .one t => [t]
  | .many l => flattenAll l
def flattenAll : List (Nested T) → List T
  | [] => []
  | a :: l => flatten a ++ flattenAll l
end

mutual
/-- `sum(flatten(shape))`: onnx.py:270. -/
def Shape.total : Shape → Nat
  | .num n => n
  | .list ss => Shape.totalAll ss
def Shape.totalAll : List Shape → Nat
  | [] => 0
  | s :: ss => s.total + Shape.totalAll ss
end

mutual
/-- `_shape_list(lst, shape, idx)`: onnx.py:234-243.  Python slices are silently short at the end of the list. -/
def shapeList (lst : List T) : Shape → Nat → Nested T × Nat
  | .num n, idx => (.many (((lst.drop idx).take n).map .one), idx + n)
  | .list ss, idx => let (r, i) := shapeLists lst ss idx; (.many r, i)
def shapeLists (lst : List T) : List Shape → Nat → List (Nested T) × Nat
  | [], idx => ([], idx)
  | s :: ss, idx =>
    let (o, i) := shapeList lst s idx
    let (r, j) := shapeLists lst ss i
    (o :: r, j)
end

/-- `state_input_names`: onnx.py:268-270. -/
def inputNames (s : Shape) : List String := (List.range s.total).map fun i => "s" ++ toString i

/-- `state_output_names` and `_i2o_name`: onnx.py:264-266, 272-274. -/
def outputNames (s : Shape) : List String := (inputNames s).map fun n => "n" ++ n

/-- Modules as far as `_forward_step` on untyped states is concerned.  `leaf` is any module with a declared
`_state_shape` and `_dynamic_state_inds`.  In `par`, `get x i` is `inputs[i]` and `pack` makes the list of outputs. -/
inductive Mod (X T : Type) where
  | leaf (shape : Nat) (inds : List Bool) (step : X → Nested T → Except Err (Option X × Nested T))
  | seq (ms : List (Mod X T))
  | reduce (r : List X → Except Err X) (ms : List (Mod X T))
  | par (get : X → Nat → Except Err X) (pack : List (Option X) → X) (ms : List (Mod X T))
  | cond (p : X → Bool) (a b : Mod X T)

mutual
/-- `_state_shape`: container.py:307-309, 660-662, 851-853, 1072-1074. -/
def Mod.shape : Mod X T → Shape
  | .leaf n _ _ => .num n
  | .seq ms => .list (Mod.shapes ms)
  | .reduce _ ms => .list (Mod.shapes ms)
  | .par _ _ ms => .list (Mod.shapes ms)
  | .cond _ a b => .list [a.shape, b.shape]
def Mod.shapes : List (Mod X T) → List Shape
  | [] => []
  | m :: ms => m.shape :: Mod.shapes ms
end

mutual
/-- `_dynamic_state_inds`: container.py:311-313, 664-666, 855-857, 1076-1078. -/
def Mod.inds : Mod X T → Nested Bool
  | .leaf _ l _ => .many (l.map .one)
  | .seq ms => .many (Mod.indss ms)
  | .reduce _ ms => .many (Mod.indss ms)
  | .par _ _ ms => .many (Mod.indss ms)
  | .cond _ a b => .many [a.inds, b.inds]
def Mod.indss : List (Mod X T) → List (Nested Bool)
  | [] => []
  | m :: ms => m.inds :: Mod.indss ms
end

/-- `prev_state[i]` and the rest. -/
def pop : List (Nested T) → Except Err (Nested T × List (Nested T))
  | [] => .error .index
  | s :: ss => .ok (s, ss)

mutual
/-- `_forward_step(input, prev_state)` with a given state.
`Sequential`: container.py:650-658 (members behind a member without output keep their state);
`BroadcastReduce`: container.py:859-869; `Parallel`: container.py:315-324; `Conditional`: container.py:1055-1063 (returns
the state of the chosen branch only). -/
def Mod.step : Mod X T → X → Nested T → Except Err (Option X × Nested T)
  | .leaf _ _ f, x, s => f x s
  | .seq ms, x, .many ss =>
    match Mod.seqSteps ms x ss with
    | .ok (o, ss') => .ok (o, .many ss')
    | .error e => .error e
  | .seq _, _, .one _ => .error .attribute
  | .reduce r ms, x, .many ss =>
    match Mod.mapSteps ms (fun _ => .ok x) 0 ss with
    | .error e => .error e
    | .ok (os, ss') =>
      if os.all Option.isSome then
        match r (os.filterMap id) with
        | .ok y => .ok (some y, .many ss')
        | .error e => .error e
      else .ok (none, .many ss')
  | .reduce _ _, _, .one _ => .error .attribute
  | .par get pack ms, x, .many ss =>
    match Mod.mapSteps ms (get x) 0 ss with
    | .error e => .error e
    | .ok (os, ss') => .ok (some (pack os), .many ss')
  | .par _ _ _, _, .one _ => .error .attribute
  | .cond p a b, x, .many ss =>
    if p x then
      match ss[0]? with
      | some s => a.step x s
      | none => .error .index
    else
      match ss[1]? with
      | some s => b.step x s
      | none => .error .index
  | .cond _ _ _, _, .one _ => .error .attribute
def Mod.seqSteps : List (Mod X T) → X → List (Nested T) → Except Err (Option X × List (Nested T))
  | [], x, ss => .ok (some x, ss)
  | m :: ms, x, ss =>
    match pop ss with
    | .error e => .error e
    | .ok (s, rest) =>
      match m.step x s with
      | .error e => .error e
      | .ok (none, s') => .ok (none, s' :: rest)
      | .ok (some y, s') =>
        match Mod.seqSteps ms y rest with
        | .error e => .error e
        | .ok (o, ss') => .ok (o, s' :: ss')
/-- The loop of the parallel containers, `i` being the index of the first module of the list. -/
def Mod.mapSteps : List (Mod X T) → (Nat → Except Err X) → Nat → List (Nested T) →
    Except Err (List (Option X) × List (Nested T))
  | [], _, _, ss => .ok ([], ss)
  | m :: ms, inp, i, ss =>
    match inp i with
    | .error e => .error e
    | .ok x =>
      match pop ss with
      | .error e => .error e
      | .ok (s, rest) =>
        match m.step x s with
        | .error e => .error e
        | .ok (o, s') =>
          match Mod.mapSteps ms inp (i + 1) rest with
          | .error e => .error e
          | .ok (os, ss') => .ok (o :: os, s' :: ss')
end

/-- Tensors of a state: a buffer of frames, a buffer of convolution taps, or an index. -/
inductive Tensor (Y : Type) where
  | buf (l : List Y)
  | taps (l : List (List Y))
  | idx (i : Int)

/-- A leaf whose `_forward_step` reads its state as a tuple of tensors (`dec`) and returns one (`enc`); reading a tuple of
another kind raises in python. -/
def ofPstep {S : Type} (f : X → Option S → Except Err (Option X × Option S)) (dec : List (Nested T) → Option S)
    (enc : S → List T) (x : X) : Nested T → Except Err (Option X × Nested T)
  | .one _ => .error .type
  | .many l =>
    match dec l with
    | none => .error .type
    | some s =>
      match f x (some s) with
      | .error e => .error e
      | .ok (o, some s') => .ok (o, .many ((enc s').map .one))
      | .ok (o, none) => .ok (o, .many [])

/-- A leaf without state hands its `prev_state` on (delay.py:92, conv.py:206, convert.py:54-59). -/
def ofStateless (f : X → Except Err (Option X)) (x : X) (s : Nested T) : Except Err (Option X × Nested T) :=
  match f x with
  | .error e => .error e
  | .ok o => .ok (o, s)

/-- `Delay`: `_state_shape` and `_dynamic_state_inds` delay.py:38-44. -/
def delay {Y : Type} (c : Delay.Cfg Y) : Mod Y (Tensor Y) :=
  if c.d = 0 then .leaf 0 [] (ofStateless fun x => (Delay.pstep c x none).map (·.1))
  else .leaf 2 [true, false] (ofPstep (Delay.pstep c)
    (fun | [.one (.buf b), .one (.idx i)] => some (b, i) | _ => none) (fun s => [.buf s.1, .idx s.2]))

/-- `Skip`: skip.py:20-26. -/
def skip {Y : Type} (n : Nat) : Mod Y (Tensor Y) :=
  .leaf 1 [false] (ofPstep (Skip.pstep n) (fun | [.one (.idx i)] => some i | _ => none) (fun s => [.idx s]))

/-- Convolutions: conv.py:129-141. -/
def conv {Y : Type} [AddCommMonoid Y] (c : Conv.Cfg Y Y) : Mod Y (Tensor Y) :=
  if Conv.stateless c then .leaf 0 [] (ofStateless fun x => (Conv.pstep c x none).map (·.1))
  else .leaf 3 [true, false, false] (ofPstep (Conv.pstep c)
    (fun | [.one (.taps b), .one (.idx i), .one (.idx k)] => some ⟨b, i, k⟩ | _ => none)
    (fun s => [.taps s.buffer, .idx s.index, .idx s.strideIndex]))

/-- Pooling: pooling.py:59-60. -/
def pool {Y : Type} (c : Pool.Cfg Y Y) : Mod Y (Tensor Y) :=
  .leaf 3 [true, false, false] (ofPstep (Pool.pstep c)
    (fun | [.one (.buf b), .one (.idx i), .one (.idx k)] => some ⟨b, i, k⟩ | _ => none)
    (fun s => [.buf s.buffer, .idx s.index, .idx s.strideIndex]))

/-- `OnnxWrapper.forward(x, *states)`: onnx.py:257-262. -/
def wrapper (m : Mod X T) (x : X) (states : List T) : Except Err (Option X × List T) :=
  match m.step x (shapeList states m.shape 0).1 with
  | .ok (o, s) => .ok (o, flatten s)
  | .error e => .error e

/-- `state_dynamic_axes`: onnx.py:276-281, the names with a dynamic batch axis. -/
def dynamicInputs (m : Mod X T) : List String :=
  ((inputNames m.shape).zip (flatten m.inds)).filterMap fun p => if p.2 then some p.1 else none

end CoInf.Onnx
