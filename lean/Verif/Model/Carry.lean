/-
What conversion does with tensors and objects: /repo/continual/convert.py:84-114 (`forward_stepping` changes the module it is given),
227-246 (`continual`), conv.py:403-429, 503-529, 603-629, linear.py:98-121, rnn.py:156-177 (GRU 372-392, LSTM 628-649), the `build_from` of
pooling.py (305-321, 426-443, 557-574, 660-675, 782-797, 906-921; no tensors), container.py:706-712 (`Sequential.build_from`).

Assumed of torch: a constructor without arguments `device` and `dtype` uses the default ones; new parameters require gradients and new
modules are in training mode; `t.copy_(s)` and `load_state_dict` write the values of `s`, cast to the type of `t`, and leave type, device
and `requires_grad` of `t` as they are.  The arguments other than tensors are left out here (see Model/Convert.lean, Model/Args.lean).
-/
import Verif.Model.Device

set_option autoImplicit false

namespace CoInf.Carry

open CoInf.Device (Dev)

/-- Types of numbers. -/
inductive DType where
  | half
  | float
  | double
  deriving DecidableEq, Repr

/-- A parameter or a buffer of a module. -/
structure Tensor (V : Type) where
  val : V
  dtype : DType
  dev : Dev
  grad : Bool
  deriving DecidableEq

/-- A module object: its mode, and whether `forward_stepping` has changed it. -/
structure Obj where
  training : Bool
  enhanced : Bool
  deriving DecidableEq

/-- The tensors and module objects of a process. -/
structure Heap (V : Type) where
  tensors : List (Tensor V)
  objs : List Obj
  deriving DecidableEq

/-- What there is to a conversion, by the type of a module. -/
inductive Kind where
  /-- an instance of `CoModule` -/
  | co
  /-- in `NAIVE_MAPPING`, or in `CONDITIONAL_MAPPING` and meeting the condition -/
  | naive
  | conv
  | pool
  /-- `nn.Linear` -/
  | linear
  /-- recurrent modules with one direction -/
  | rnn
  /-- `nn.Sequential` -/
  | container
  /-- not registered, or refused by `build_from` -/
  | other
  deriving DecidableEq

/-- A module: references to its object and to the tensors that are its own. -/
structure Node where
  obj : Nat
  kind : Kind
  tensors : List Nat
  deriving DecidableEq

mutual
/-- A module of torch, or what was made of it. -/
inductive Mod where
  | leaf (n : Node)
  | seq (obj : Nat) (ms : Mods)
inductive Mods where
  | nil
  | cons (m : Mod) (ms : Mods)
end

/-- The state of torch and its casts. -/
structure Env (V : Type) where
  dtype : DType
  dev : Dev
  cast : DType → V → V

variable {V : Type}

/-- A new parameter with the values of another tensor: constructor, then `copy_`, as in conv.py:408-428. -/
def fresh (E : Env V) (dtype : DType) (dev : Dev) (t : Tensor V) : Tensor V := ⟨E.cast dtype t.val, dtype, dev, true⟩

/-- The tensors that references point to. -/
def get (h : Heap V) (ts : List Nat) : List (Tensor V) := ts.filterMap (h.tensors[·]?)

/-- Type and device of the new parameters: convolutions are constructed without arguments `device` and `dtype`; `Linear` and the
recurrent modules with those of `module.weight` or `module._flat_weights[0]`: conv.py:408-423, linear.py:104-116, rnn.py:157-173. -/
def place (E : Env V) : Kind → List (Tensor V) → DType × Dev
  | .linear, t :: _ => (t.dtype, t.dev)
  | .rnn, t :: _ => (t.dtype, t.dev)
  | _, _ => (E.dtype, E.dev)

/-- `build_from` of a module without members: conv.py:403-429, linear.py:98-121, rnn.py:156-177, pooling.py:305-321. -/
def buildFrom (E : Env V) (k : Kind) (ts : List Nat) (h : Heap V) : Mod × Heap V :=
  let (dt, dev) := place E k (get h ts)
  let new := (get h ts).map (fresh E dt dev)
  (.leaf ⟨h.objs.length, .co, (List.range new.length).map (h.tensors.length + ·)⟩,
   ⟨h.tensors ++ new, h.objs ++ [⟨true, false⟩]⟩)

/-- `forward_stepping` of an object: convert.py:84-114. -/
def enhance (obj : Nat) (h : Heap V) : Heap V :=
  { h with objs := h.objs.modify obj fun o => { o with enhanced := true } }

mutual
/-- `continual`: convert.py:227-246; the case of containers: container.py:706-712. -/
def continual (E : Env V) : Mod → Heap V → Except Err Mod × Heap V
  | .leaf n, h =>
    match n.kind with
    | .co => (.ok (.leaf n), h)
    | .naive => (.ok (.leaf n), enhance n.obj h)
    | .conv => let r := buildFrom E .conv n.tensors h; (.ok r.1, r.2)
    | .pool => let r := buildFrom E .pool n.tensors h; (.ok r.1, r.2)
    | .linear => let r := buildFrom E .linear n.tensors h; (.ok r.1, r.2)
    | .rnn => let r := buildFrom E .rnn n.tensors h; (.ok r.1, r.2)
    | .container => (.error .assertion, h)   -- not used: containers are `Mod.seq`
    | .other => (.error .assertion, h)
  | .seq _ ms, h =>
    match continualAll E ms h with
    | (.ok cs, h) => (.ok (.seq h.objs.length cs), { h with objs := h.objs ++ [⟨true, false⟩] })
    | (.error e, h) => (.error e, h)

/-- The members, from first to last: container.py:706-712. -/
def continualAll (E : Env V) : Mods → Heap V → Except Err Mods × Heap V
  | .nil, h => (.ok .nil, h)
  | .cons m ms, h =>
    match continual E m h with
    | (.ok c, h) =>
      match continualAll E ms h with
      | (.ok cs, h) => (.ok (.cons c cs), h)
      | (.error e, h) => (.error e, h)
    | (.error e, h) => (.error e, h)
end

mutual
/-- `modules()` of torch, with repetitions. -/
def nodes : Mod → List Node
  | .leaf n => [n]
  | .seq o ms => ⟨o, .container, []⟩ :: nodesAll ms
def nodesAll : Mods → List Node
  | .nil => []
  | .cons m ms => nodes m ++ nodesAll ms
end

/-- References of all tensors of a network: `parameters()` and `buffers()`, with repetitions. -/
def tensorsOf (m : Mod) : List Nat := (nodes m).flatMap (·.tensors)

/-- References of all module objects of a network. -/
def objsOf (m : Mod) : List Nat := (nodes m).map (·.obj)

/-- `net.train(mode)` of torch. -/
def train (mode : Bool) (m : Mod) (h : Heap V) : Heap V :=
  { h with objs := (objsOf m).foldl (fun l o => l.modify o fun x => { x with training := mode }) h.objs }

/-- Assignment to the values of the `i`-th tensor of a network, as by an optimiser or by batch normalisation. -/
def write (m : Mod) (i : Nat) (v : V) (h : Heap V) : Heap V :=
  match (tensorsOf m)[i]? with
  | some r => { h with tensors := h.tensors.modify r fun t => { t with val := v } }
  | none => h

end CoInf.Carry
