/-
Autograd: which graph the steps of a stream build, and when `backward` raises.

The values of tensors are left out (they are the subject of the other models).  A tensor is the node that made it and the
storage it lives in.  Of torch the following is assumed:
* an operation on a tensor that requires grad makes a node that points to the nodes of its arguments, unless grad mode is
  off (`torch.no_grad()`);
* a node may save arguments or its result for the backward pass, and remembers the version of their storages; writing
  into a tensor bumps the version of its storage, and views share it;
* `backward` runs the nodes that are reachable from the loss; a node raises `RuntimeError` if it was run before and had
  saved something that has been released since ("Trying to backward through the graph a second time"), and if a storage it
  saved has another version now ("one of the variables needed for gradient computation has been modified by an inplace
  operation");
* which operations save what: see the programs of the modules below.
-/
import Verif.Model.Core

set_option autoImplicit false

namespace CoInf.Grad

/-- A node of the graph: the nodes of its arguments, the storages it saved with their versions, whether it releases
something when it is run. -/
structure Node where
  ins : List Nat
  saved : List (Nat × Nat)
  once : Bool
deriving DecidableEq

/-- The state of autograd: grad mode; the nodes, the newest first (a node is named by the number of nodes before it); the
number of storages and their versions; the nodes that have been released. -/
structure Graph where
  on : Bool
  nodes : List Node
  used : Nat
  ver : Nat → Nat
  gone : List Nat

/-- A tensor: whether it requires grad, the node that made it (a parameter has none), its storage. -/
structure Ten where
  req : Bool
  fn : Option Nat
  mem : Nat
deriving DecidableEq

/-- The node with a given number. -/
def nodeAt : List Node → Nat → Option Node
  | [], _ => none
  | n :: r, i => if i = r.length then some n else nodeAt r i

/-- One operation of a step.  The operands are numbers of registers; every operation appends its result.
* `op args saved saveOut once`: an operation that returns a new tensor;
* `view a`: indexing, `permute`, `unsqueeze`, `transpose`, ...;
* `zeros`: `torch.zeros(...)`, `torch.zeros_like(...)`;
* `write a v`: `a[...] = v`; the result is `a`;
* `push a v`: `a = torch.roll(a, -1); a[..., -1] = v`. -/
inductive Instr
  | op (args saved : List Nat) (saveOut once : Bool)
  | view (a : Nat)
  | zeros
  | write (a v : Nat)
  | push (a v : Nat)
deriving DecidableEq

/-- The tensor in a register. -/
def reg (rs : List Ten) (i : Nat) : Ten := rs.getD i ⟨false, none, 0⟩

/-- The nodes of some tensors. -/
def fns (ts : List Ten) : List Nat := ts.filterMap Ten.fn

/-- A new tensor made from `ts`. -/
def Graph.make (g : Graph) (ts saved : List Ten) (saveOut once : Bool) : Ten × Graph :=
  if g.on ∧ ts.any Ten.req then
    (⟨true, some g.nodes.length, g.used⟩,
      { g with
        used := g.used + 1
        nodes := ⟨fns ts, saved.map (fun t => (t.mem, g.ver t.mem)) ++ (if saveOut then [(g.used, g.ver g.used)] else []),
          once⟩ :: g.nodes })
  else (⟨false, none, g.used⟩, { g with used := g.used + 1 })

/-- A view of `a`. -/
def Graph.view (g : Graph) (a : Ten) : Ten × Graph :=
  if g.on ∧ a.req then (⟨true, some g.nodes.length, a.mem⟩, { g with nodes := ⟨fns [a], [], false⟩ :: g.nodes })
  else (⟨false, none, a.mem⟩, g)

/-- `a[...] = v` (`CopySlices`, which cannot be run twice). -/
def Graph.write (g : Graph) (a v : Ten) : Ten × Graph :=
  let g := { g with ver := fun m => if m = a.mem then g.ver m + 1 else g.ver m }
  if g.on ∧ (a.req ∨ v.req) then
    (⟨true, some g.nodes.length, a.mem⟩, { g with nodes := ⟨fns [a, v], [], true⟩ :: g.nodes })
  else (a, g)

/-- One operation. -/
def Instr.exec (rs : List Ten) (g : Graph) : Instr → Ten × Graph
  | .op args saved saveOut once => g.make (args.map (reg rs)) (saved.map (reg rs)) saveOut once
  | .view a => g.view (reg rs a)
  | .zeros => g.make [] [] false false
  | .write a v => g.write (reg rs a) (reg rs v)
  | .push a v =>
    let r := g.make [reg rs a] [] false false
    r.2.write r.1 (reg rs v)

/-- Straight-line code. -/
def run : List Instr → List Ten → Graph → List Ten × Graph
  | [], rs, g => (rs, g)
  | c :: cs, rs, g => run cs (rs ++ [(c.exec rs g).1]) (c.exec rs g).2

/-- The backward pass: the nodes in the order in which the engine runs them (the newest first), from those in `need`. -/
def visit (ver : Nat → Nat) (gone : List Nat) : List Node → List Nat → Except Err (List Nat)
  | [], _ => .ok []
  | n :: r, need =>
    if r.length ∈ need then
      if (n.once ∧ r.length ∈ gone) ∨ ¬ (∀ p ∈ n.saved, ver p.1 = p.2) then .error .runtime
      else (visit ver gone r (n.ins ++ need)).map (r.length :: ·)
    else visit ver gone r need

/-- `loss.backward(retain_graph=retain)` for a loss that is computed from the tensors `ts` (say their sum). -/
def Graph.backward (g : Graph) (retain : Bool) (ts : List Ten) : Except Err Graph :=
  if ts.any Ten.req then
    (visit g.ver g.gone g.nodes (fns ts)).map fun v => if retain then g else { g with gone := v ++ g.gone }
  else .error .runtime

/-- `optimizer.step()`: writes into the parameters, with grad mode off. -/
def Graph.update (g : Graph) (ps : List Ten) : Graph :=
  { g with ver := fun m => if m ∈ ps.map Ten.mem then g.ver m + 1 else g.ver m }

/-! ### Modules -/

/-- A module: the number of its parameters; the counter of its schedule (what it starts from, how it goes on, at which
values there is an output); the code of a step (the first step of a stream or a later one; with an output or without);
the registers that hold the output and the new state.  The registers before the step: the input, the parameters, the
state. -/
structure Leaf where
  params : Nat
  start : Int
  next : Int → Int
  emits : Int → Bool
  code : (first emit : Bool) → List Instr
  out : (first emit : Bool) → Nat
  keep : (first emit : Bool) → List Nat

/-- The state of a module: what it keeps and its counter. -/
abbrev St := List Ten × Int

/-- `_forward_step` of a module. -/
def Leaf.step (l : Leaf) (ps : List Ten) (st : Option St) (x : Ten) (g : Graph) : Option Ten × Option St × Graph :=
  let first := st.isNone
  let kept := (st.map Prod.fst).getD []
  let c := (st.map Prod.snd).getD l.start
  let e := l.emits c
  let r := run (l.code first e) (x :: ps ++ kept) g
  (if e then some (reg r.1 (l.out first e)) else none,
   some ((l.keep first e).map (reg r.1), l.next c), r.2)

/-- The counter of convolutions and pooling (conv.py:272-274, pooling.py:195-197). -/
def wrap (s : Nat) (c : Int) : Int := if c + 1 > 0 then (c + 1) % s else c + 1

/-- A layer without state: with weights (`Linear`, a convolution of kernel size one, which save their input and their
weights) or without; whether it saves its result (`ReLU`, `Softmax`). -/
def layer (weights saveOut : Bool) : Leaf where
  params := if weights then 1 else 0
  start := 0
  next := id
  emits := fun _ => true
  code := fun _ _ => if weights then [.op [0, 1] [0, 1] saveOut true] else [.op [0] [] saveOut true]
  out := fun _ _ => if weights then 2 else 1
  keep := fun _ _ => []

/-- `co.Conv1d`, `co.Conv2d`, `co.Conv3d` of temporal kernel size `K ≥ 2`, stride `s` and padding `p` (conv.py:143-155,
200-278).  Registers: 0 the input, 1 the weight, 2 the bias, 3 the buffer (from the second step on).
* conv.py:204, 209-228: the convolution saves its input and the weight; `x_out` and `x_rest` are views (230);
* conv.py:147-150: `zeros_like` or a clone, and `repeat`;
* conv.py:244-255: indexing (which saves the indices only), `sum`, `+`;
* conv.py:257-261: `x_out += bias` goes into the new tensor, which nothing else refers to, and is modelled as `x_out + bias`;
* conv.py:265-266: in training mode the buffer is cloned before it is written. -/
def conv (K s p : Nat) (replicate training : Bool) : Leaf :=
  let n := fun first => if first then 3 else 4
  let b := fun first => if first then 7 else 3
  let m := fun first => if first then 8 else 7
  let k := fun first emit => if emit then m first + 4 else m first
  { params := 2
    start := (s : Int) - ((K : Int) - 1) - 1 + p
    next := wrap s
    emits := fun c => c = (s : Int) - 1
    code := fun first emit =>
      [.op [0, 1] [0, 1] false true, .view (n first), .view (n first)] ++
      (if first then [if replicate then .op [5] [] false false else .zeros, .op [6] [] false false] else []) ++
      (if emit then [.op [b first] [] false true, .op [m first] [] false false,
        .op [n first + 1, m first + 1] [] false false, .op [m first + 2, 2] [] false false] else []) ++
      (if training then [.op [b first] [] false false, .write (k first emit) (n first + 2)]
        else [.write (b first) (n first + 2)])
    out := fun first _ => m first + 3
    keep := fun first emit => [if training then k first emit + 1 else k first emit] }

/-- Average and max pooling of temporal kernel size `K`, dilation `d`, stride `s` and padding `p` (pooling.py:152-166,
180-212).  Registers: 0 the input, 1 the buffer (from the second step on).
* pooling.py:189: the spatial pooling saves its input; without it the frame is the input (`unity`);
* pooling.py:156-162: `zeros_like`, `neginf_like` or a clone, and `stack`;
* pooling.py:191: the frame is written into the buffer; the clone is commented out (193);
* pooling.py:201-209: with dilation, `index_select` copies the frames;
* pooling.py:107-132: `permute` and `reshape`, the temporal pooling, `reshape`.  The first `reshape` copies unless the
  sizes allow a view: `copied = false` for 1d pooling with dilation 1, and for the others with dilation 1 if the batch
  size, the number of channels or of positions is one;
* `AdaptiveAvgPool1d(1)` is the mean, which saves sizes only; `AdaptiveMaxPool1d(1)` saves its argument. -/
def pool (K d s p : Nat) (max replicate spatial copied : Bool) : Leaf :=
  let n := fun first => if first then 1 else 2
  let f := fun first => if spatial then n first else 0
  let n1 := fun first => if spatial then n first + 1 else n first
  let b := fun first => if first then n1 first + 1 else 1
  let n2 := fun first => if first then n1 first + 2 else n1 first
  { params := 0
    start := (s : Int) - ((d : Int) * (K - 1) + 1) + p
    next := wrap s
    emits := fun c => c = (s : Int) - 1
    code := fun first emit =>
      (if spatial then [.op [0] [0] false true] else []) ++
      (if first then [if replicate then .op [f first] [] false false else .zeros, .op [n1 first] [] false false]
        else []) ++
      [.write (b first) (f first)] ++
      (if emit then [if copied then .op [n2 first] [] false true else .view (n2 first),
        .op [n2 first + 1] (if max then [n2 first + 1] else []) false true, .view (n2 first + 2)] else [])
    out := fun first _ => n2 first + 3
    keep := fun first _ => [n2 first] }

/-- `co.Delay(d)` for `d ≥ 1` (delay.py:65-76, 90-111).  Registers: 0 the input, 1 the buffer (from the second step on).
The output is a copy of the frame in the buffer (delay.py:101), the input is written into the buffer (106). -/
def delay (d : Nat) (shrink replicate : Bool) : Leaf :=
  let b := fun first => if first then 2 else 1
  let n := fun first => if first then 3 else 2
  { params := 0
    start := if shrink then -2 * (d : Int) else -(d : Int)
    next := wrap d
    emits := fun c => 0 ≤ c
    code := fun first emit =>
      (if first then [if replicate then .op [0] [] false false else .zeros, .op [1] [] false false] else []) ++
      (if emit then [.view (b first), .op [n first] [] false false] else []) ++
      [.write (b first) 0]
    out := fun first _ => n first + 1
    keep := fun first emit => [if emit then n first + 2 else n first] }

/-- The counter of attention (mha_base.py:419-428). -/
def fill (c : Int) : Int := if c < 0 then c + 1 else c

/-- `SingleOutputMultiheadAttention` on windows of `N` tokens, on a query that is key and value too (as in a network);
`older`: whether the query is older than the newest token (single_output_mha.py:25-44, 83-115; mha_base.py:135-139,
178-182, 216-223, 391-428).  Registers: 0 the input, 1 the weights of the projections of query, key and value (one
multiplication, of which they are views), 2 those of the projection of the output, 3-5 the memories of queries, keys,
values. -/
def single (N : Nat) (older : Bool) : Leaf where
  params := 2
  start := -(N : Int)
  next := fill
  emits := fun c => 0 ≤ fill c
  code := fun first _ =>
    (if first then [.zeros, .zeros, .zeros] else []) ++
    [.op [0, 1] [0, 1] false true, .view 6, .view 6, .view 6,     -- 7, 8, 9: q, k, v
     .op [7] [] false true,                                       -- 10: q_step / sqrt(E)
     .view (if older then 3 else 10),                             -- 11: q_sel
     .push 4 8, .push 5 9,                                        -- 12, 13: K_T_new, V_new
     .op [11, 12] [11, 12] false true, .op [14] [] true true,     -- 14, 15: bmm, softmax
     .op [15, 13] [15, 13] false true,                            -- 16: output
     if older then .push 3 10 else .view 3,                       -- 17: Q_new
     .op [16, 2] [16, 2] false true]                              -- 18: the projection of the output
  out := fun _ _ => 18
  keep := fun _ _ => [17, 12, 13]

/-- `RetroactiveMultiheadAttention` on windows of `N` tokens (retroactive_mha.py:26-45, 85-144; mha_base.py as before).
Registers: 0-2 as in `single`, 3-7 the memories `d_mem`, `AV_mem`, `Q_mem`, `K_T_mem`, `V_mem`. -/
def retro (N : Nat) : Leaf where
  params := 2
  start := -(N : Int)
  next := fill
  emits := fun c => 0 ≤ fill c
  code := fun first _ =>
    (if first then [.zeros, .zeros, .zeros, .zeros, .zeros] else []) ++
    [.op [0, 1] [0, 1] false true, .view 8, .view 8, .view 8,     -- 9, 10, 11: q, k, v
     .op [9] [] false true,                                       -- 12: q_step / sqrt(E)
     .op [5, 6] [5, 6] false true, .op [13] [] true true,         -- 14: A_left
     .op [5, 10] [5, 10] false true, .op [15] [] true true,       -- 16: A_right
     .push 5 12, .push 6 10,                                      -- 17, 18: Q_mem_new, K_T_mem_new
     .op [12, 18] [12, 18] false true, .op [19] [] true true,     -- 20: A_bottom
     .op [3, 14] [] false false, .op [21, 16] [] false false,     -- 22: d_mem - A_left + A_right
     .op [20] [] false false, .op [22, 23] [] false false,        -- 24: d
     .op [14, 7] [14, 7] false true, .op [16, 11] [16, 11] false true,  -- 25, 26: AV_sub, AV_add
     .op [4, 25] [] false false, .op [27, 26] [] false false,     -- 28: AV_top
     .push 7 11,                                                  -- 29: V_mem_new
     .op [20, 29] [20, 29] false true, .op [28, 30] [] false false,     -- 31: AV_new
     .op [31, 24] [31, 24] false true,                            -- 32: output
     .view 24, .view 31,                                          -- 33, 34: d[:, 1:], AV_new[:, 1:]
     .op [32, 2] [32, 2] false true]                              -- 35: the projection of the output
  out := fun _ _ => 35
  keep := fun _ _ => [33, 34, 17, 18, 29]

/-- The modules. -/
inductive Kind
  | layer (weights saveOut : Bool)
  | conv (K s p : Nat) (replicate training : Bool)
  | pool (K d s p : Nat) (max replicate spatial copied : Bool)
  | delay (d : Nat) (shrink replicate : Bool)
  | single (N : Nat) (older : Bool)
  | retro (N : Nat)

/-- The code of a module. -/
def Kind.leaf : Kind → Leaf
  | .layer w o => Grad.layer w o
  | .conv K s p r t => Grad.conv K s p r t
  | .pool K d s p m r sp c => Grad.pool K d s p m r sp c
  | .delay d sh r => Grad.delay d sh r
  | .single N o => Grad.single N o
  | .retro N => Grad.retro N

/-- Networks: `co.Sequential` of two members and `co.BroadcastReduce` of two branches that are added, or multiplied (then
both outputs are saved); longer ones by nesting. -/
inductive Net
  | one (k : Kind)
  | seq (a b : Net)
  | sum (mul : Bool) (a b : Net)

/-- The parameters and states of the members of a network. -/
inductive Inst
  | one (ps : List Ten) (st : Option St)
  | two (a b : Inst)

/-- New parameters. -/
def newParams : Nat → Graph → List Ten × Graph
  | 0, g => ([], g)
  | n + 1, g =>
    let r := newParams n { g with used := g.used + 1 }
    (⟨true, none, g.used⟩ :: r.1, r.2)

/-- Construction of the network. -/
def Net.build : Net → Graph → Inst × Graph
  | .one k, g => let r := newParams k.leaf.params g; (.one r.1 none, r.2)
  | .seq a b, g => let r := a.build g; let r' := b.build r.2; (.two r.1 r'.1, r'.2)
  | .sum _ a b, g => let r := a.build g; let r' := b.build r.2; (.two r.1 r'.1, r'.2)

/-- `forward_step` (container.py:639-648, 871-879: a member after one without output is not called; a reduction needs
both outputs). -/
def Net.step : Net → Inst → Ten → Graph → Option Ten × Inst × Graph
  | .one k, .one ps st, x, g =>
    let r := k.leaf.step ps st x g
    (r.1, .one ps r.2.1, r.2.2)
  | .seq a b, .two ia ib, x, g =>
    match a.step ia x g with
    | (none, ia, g) => (none, .two ia ib, g)
    | (some y, ia, g) =>
      let r := b.step ib y g
      (r.1, .two ia r.2.1, r.2.2)
  | .sum mul a b, .two ia ib, x, g =>
    match a.step ia x g with
    | (oa, ia, g) =>
      match b.step ib x g with
      | (ob, ib, g) =>
        match oa, ob with
        | some y, some z =>
          let r := g.make [y, z] (if mul then [y, z] else []) false mul
          (some r.1, .two ia ib, r.2)
        | _, _ => (none, .two ia ib, g)
  | _, i, _, g => (none, i, g)

/-- `clean_state`. -/
def Inst.clean : Inst → Inst
  | .one ps _ => .one ps none
  | .two a b => .two a.clean b.clean

/-- The parameters. -/
def Inst.params : Inst → List Ten
  | .one ps _ => ps
  | .two a b => a.params ++ b.params

/-- The tensors of the state. -/
def Inst.kept : Inst → List Ten
  | .one _ st => (st.map Prod.fst).getD []
  | .two a b => a.kept ++ b.kept

/-- A new frame, which the caller makes: it requires no grad. -/
def Graph.frame (g : Graph) : Ten × Graph := (⟨false, none, g.used⟩, { g with used := g.used + 1 })

/-- A stream of `n` frames: the outputs (the newest last), the network, the graph. -/
def Net.stream (net : Net) : Nat → Inst → Graph → List Ten × Inst × Graph
  | 0, i, g => ([], i, g)
  | n + 1, i, g =>
    let r := net.stream n i g
    let f := r.2.2.frame
    let s := net.step r.2.1 f.1 f.2
    (r.1 ++ s.1.toList, s.2.1, s.2.2)

/-- The graph before anything was computed. -/
def Graph.empty (on : Bool) : Graph := ⟨on, [], 0, fun _ => 0, []⟩

end CoInf.Grad
