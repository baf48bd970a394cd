/-
Continual multi-head attention: /repo/continual/multihead_attention/mha_base.py, retroactive_mha.py and
single_output_mha.py.

Simplifications
* Exact arithmetic: tensor entries are elements of an arbitrary field `F`, `torch.exp` is an arbitrary function
  `ex : F → F` (nothing about it is used; `Real.exp` is one instance).
* The leading tensor axis `B = batch * heads` of the attention tensors is an arbitrary index type, the embedding axis
  is an arbitrary finite type.  The in-projection (mha_base.py:135-164, with the reshaping into heads 177-182) is an
  arbitrary function of the input frame, and so is the out-projection (220-221), which merges the heads again.
* A frame is the triple of query, key and value inputs of a step; with `key=None`/`value=None` all three are the query
  (mha_base.py:456-459).  `add_bias_kv`, `add_zero_attn`, masks and dropout in training mode are not modelled.
* An empty batch is not modelled: then `len(self.d_mem)` is 0 and the state is never seen again.
-/
import Verif.Model.Core
import Mathlib.Algebra.Field.Basic
import Mathlib.Algebra.Field.Rat
import Mathlib.Algebra.BigOperators.Group.Finset.Basic
import Mathlib.Algebra.BigOperators.Group.List.Basic
import Mathlib.Data.Fintype.Basic
import Mathlib.Algebra.BigOperators.Pi

set_option autoImplicit false

namespace CoInf.Attn

/-- `torch.roll(b, shifts=-1)` along time, then `b[-1] = a`: retroactive_mha.py:101-105, 125-126,
single_output_mha.py:94-98, 110-111.  The assignment raises if there is no entry. -/
def rollSet {α : Type} (b : List α) (a : α) : Except Err (List α) := pySet (b.drop 1 ++ b.take 1) (-1) a

/-! ### `MultiheadAttentionBase` -/

/-- What the two attention modules pass to `MultiheadAttentionBase`: mha_base.py:251-288.  `dflt` is
`_sdpa_default_state`, `sdpa` is `multi_head_attention_forward_step` with `_sdpa_step`. -/
structure Base (X O : Type) where
  N : Nat
  S : Type
  dflt : Except Err S
  sdpa : S → X → Except Err (O × S)
  fwd : List X → Except Err (List O)
  delay : Int

variable {X O : Type} (b : Base X O)

/-- The state handed to the step: mha_base.py:391-399. -/
def start (s : Option (b.S × Int)) : Except Err (b.S × Int) :=
  match s with
  | some st => .ok st
  | none => b.dflt.map fun d => (d, -(b.N : Int))

/-- `_forward_step`: mha_base.py:374-428.  (`stride_index += 1` also changes the tensor inside `prev_state`, see
`Verif.Model.AttnHeap`.) -/
def pstep (x : X) (s : Option (b.S × Int)) : Except Err (Option O × Option (b.S × Int)) :=
  match start b s with
  | .error e => .error e
  | .ok (st, idx) =>
    match b.sdpa st x with
    | .error e => .error e
    | .ok (o, st') =>
      let idx' := if idx < 0 then idx + 1 else idx
      .ok (if idx' < 0 then none else some o, some (st', idx'))

/-- `forward_step`: mha_base.py:430-478.  Without `update_state`, `backup_state` is assigned only if there was a state,
but it is read in any case, since the state returned by `_forward_step` is never `None`. -/
def step (i : Option (b.S × Int)) (upd : Bool) (x : X) : Except Err (Option O × Option (b.S × Int)) :=
  match pstep b x i with
  | .error e => .error e
  | .ok (o, s') =>
    if upd then .ok (o, s')
    else match i with
      | some st => .ok (o, some st)
      | none => .error .unbound

/-- The loop of `forward_steps`: mha_base.py:523-532. -/
def loop (s : Option (b.S × Int)) : List X → Except Err (List O × Option (b.S × Int))
  | [] => .ok ([], s)
  | x :: xs =>
    match pstep b x s with
    | .error e => .error e
    | .ok (o, s') =>
      match loop s' xs with
      | .error e => .error e
      | .ok (os, s'') => .ok (o.toList ++ os, s'')

/-- `forward_steps`: mha_base.py:480-544.  `pad_end` is swallowed by `**kwargs`.  `set_state(None)` raises `TypeError`
(unpacking), reading the unassigned `backup_state` or `o` raises `UnboundLocalError`. -/
def steps (i : Option (b.S × Int)) (_padEnd upd : Bool) (xs : List X) :
    Except Err (Option (List O) × Option (b.S × Int)) :=
  match loop b i xs with
  | .error e => .error e
  | .ok (os, s') =>
    match upd, i, s' with
    | true, _, none => .error .type
    | false, none, _ => .error .unbound
    | true, _, some st => if xs.isEmpty then .error .unbound else .ok (optList os, some st)
    | false, some st, _ => if xs.isEmpty then .error .unbound else .ok (optList os, some st)

/-- The module.  Attributes: the state tensors, `none` if they are the empty tensors of construction and `clean_state`
(retroactive_mha.py:250-284, single_output_mha.py:231-258). -/
@[reducible] def Base.mod : CoMod (.stream X) (.stream O) where
  Inst := Option (b.S × Int)
  init := none
  clean := fun _ => none
  fwd := fun i xs => (b.fwd xs).map fun ys => (ys, i)
  step := step b
  steps := steps b
  St := b.S × Int
  pstep := pstep b
  rf := b.N
  stride := 1
  padding := 0
  delay := b.delay

/-! ### Scaled dot-product attention -/

/-- Parameters of an attention module. `scale` is `1 / math.sqrt(E)`. -/
structure Cfg (F X Y B E : Type) where
  N : Nat
  q : X → B → E → F
  k : X → B → E → F
  v : X → B → E → F
  scale : F
  ex : F → F
  out : (B → E → F) → Y

variable {F Y B E : Type} [Field F] [Fintype E] (c : Cfg F X Y B E)

/-- `torch.bmm` of a row with a column. -/
def dot (a b : B → E → F) : B → F := fun i => ∑ e, a i e * b i e

/-- The scaled query `q_step / math.sqrt(E)`: retroactive_mha.py:86, single_output_mha.py:87. -/
def sq (x : X) : B → E → F := fun i e => c.q x i e * c.scale

/-- `torch.exp(torch.bmm(q, k))`. -/
def w (q k : B → E → F) : B → F := fun i => c.ex (dot q k i)

/-- `torch.bmm` of a row of attention values with the value matrix. -/
def mix (as : List (B → F)) (vs : List (B → E → F)) : B → E → F :=
  (List.zipWith (fun a v => fun i e => a i * v i e) as vs).sum

/-- `F.softmax(attn, dim=-1)`. -/
def softmax (as : List (B → F)) : List (B → F) :=
  as.map fun a => fun i => c.ex (a i) / (as.map fun a' => c.ex (a' i)).sum

/-- One row of `softmax(Q K^T) V`: single_output_mha.py:100-107, and torch's attention. -/
def attnRow (q : B → E → F) (ks vs : List (B → E → F)) : B → E → F :=
  mix (softmax c (ks.map fun k => dot q k)) vs

/-- `torch.nn.MultiheadAttention.forward`, called in mha_base.py:362-364: all queries of the clip against all its keys
and values. -/
def full (xs : List X) : List Y :=
  xs.map fun x => c.out (attnRow c (sq c x) (xs.map c.k) (xs.map c.v))

/-- The same for one query: single_output_mha.py:287-298. -/
def fullRow (x : X) (xs : List X) : Y := c.out (attnRow c (sq c x) (xs.map c.k) (xs.map c.v))

/-! ### Retroactive -/

/-- State tensors `d_mem, AV_mem, Q_mem, K_T_mem, V_mem`: retroactive_mha.py:16-23. -/
structure RetroSt (F B E : Type) where
  d : List (B → F)
  AV : List (B → E → F)
  Q : List (B → E → F)
  K : List (B → E → F)
  V : List (B → E → F)

/-- `_scaled_dot_product_attention_default_state`: retroactive_mha.py:26-44 (a negative tensor size raises). -/
def retroDefault : Except Err (RetroSt F B E) :=
  if c.N = 0 then .error .runtime
  else .ok ⟨List.replicate (c.N - 1) 0, List.replicate (c.N - 1) 0, List.replicate (c.N - 1) 0,
    List.replicate c.N 0, List.replicate c.N 0⟩

/-- The lists of attention values and sums of a step: retroactive_mha.py:95-142, after the entries that raise have been
evaluated. -/
def retroCore (s : RetroSt F B E) (q k v k0 v0 : B → E → F) (Qn Kn Vn : List (B → E → F)) :
    List (B → E → F) × RetroSt F B E :=
  let Aleft := s.Q.map fun r => w c r k0
  let Aright := s.Q.map fun r => w c r k
  let Abottom := Kn.map fun r => w c q r
  let d := List.zipWith (· + ·) (List.zipWith (· - ·) s.d Aleft) Aright ++ [Abottom.sum]
  let AVsub := Aleft.map fun a => fun i e => a i * v0 i e
  let AVadd := Aright.map fun a => fun i e => a i * v i e
  let AV := List.zipWith (· + ·) (List.zipWith (· - ·) s.AV AVsub) AVadd ++ [mix Abottom Vn]
  (List.zipWith (fun av dd => fun i e => av i e / dd i) AV d, ⟨d.drop 1, AV.drop 1, Qn, Kn, Vn⟩)

/-- `_scaled_dot_product_attention_step`: retroactive_mha.py:47-144, between the projections. -/
def retroSdpa (s : RetroSt F B E) (x : X) : Except Err (List Y × RetroSt F B E) := do
  let k0 ← pyGet s.K 0
  let Qn ← rollSet s.Q (sq c x)
  let Kn ← rollSet s.K (c.k x)
  let v0 ← pyGet s.V 0
  let Vn ← rollSet s.V (c.v x)
  let r := retroCore c s (sq c x) (c.k x) (c.v x) k0 v0 Qn Kn Vn
  return (r.1.map c.out, r.2)

/-- `RetroactiveMultiheadAttention`.  A step returns the attention of all `N` queries, so a frame of the output is a
list of rows.  `forward` returns the rows of the clip without a further axis; it is a clip of one such frame here. -/
@[reducible] def retroBase : Base X (List Y) where
  N := c.N
  S := RetroSt F B E
  dflt := retroDefault c
  sdpa := retroSdpa c
  fwd := fun xs => .ok [full c xs]
  delay := (c.N : Int) - 1

/-- The module. -/
@[reducible] def retro : CoMod (.stream X) (.stream (List Y)) := (retroBase c).mod

/-! ### Single output -/

/-- Number of queries to remember: single_output_mha.py:39, and `delay` 260-266. -/
def nq (N : Nat) (queryIndex : Int) : Int := if queryIndex ≥ 0 then N - queryIndex - 1 else -queryIndex - 1

/-- State tensors `Q_mem, K_T_mem, V_mem`. -/
structure SingleSt (F B E : Type) where
  Q : List (B → E → F)
  K : List (B → E → F)
  V : List (B → E → F)

/-- `_scaled_dot_product_attention_default_state`: single_output_mha.py:25-43. -/
def singleDefault (queryIndex : Int) : Except Err (SingleSt F B E) :=
  if nq c.N queryIndex < 0 then .error .runtime
  else .ok ⟨List.replicate (nq c.N queryIndex).toNat 0, List.replicate c.N 0, List.replicate c.N 0⟩

/-- `_scaled_dot_product_attention_step`: single_output_mha.py:46-117 (without dropout). -/
def singleSdpa (s : SingleSt F B E) (x : X) : Except Err (Y × SingleSt F B E) :=
  let qsel := s.Q.headD (sq c x)
  match rollSet s.K (c.k x), rollSet s.V (c.v x) with
  | .ok Kn, .ok Vn =>
    let o := attnRow c qsel Kn Vn
    if s.Q.isEmpty then .ok (c.out o, ⟨s.Q, Kn, Vn⟩)
    else match rollSet s.Q (sq c x) with
      | .ok Qn => .ok (c.out o, ⟨Qn, Kn, Vn⟩)
      | .error e => .error e
  | .error e, _ => .error e
  | _, .error e => .error e

/-- `forward`: single_output_mha.py:268-300. -/
def singleFwd (queryIndex : Int) (singleForward : Bool) (xs : List X) : Except Err (List Y) :=
  if singleForward then (pyGet xs queryIndex).map fun x => [fullRow c x xs]
  else .ok (full c xs)

/-- `SingleOutputMultiheadAttention`: single_output_mha.py:120-400. -/
@[reducible] def singleBase (queryIndex : Int) (singleForward : Bool) : Base X Y where
  N := c.N
  S := SingleSt F B E
  dflt := singleDefault c queryIndex
  sdpa := singleSdpa c
  fwd := singleFwd c queryIndex singleForward
  delay := nq c.N queryIndex

/-- The module. The constructor asserts `query_index < sequence_len` (single_output_mha.py:228). -/
@[reducible] def single (queryIndex : Int) (singleForward : Bool) : CoMod (.stream X) (.stream Y) :=
  (singleBase c queryIndex singleForward).mod

end CoInf.Attn
