/-
Queries, keys and values of varying batch size in a step of attention.

In the other models of attention the batch is part of the type of frames.  Here query, key and value are lists along the batch
axis, each of any length, as they may differ from call to call and from each other.  What becomes visible: the sizes that
`multi_head_attention_forward_step` compares (/repo/continual/multihead_attention/mha_base.py:97-182), the views it takes, and
torch's broadcasting when rows are written into the state tensors.

Simplifications: the arithmetic of a row (one entry of the batch, one head) is a parameter; `retroRow` and `singleRow` are the
formulas of `Verif.Model.Attention` for one row.  Results are lists of rows; the reshaping of the result and the
projection behind it (mha_base.py:220-221) are left out: for the sizes that get there they do not raise.  Embedding sizes are those of the
module (other ones raise in `F.linear` or in the assertion in lines 114-116).
-/
import Verif.Model.Shape
import Verif.Model.Attention

set_option autoImplicit false

namespace CoInf.AttnShape
open Shape (EMod)

/-- The arguments of `forward_step`, along the batch axis. -/
structure Frame (A B C : Type) where
  query : List A
  key : List B
  value : List C

/-- The attention of one row: what `scaled_dot_product_attention_step` does along axis 0 of all tensors. -/
structure Row (V S O : Type) where
  init : Except Err S
  step : S → V → V → V → Except Err (O × S)

/-- A module: `num_heads`, the projections to the heads (mha_base.py:135-139), the rows, and `sequence_len`. -/
structure Cfg (A B C V S O : Type) where
  H : Nat
  N : Nat
  q : A → Fin H → V
  k : B → Fin H → V
  v : C → Fin H → V
  row : Row V S O

/-- Rows of the projected tensor: `x.view(-1, bsz * num_heads, head_dim)` for the batch size of `x`, mha_base.py:177-182. -/
def rows {X V : Type} {H : Nat} (p : X → Fin H → V) (xs : List X) : List V := xs.flatMap fun x => List.ofFn (p x)

/-- A tensor `(r, head_dim)` or `(r, m, head_dim)`. -/
inductive Ten (V : Type) where
  | mat (rows : List V)
  | cube (rows : List (List V))

/-- `x.view(-1, r, head_dim).transpose(0, 1)` and `.squeeze(1)`: mha_base.py:179-182, 215.  torch infers the first size; it raises
if the size does not divide or if `r` is zero. -/
def view {V : Type} (xs : List V) (r : Nat) : Except Err (Ten V) :=
  if r = 0 ∨ xs.length % r ≠ 0 then .error .runtime
  else if xs.length / r = 1 then .ok (.mat xs)
  else .ok (.cube ((List.range r).map fun i => (List.range (xs.length / r)).filterMap fun j => xs[j * r + i]?))

/-- The rows that are written by `mem[:, -1] = x` for a `mem` with `n` rows: torch drops leading axes of size one of `x` and repeats
a single row. -/
def assign {V : Type} (n : Nat) : Ten V → Except Err (List V)
  | .mat xs => Shape.assignRow n xs
  | .cube [xs] => Shape.assignRow n xs
  | .cube _ => .error .runtime

variable {A B C V S O : Type}

/-- All rows. -/
def runRows (r : Row V S O) : List S → List V → List V → List V → Except Err (List O × List S)
  | s :: ss, q :: qs, k :: ks, v :: vs => match r.step s q k v with
    | .error e => .error e
    | .ok (o, s') => match runRows r ss qs ks vs with
      | .error e => .error e
      | .ok (os, ss') => .ok (o :: os, s' :: ss')
  | _, _, _, _ => .ok ([], [])

/-- `_scaled_dot_product_attention_step` of the retroactive module: retroactive_mha.py:86-142.  `torch.bmm` takes tensors of three
axes with the same first size; it is applied to `Q_mem` and key (100), to query and `K_T_mem_new` (110), and to attention
values and value (124). -/
def retroSdpa (r : Row V S O) (ss : List S) (q : List V) (k v : Ten V) : Except Err (List O × List S) :=
  match k, v with
  | .mat ks, .mat vs =>
    if ks.length = ss.length ∧ q.length = ss.length ∧ vs.length = ss.length then runRows r ss q ks vs else .error .runtime
  | _, _ => .error .runtime

/-- `_scaled_dot_product_attention_step` of the single-output module: single_output_mha.py:86-117.  `older`: queries are remembered
(`Q_mem.shape[1] > 0`), so that the query of the `bmm` in line 100 comes from the state. -/
def singleSdpa (older : Bool) (r : Row V S O) (ss : List S) (q : List V) (k v : Ten V) : Except Err (List O × List S) :=
  match assign ss.length k, assign ss.length v with
  | .ok ks, .ok vs =>
    if older then match assign ss.length (.mat q) with
      | .ok qs => runRows r ss qs ks vs
      | .error e => .error e
    else if q.length = ss.length then runRows r ss q ks vs
    else .error .runtime
  | .error e, _ => .error e
  | _, .error e => .error e

/-- `_forward_step`: mha_base.py:374-428 with 97-182; a fresh state is made for the batch size of the query (393-401). -/
def pstep (c : Cfg A B C V S O) (sdpa : List S → List V → Ten V → Ten V → Except Err (List O × List S)) (f : Frame A B C)
    (s : Option (List S × Int)) : Except Err (Option (List O) × (List S × Int)) :=
  match (match s with
    | some st => Except.ok st
    | none => c.row.init.map fun z => (List.replicate (f.query.length * c.H) z, -(c.N : Int))) with
  | .error e => .error e
  | .ok (ss, idx) =>
    if f.key.length ≠ f.value.length then .error .assertion
    else match view (rows c.k f.key) (f.query.length * c.H), view (rows c.v f.value) (f.query.length * c.H) with
      | .ok k, .ok v => match sdpa ss (rows c.q f.query) k v with
        | .error e => .error e
        | .ok (os, ss') =>
          let idx' := if idx < 0 then idx + 1 else idx
          .ok (if idx' < 0 then none else some os, (ss', idx'))
      | .error e, _ => .error e
      | _, .error e => .error e

/-- `forward_step`: mha_base.py:430-478.  State tensors are replaced only after everything else (`torch.roll` copies), so an exception
leaves the object as it was. -/
def step (c : Cfg A B C V S O) (sdpa : List S → List V → Ten V → Ten V → Except Err (List O × List S))
    (i : Option (List S × Int)) (upd : Bool) (f : Frame A B C) : Except Err (Option (List O)) × Option (List S × Int) :=
  match pstep c sdpa f i with
  | .error e => (.error e, i)
  | .ok (o, st) =>
    if upd then (.ok o, some st)
    else match i with
      | some _ => (.ok o, i)
      | none => (.error .unbound, i)

/-- The loop of `forward_steps`: mha_base.py:523-532.  The first component collects the outputs. -/
def loop (c : Cfg A B C V S O) (sdpa : List S → List V → Ten V → Ten V → Except Err (List O × List S)) :
    List (Frame A B C) → Option (List S × Int) → Except Err (List (List O) × Option (List S × Int))
  | [], s => .ok ([], s)
  | f :: fs, s => match pstep c sdpa f s with
    | .error e => .error e
    | .ok (o, st) => match loop c sdpa fs (some st) with
      | .error e => .error e
      | .ok (os, s') => .ok (o.toList ++ os, s')

/-- `forward_steps`: mha_base.py:480-544, on clips of query, key and value that are lists along the time axis (of lists along the batch
axis).  For clips without frames `o` is not assigned, unless `set_state(None)` raises before. -/
def steps (c : Cfg A B C V S O) (sdpa : List S → List V → Ten V → Ten V → Except Err (List O × List S))
    (i : Option (List S × Int)) (upd : Bool) (qs : List (List A)) (ks : List (List B)) (vs : List (List C)) :
    Except Err (Option (List (List O))) × Option (List S × Int) :=
  if qs.length ≠ ks.length then (.error .assertion, i)
  else if qs.length ≠ vs.length then (.error .assertion, i)
  else match loop c sdpa (List.zipWith (fun q (kv : List B × List C) => ⟨q, kv.1, kv.2⟩) qs (ks.zip vs)) i with
    | .error e => (.error e, i)
    | .ok (os, s) =>
      match upd, i, s with
      | true, _, none => (.error .type, i)
      | false, none, _ => (.error .unbound, i)
      | _, _, _ => (if os.isEmpty then if qs.isEmpty then .error .unbound else .ok none else .ok (some os), if upd then s else i)

/-- `RetroactiveMultiheadAttention`. -/
@[reducible] def retro (c : Cfg A B C V S O) : EMod (Frame A B C) (List O) where
  Inst := Option (List S × Int)
  init := none
  step := step c (retroSdpa c.row)

/-- `SingleOutputMultiheadAttention`; `older`: the query index is not that of the newest token. -/
@[reducible] def single (c : Cfg A B C V S O) (older : Bool) : EMod (Frame A B C) (List O) where
  Inst := Option (List S × Int)
  init := none
  step := step c (singleSdpa older c.row)

/-- `forward_steps` of the retroactive module. -/
def retroSteps (c : Cfg A B C V S O) := steps c (retroSdpa c.row)

/-- `forward_steps` of the single-output module. -/
def singleSteps (c : Cfg A B C V S O) (older : Bool) := steps c (singleSdpa older c.row)

/-! ### The arithmetic of a row -/

section
variable {F E : Type} [Field F] [Fintype E]

/-- Attention of one row as a configuration of `Verif.Model.Attention`. -/
def rowCfg (N : Nat) (scale : F) (ex : F → F) : Attn.Cfg F ((E → F) × (E → F) × (E → F)) (E → F) Unit E where
  N := N
  q := fun x _ => x.1
  k := fun x _ => x.2.1
  v := fun x _ => x.2.2
  scale := scale
  ex := ex
  out := fun y => y ()

/-- retroactive_mha.py:26-144, one row. -/
def retroRow (N : Nat) (scale : F) (ex : F → F) : Row (E → F) (Attn.RetroSt F Unit E) (List (E → F)) where
  init := Attn.retroDefault (rowCfg (E := E) N scale ex)
  step := fun s q k v => Attn.retroSdpa (rowCfg N scale ex) s (q, k, v)

/-- single_output_mha.py:25-117, one row. -/
def singleRow (N : Nat) (qi : Int) (scale : F) (ex : F → F) : Row (E → F) (Attn.SingleSt F Unit E) (E → F) where
  init := Attn.singleDefault (rowCfg (E := E) N scale ex) qi
  step := fun s q k v => Attn.singleSdpa (rowCfg N scale ex) s (q, k, v)

end

end CoInf.AttnShape
