/-
Attention modules with a mutable `stride_index`.

All tensors of the attention state are made anew in each step (retroactive_mha.py:102-141, single_output_mha.py:90-115) and
never written to, so they are values as in `Verif.Model.Attention`.  The exception is `stride_index`, a 0-dimensional tensor
that `stride_index += 1` (mha_base.py:420-421) changes in place: states hold its address.
-/
import Verif.Model.Attention
import Verif.Model.Heap
import Verif.Spec.Observe

set_option autoImplicit false

namespace CoInf.AttnHeap
open Attn
variable {X O : Type} (b : Base X O)

/-- The cells that hold stride indices. -/
abbrev Cells := List Int

/-- A state tuple: tensors and the address of `stride_index`. -/
abbrev St := b.S × Nat

/-- The state handed to the step: mha_base.py:391-399; `torch.tensor(-self.sequence_len)` is a new tensor. -/
def start (s : Option (St b)) (h : Cells) : Except Err (St b × Cells) :=
  match s with
  | some st => .ok (st, h)
  | none => match b.dflt with
    | .error e => .error e
    | .ok d => .ok ((d, h.length), h ++ [-(b.N : Int)])

/-- `_forward_step`: mha_base.py:374-428. -/
def pstep (x : X) (s : Option (St b)) (h : Cells) : Except Err (Option O × St b × Cells) :=
  match start b s h with
  | .error e => .error e
  | .ok ((st, a), h) =>
    match b.sdpa st x with
    | .error e => .error e
    | .ok (o, st') =>
      let h' := if h.getD a 0 < 0 then h.set a (h.getD a 0 + 1) else h
      .ok (if h'.getD a 0 < 0 then none else some o, (st', a), h')

/-- `_clone_state`: mha_base.py:14-15. -/
def clone (s : St b) (h : Cells) : St b × Cells := ((s.1, h.length), h ++ [h.getD s.2 0])

/-- `forward_step`: mha_base.py:430-478. -/
def step (i : Option (St b)) (upd : Bool) (x : X) (h : Cells) : Except Err (Option O × Option (St b) × Cells) :=
  match upd, i with
  | true, _ => match pstep b x i h with
    | .error e => .error e
    | .ok (o, s, h) => .ok (o, some s, h)
  | false, some st => match pstep b x (some st) (clone b st h).2 with
    | .error e => .error e
    | .ok (o, _, h') => .ok (o, some (clone b st h).1, h')
  | false, none => match pstep b x none h with
    | .error e => .error e
    | .ok _ => .error .unbound

/-- The loop of `forward_steps`: mha_base.py:523-532. -/
def loop (s : Option (St b)) (h : Cells) : List X → Except Err (List O × Option (St b) × Cells)
  | [] => .ok ([], s, h)
  | x :: xs =>
    match pstep b x s h with
    | .error e => .error e
    | .ok (o, s', h') =>
      match loop (some s') h' xs with
      | .error e => .error e
      | .ok (os, s'', h'') => .ok (o.toList ++ os, s'', h'')

/-- `forward_steps`: mha_base.py:480-544. -/
def steps (i : Option (St b)) (upd : Bool) (xs : List X) (h : Cells) :
    Except Err (Option (List O) × Option (St b) × Cells) :=
  match upd, i with
  | true, _ => match loop b i h xs with
    | .error e => .error e
    | .ok (_, none, _) => .error .type
    | .ok (os, some s, h') => if xs.isEmpty then .error .unbound else .ok (optList os, some s, h')
  | false, some st => match loop b (some st) (clone b st h).2 xs with
    | .error e => .error e
    | .ok (os, _, h') => if xs.isEmpty then .error .unbound else .ok (optList os, some (clone b st h).1, h')
  | false, none => match loop b none h xs with
    | .error e => .error e
    | .ok _ => .error .unbound

/-- The module, the states kept by the user, the cells. -/
structure World where
  obj : Option (St b)
  kept : List (Option (St b))
  mem : Cells

/-- A new object (its own `stride_index` tensor, mha_base.py / retroactive_mha.py:255, is never read before it is
replaced, because `get_state` gives `None`). -/
def World.new : World b := ⟨none, [], []⟩

/-- Perform a call.  Outputs are new tensors that nobody writes to. -/
def call (w : World b) : Heap.HCall X → Except Err (Spec.CallRes (.stream O) × World b)
  | .step u x => match step b w.obj u x w.mem with
    | .error e => .error e
    | .ok (o, i, h) => .ok (.frame o, { w with obj := i, mem := h })
  | .steps _ u xs => match steps b w.obj u xs w.mem with
    | .error e => .error e
    | .ok (o, i, h) => .ok (.clip o, { w with obj := i, mem := h })
  | .clean => .ok (.done, { w with obj := none })
  | .fwd xs => match b.fwd xs with
    | .error e => .error e
    | .ok ys => .ok (.whole ys, w)
  | .save => .ok (.done, { w with kept := w.kept ++ [w.obj] })
  | .saveClone => match w.obj with
    | none => .ok (.done, { w with kept := w.kept ++ [none] })
    | some s => .ok (.done, { w with kept := w.kept ++ [some (clone b s w.mem).1], mem := (clone b s w.mem).2 })
  | .restore k => match w.kept[k]? with
    | none => .error .index
    | some none => .error .type
    | some (some s) => .ok (.done, { w with obj := some s })

/-- Perform calls up to the first exception. -/
def calls (w : World b) : List (Heap.HCall X) → List (Spec.CallRes (.stream O)) × World b
  | [] => ([], w)
  | c :: cs => match call b w c with
    | .error e => ([.raised e], w)
    | .ok (r, w') => (r :: (calls w' cs).1, (calls w' cs).2)

end CoInf.AttnHeap
