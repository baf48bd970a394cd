/-
Model of /repo/continual/positional_encoding.py:95-196, `RecyclingPositionalEncoding`.
-/
import Verif.Model.Core

set_option autoImplicit false

namespace CoInf.PosEnc

/-- Constructor arguments (positional_encoding.py:136-148): the table of embeddings (`num_embeds` rows, learned or
cyclic; its entries are arbitrary), tensor addition, and `forward_update_index_steps`. -/
structure Cfg (V : Type) where
  emb : List V
  add : V → V → V
  fwdUpd : Int

variable {V : Type}

/-- `self.pe.num_embeddings` -/
def Cfg.N (c : Cfg V) : Int := c.emb.length

/-- `self.pe(i)`: table lookup; `nn.Embedding` and indexing of the pattern raise outside of the table.  (Negative
indices cannot occur: torch's `%` takes the sign of the divisor.) -/
def lookup (c : Cfg V) (i : Int) : Except Err V := pyGet c.emb i

/-- `torch.arange(T) + self.state_index) % num_embeddings` and the addition: positional_encoding.py:153-155, 164-165. -/
def addFrom (c : Cfg V) (s : Int) : Nat → List V → Except Err (List V)
  | _, [] => .ok []
  | t, x :: xs =>
    match lookup c ((t + s) % c.N), addFrom c s (t + 1) xs with
    | .ok e, .ok ys => .ok (c.add x e :: ys)
    | .error e, _ => .error e
    | .ok _, .error e => .error e

/-- `forward(input, update_index_steps)`: positional_encoding.py:150-165.  The object is `state_index`. -/
def forward (c : Cfg V) (s : Int) (xs : List V) (upd : Option Int) : Except Err (List V × Int) :=
  if ¬ (xs.length : Int) ≤ c.N then .error .assertion
  else
    match addFrom c s 0 xs with
    | .error e => .error e
    | .ok ys => .ok (ys, (s + upd.getD c.fwdUpd) % c.N)

/-- `forward_steps`: positional_encoding.py:167-170 (`pad_end` is ignored). -/
def forwardSteps (c : Cfg V) (s : Int) (_padEnd upd : Bool) (xs : List V) : Except Err (Option (List V) × Int) :=
  match forward c s xs (some (if upd then xs.length else 0)) with
  | .error e => .error e
  | .ok (ys, s') => .ok (some ys, s')

/-- `forward_step`: positional_encoding.py:172-177. -/
def forwardStep (c : Cfg V) (s : Int) (upd : Bool) (x : V) : Except Err (Option V × Int) :=
  match lookup c s with
  | .error e => .error e
  | .ok e => .ok (some (c.add x e), if upd then (s + 1) % c.N else s)

/-- `_forward_step` and `init_state`: positional_encoding.py:179-193.  Besides the functional result (output and next
state) it returns the `state_index` of the object afterwards, because `init_state` overwrites it. -/
def pstepFull (c : Cfg V) (s : Int) (x : V) (prev : Option Int) : Except Err (Option V × Option Int) × Int :=
  let k := prev.getD 0
  let s' := match prev with
    | none => 0
    | some _ => s
  (match lookup c k with
    | .error e => .error e
    | .ok e => .ok (some (c.add x e), some ((k + 1) % c.N)), s')

/-- The positional encoding as a continual module; `clean_state`: positional_encoding.py:195-196; `get_state` is
inherited and returns `None` (module.py:168-174); the geometry is the class default (module.py:114-116, 188-190). -/
@[reducible] def mod (c : Cfg V) : CoMod (.stream V) (.stream V) where
  Inst := Int
  init := 0
  clean := fun _ => 0
  fwd := fun s xs => forward c s xs none
  step := forwardStep c
  steps := forwardSteps c
  St := Int
  pstep := fun x prev => (pstepFull c 0 x prev).1
  rf := 1
  stride := 1
  padding := 0
  delay := 0

end CoInf.PosEnc
