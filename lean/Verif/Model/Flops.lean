/-
Operation counts of the attention modules: `flops` in /repo/continual/multihead_attention/retroactive_mha.py:376-434 and
single_output_mha.py:402-463, `scaled_dot_prod_attn_flops` in mha_base.py:595-610.  Python integers are `Int`.

The second half is the attention step written as a program that counts its operations.
-/
import Verif.Model.Attention
import Verif.Model.CallMode

set_option autoImplicit false

namespace CoInf.Flops
open CallMode

/-- The arguments `include_muls`, `include_adds`, `include_exps`. -/
structure Include where
  muls : Bool
  adds : Bool
  exps : Bool

/-- The default arguments, which `ptflops` uses: ptflops.py:48-50. -/
def Include.default : Include := ⟨true, false, false⟩

/-- `x` if a kind of operation is included. -/
def incl (b : Bool) (x : Int) : Int := if b then x else 0

/-- `scaled_dot_prod_attn_flops`: mha_base.py:595-610. -/
def attnFlops (n d : Int) (i : Include) : Int :=
  incl i.muls (2 * n * n * d + 2 * n * d) + incl i.adds (2 * n * n - n * d - n) + incl i.exps (n * n)

/-- `retractive_scaled_dot_prod_attn_step_flops`: retroactive_mha.py:419-434. -/
def retroStepFlops (n d : Int) (i : Include) : Int :=
  incl i.muls (7 * n * d + 2 * n - 3 * d) + incl i.adds (6 * n * d + 3 * n - 6 * d - 3) + incl i.exps (3 * n - 2)

/-- `single_output_scaled_dot_prod_attn_flops`: single_output_mha.py:448-463. -/
def singleFlops (n d : Int) (i : Include) : Int :=
  incl i.muls (2 * n * d + 2 * d) + incl i.adds (2 * n * d - d - 1) + incl i.exps n

/-- The attributes that `flops` reads: `sequence_len`, `embed_dim`, `num_heads`, whether there is an `in_proj_bias`. -/
structure Cfg where
  n : Nat
  E : Nat
  H : Nat
  bias : Bool

variable (c : Cfg)

/-- The in-projection: retroactive_mha.py:385-401, single_output_mha.py:413-428. -/
def inFlops (stepsTaken : Int) (i : Include) : Int :=
  stepsTaken * c.E * c.E * 3 + incl i.adds (3 * stepsTaken * c.E * (c.E - 1)) +
    incl c.bias (3 * stepsTaken * c.E + incl i.adds (3 * stepsTaken * c.E))

/-- `RetroactiveMultiheadAttention.flops`: retroactive_mha.py:376-416.  Both dictionaries have no entry for
`forward_steps`, and are indexed by the attribute `call_mode` of the module. -/
def retroFlops (own : MV) (i : Include) : Except Err Int :=
  match own with
  | .tok .forward => .ok (inFlops c c.n i + c.H * attnFlops c.n (c.E / c.H) i + c.n * c.E * (c.E + 1))
  | .tok .step => .ok (inFlops c 1 i + c.H * retroStepFlops c.n (c.E / c.H) i + c.n * c.E * (c.E + 1))
  | _ => .error .key

/-- `SingleOutputMultiheadAttention.flops`: single_output_mha.py:402-445. -/
def singleOutputFlops (singleForward : Bool) (own : MV) (i : Include) : Except Err Int :=
  match own with
  | .tok .forward => .ok (inFlops c (if singleForward then 1 else c.n) i +
      c.H * (if singleForward then singleFlops c.n (c.E / c.H) i else attnFlops c.n (c.E / c.H) i) + 1 * c.E * (c.E + 1))
  | .tok .step => .ok (inFlops c 1 i + c.H * singleFlops c.n (c.E / c.H) i + 1 * c.E * (c.E + 1))
  | _ => .error .key

/-! ### Programs that count -/

/-- Numbers of multiplications and divisions, of additions and subtractions, and of exponentials. -/
abbrev Cost := Nat × Nat × Nat

/-- The cost of a computation is the sum of the costs of its parts. -/
def bindC {α β : Type} (x : α × Cost) (f : α → β × Cost) : β × Cost := ((f x.1).1, x.2 + (f x.1).2)

/-- The same for several computations. -/
def seqC {α : Type} (xs : List (α × Cost)) : List α × Cost := (xs.map Prod.fst, (xs.map Prod.snd).sum)

/-- The same for the entries of a vector. -/
def vecC {α : Type} {d : Nat} (f : Fin d → α × Cost) : (Fin d → α) × Cost := (fun e => (f e).1, ∑ e, (f e).2)

variable {F : Type} [Field F]

/-- One multiplication. -/
def mulC (a b : F) : F × Cost := (a * b, (1, 0, 0))
/-- One division. -/
def divC (a b : F) : F × Cost := (a / b, (1, 0, 0))
/-- One addition. -/
def addC (a b : F) : F × Cost := (a + b, (0, 1, 0))
/-- One subtraction. -/
def subC (a b : F) : F × Cost := (a - b, (0, 1, 0))
/-- One exponential. -/
def expC (ex : F → F) (a : F) : F × Cost := (ex a, (0, 0, 1))
/-- Summing `k` numbers takes `k - 1` additions. -/
def sumC (l : List F) : F × Cost := (l.sum, (0, l.length - 1, 0))

variable {d : Nat}

/-- An entry of `torch.bmm`. -/
def dotC (a b : Fin d → F) : F × Cost := bindC (seqC (List.ofFn fun e => mulC (a e) (b e))) sumC

/-- A row of weights times the value matrix. -/
def mixC (ps : List F) (vs : List (Fin d → F)) : (Fin d → F) × Cost :=
  vecC fun e => bindC (seqC (List.zipWith (fun p v => mulC p (v e)) ps vs)) sumC

/-- `q_step / math.sqrt(E)`: retroactive_mha.py:86, single_output_mha.py:87. -/
def scaleC (scale : F) (q : Fin d → F) : (Fin d → F) × Cost := vecC fun e => mulC (q e) scale

/-- One row of attention: single_output_mha.py:100-107. -/
def rowC (ex : F → F) (q : Fin d → F) (ks vs : List (Fin d → F)) : (Fin d → F) × Cost :=
  bindC (seqC (ks.map fun k => dotC q k)) fun as =>
  bindC (seqC (as.map (expC ex))) fun es =>
  bindC (sumC es) fun s =>
  bindC (seqC (es.map fun e => divC e s)) fun ps => mixC ps vs

/-- The retroactive step: retroactive_mha.py:95-134.  `ds`, `AV`, `Q` are `d_mem`, `AV_mem`, `Q_mem`; `k0`, `v0` are the
oldest key and value; `Kn`, `Vn` are the updated keys and values. -/
def retroC (ex : F → F) (ds : List F) (AV Q : List (Fin d → F)) (q k v k0 v0 : Fin d → F) (Kn Vn : List (Fin d → F)) :
    List (Fin d → F) × Cost :=
  bindC (seqC (Q.map fun r => bindC (dotC r k0) (expC ex))) fun aLeft =>
  bindC (seqC (Q.map fun r => bindC (dotC r k) (expC ex))) fun aRight =>
  bindC (seqC (Kn.map fun r => bindC (dotC q r) (expC ex))) fun aBottom =>
  bindC (seqC (List.zipWith (fun x r => bindC x fun x => addC x r) (List.zipWith subC ds aLeft) aRight)) fun dTop =>
  bindC (sumC aBottom) fun dBottom =>
  bindC (seqC (aLeft.map fun a => vecC fun e => mulC a (v0 e))) fun avSub =>
  bindC (seqC (aRight.map fun a => vecC fun e => mulC a (v e))) fun avAdd =>
  bindC (seqC (List.zipWith (fun x r => bindC x fun x => vecC fun e => addC (x e) (r e))
    (List.zipWith (fun x y => vecC fun e => subC (x e) (y e)) AV avSub) avAdd)) fun avTop =>
  bindC (mixC aBottom Vn) fun avBottom =>
  seqC (List.zipWith (fun av dd => vecC fun e => divC (av e) dd) (avTop ++ [avBottom]) (dTop ++ [dBottom]))

/-- `F.linear`. -/
def linearC {a b : Nat} (w : Fin a → Fin b → F) (bias : Option (Fin a → F)) (x : Fin b → F) : (Fin a → F) × Cost :=
  vecC fun o => bindC (dotC (w o) x) fun y => match bias with
    | some b => addC y (b o)
    | none => (y, 0)

end CoInf.Flops
