/-
The step of the attention modules with any arithmetic: /repo/continual/multihead_attention/retroactive_mha.py:47-144 and
single_output_mha.py:46-117.  `Verif.Model.Attention` calculates in a field; here every tensor operation is an arbitrary
function, so that rounding, infinities and NaN are covered.  `Verif.Lemmas.AttnAny` shows that the steps of
`Verif.Model.Attention` are instances.
-/
import Verif.Model.Attention

set_option autoImplicit false

namespace CoInf.AttnAny

/-- The tensor operations of a step: `R` are the rows of queries, keys and values (all heads and the whole batch), `A` the
attention values and their sums. -/
structure Ops (R A : Type) where
  /-- `torch.exp(torch.bmm(q, k))`: retroactive_mha.py:95-108. -/
  w : R → R → A
  /-- `+` and `-` of the sums: retroactive_mha.py:113. -/
  addA : A → A → A
  subA : A → A → A
  /-- `torch.sum` over the keys: retroactive_mha.py:114. -/
  sumA : List A → A
  /-- `torch.bmm` of one attention value with one row: retroactive_mha.py:120-121. -/
  scale : A → R → R
  /-- `+` and `-` of the weighted rows: retroactive_mha.py:122. -/
  addR : R → R → R
  subR : R → R → R
  /-- `torch.bmm` of the new attention values with the values: retroactive_mha.py:129. -/
  mix : List A → List R → R
  /-- `AV_new / d`: retroactive_mha.py:134. -/
  div : R → A → R
  /-- `softmax(q K^T) V`: single_output_mha.py:100-107. -/
  row : R → List R → List R → R
  zeroA : A
  zeroR : R

/-- Parameters of a module: window length, operations, the projections (`q` scaled). -/
structure Cfg (X Y R A : Type) where
  N : Nat
  ops : Ops R A
  q : X → R
  k : X → R
  v : X → R
  out : R → Y

/-- `d_mem, AV_mem, Q_mem, K_T_mem, V_mem`: retroactive_mha.py:16-23. -/
structure RetroSt (R A : Type) where
  d : List A
  AV : List R
  Q : List R
  K : List R
  V : List R

variable {X Y R A : Type} (c : Cfg X Y R A)

/-- `_scaled_dot_product_attention_default_state`: retroactive_mha.py:26-44. -/
def retroDefault : Except Err (RetroSt R A) :=
  if c.N = 0 then .error .runtime
  else .ok ⟨List.replicate (c.N - 1) c.ops.zeroA, List.replicate (c.N - 1) c.ops.zeroR, List.replicate (c.N - 1) c.ops.zeroR,
    List.replicate c.N c.ops.zeroR, List.replicate c.N c.ops.zeroR⟩

/-- retroactive_mha.py:95-142, after the entries that raise have been evaluated. -/
def retroCore (s : RetroSt R A) (q k v k0 v0 : R) (Qn Kn Vn : List R) : List R × RetroSt R A :=
  let Aleft := s.Q.map fun r => c.ops.w r k0
  let Aright := s.Q.map fun r => c.ops.w r k
  let Abottom := Kn.map fun r => c.ops.w q r
  let d := List.zipWith c.ops.addA (List.zipWith c.ops.subA s.d Aleft) Aright ++ [c.ops.sumA Abottom]
  let AVsub := Aleft.map fun a => c.ops.scale a v0
  let AVadd := Aright.map fun a => c.ops.scale a v
  let AV := List.zipWith c.ops.addR (List.zipWith c.ops.subR s.AV AVsub) AVadd ++ [c.ops.mix Abottom Vn]
  (List.zipWith c.ops.div AV d, ⟨d.drop 1, AV.drop 1, Qn, Kn, Vn⟩)

/-- retroactive_mha.py:47-144. -/
def retroSdpa (s : RetroSt R A) (x : X) : Except Err (List Y × RetroSt R A) := do
  let k0 ← pyGet s.K 0
  let Qn ← Attn.rollSet s.Q (c.q x)
  let Kn ← Attn.rollSet s.K (c.k x)
  let v0 ← pyGet s.V 0
  let Vn ← Attn.rollSet s.V (c.v x)
  let r := retroCore c s (c.q x) (c.k x) (c.v x) k0 v0 Qn Kn Vn
  return (r.1.map c.out, r.2)

/-- `RetroactiveMultiheadAttention`.  `forward` is torch's attention and plays no role here; it is any function of the
clip. -/
@[reducible] def retroBase (fwd : List X → Except Err (List (List Y))) : Attn.Base X (List Y) where
  N := c.N
  S := RetroSt R A
  dflt := retroDefault c
  sdpa := retroSdpa c
  fwd := fwd
  delay := (c.N : Int) - 1

/-- `Q_mem, K_T_mem, V_mem`. -/
structure SingleSt (R : Type) where
  Q : List R
  K : List R
  V : List R

/-- `_scaled_dot_product_attention_default_state`: single_output_mha.py:25-43. -/
def singleDefault (queryIndex : Int) : Except Err (SingleSt R) :=
  if Attn.nq c.N queryIndex < 0 then .error .runtime
  else .ok ⟨List.replicate (Attn.nq c.N queryIndex).toNat c.ops.zeroR, List.replicate c.N c.ops.zeroR,
    List.replicate c.N c.ops.zeroR⟩

/-- single_output_mha.py:46-117. -/
def singleSdpa (s : SingleSt R) (x : X) : Except Err (Y × SingleSt R) :=
  let qsel := s.Q.headD (c.q x)
  match Attn.rollSet s.K (c.k x), Attn.rollSet s.V (c.v x) with
  | .ok Kn, .ok Vn =>
    let o := c.ops.row qsel Kn Vn
    if s.Q.isEmpty then .ok (c.out o, ⟨s.Q, Kn, Vn⟩)
    else match Attn.rollSet s.Q (c.q x) with
      | .ok Qn => .ok (c.out o, ⟨Qn, Kn, Vn⟩)
      | .error e => .error e
  | .error e, _ => .error e
  | _, .error e => .error e

/-- `SingleOutputMultiheadAttention`. -/
@[reducible] def singleBase (queryIndex : Int) (fwd : List X → Except Err (List Y)) : Attn.Base X Y where
  N := c.N
  S := SingleSt R
  dflt := singleDefault c queryIndex
  sdpa := singleSdpa c
  fwd := fwd
  delay := Attn.nq c.N queryIndex

end CoInf.AttnAny
