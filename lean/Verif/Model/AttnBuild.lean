/-
`MultiheadAttentionBase.build_from`: /repo/continual/multihead_attention/mha_base.py:551-592, and the constructors it calls
(mha_base.py:251-288, retroactive_mha.py:209-255, single_output_mha.py:184-234).

Assumed of torch's constructor of `MultiheadAttention`: it asserts that `num_heads` divides `embed_dim`; it makes one matrix
`in_proj_weight` if `kdim` and `vdim` are `embed_dim`, three matrices otherwise; `in_proj_bias` and the bias of `out_proj` are there if
`bias`, `bias_k` and `bias_v` if `add_bias_kv`; all parameters are of the type and on the device asked for, and require gradients; the
module is in training mode.  `copy_` broadcasts, converts, and raises `RuntimeError` if the sizes do not fit.
-/
import Verif.Model.Typed
import Verif.Model.AttnNd

set_option autoImplicit false

namespace CoInf.AttnBuild

open CoInf.Typed (Place Casts)

/-- A parameter. -/
structure Ten (F : Type) where
  shape : List Nat
  val : List Nat → F
  place : Place
  grad : Bool

/-- Attributes of `torch.nn.MultiheadAttention`. -/
structure Mha (F : Type) where
  embed : Nat
  heads : Nat
  kdim : Nat
  vdim : Nat
  dropout : F
  batchFirst : Bool
  zeroAttn : Bool
  inW : Option (Ten F)
  qW : Option (Ten F)
  kW : Option (Ten F)
  vW : Option (Ten F)
  inB : Option (Ten F)
  biasK : Option (Ten F)
  biasV : Option (Ten F)
  outW : Ten F
  outB : Option (Ten F)
  training : Bool

/-- Arguments of the constructor; `kdim` and `vdim` may be `None`. -/
structure Args (F : Type) where
  embed : Nat
  heads : Nat
  dropout : F
  bias : Bool
  biasKV : Bool
  zeroAttn : Bool
  kdim : Option Nat
  vdim : Option Nat
  batchFirst : Bool
  place : Place

variable {F : Type}

/-- `Parameter(torch.empty(shape, ...))`; `seed` are the values it is initialised with. -/
def fresh (seed : String → List Nat → F) (p : Place) (name : String) (shape : List Nat) : Ten F := ⟨shape, seed name, p, true⟩

/-- torch's constructor.  (`num_heads = 0` raises as well, `ZeroDivisionError`.) -/
def make (seed : String → List Nat → F) (a : Args F) : Except Err (Mha F) :=
  if a.heads = 0 ∨ a.embed % a.heads ≠ 0 then .error .assertion
  else
    let kd := a.kdim.getD a.embed
    let vd := a.vdim.getD a.embed
    let same := kd == a.embed && vd == a.embed
    let new := fresh seed a.place
    .ok {
      embed := a.embed, heads := a.heads, kdim := kd, vdim := vd, dropout := a.dropout, batchFirst := a.batchFirst, zeroAttn := a.zeroAttn
      inW := bif same then some (new "in_proj_weight" [3 * a.embed, a.embed]) else none
      qW := bif same then none else some (new "q_proj_weight" [a.embed, a.embed])
      kW := bif same then none else some (new "k_proj_weight" [a.embed, kd])
      vW := bif same then none else some (new "v_proj_weight" [a.embed, vd])
      inB := bif a.bias then some (new "in_proj_bias" [3 * a.embed]) else none
      biasK := bif a.biasKV then some (new "bias_k" [1, 1, a.embed]) else none
      biasV := bif a.biasKV then some (new "bias_v" [1, 1, a.embed]) else none
      outW := new "out_proj.weight" [a.embed, a.embed]
      outB := bif a.bias then some (new "out_proj.bias" [a.embed]) else none
      training := true }

/-- Can a tensor of the first shape be expanded to the second? -/
def fits : List Nat → List Nat → Bool
  | src, dst => src.length ≤ dst.length ∧ ((src.zip (dst.drop (dst.length - src.length))).all fun p => p.1 = p.2 ∨ p.1 = 1)

/-- The index of the entry that is expanded to a given place. -/
def source (src idx : List Nat) : List Nat :=
  List.zipWith (fun d i => if d = 1 then 0 else i) src (idx.drop (idx.length - src.length))

/-- `dst.copy_(src)` under `torch.no_grad()`; `dst` may be an attribute that is `None`. -/
def copy [Casts F] (dst : Option (Ten F)) (src : Ten F) : Except Err (Option (Ten F)) :=
  match dst with
  | none => .error .attribute
  | some d =>
    if fits src.shape d.shape then
      .ok (some { d with val := fun i =>
        let x := src.val (source src.shape i)
        if src.place.dtype = d.place.dtype then x else Casts.cast d.place.dtype x })
    else .error .runtime

/-- `if module.x is not None: comodule.x.copy_(module.x)`. -/
def copyIf [Casts F] (dst : Option (Ten F)) (src : Option (Ten F)) : Except Err (Option (Ten F)) :=
  match src with
  | none => .ok dst
  | some s => copy dst s

/-- The keyword arguments of `build_from` that replace those taken from the module. -/
structure Kwargs (F : Type) where
  embed : Option Nat := none
  heads : Option Nat := none
  dropout : Option F := none
  bias : Option Bool := none
  biasKV : Option Bool := none
  zeroAttn : Option Bool := none
  kdim : Option (Option Nat) := none
  vdim : Option (Option Nat) := none
  batchFirst : Option Bool := none
  place : Option Place := none

/-- The arguments: mha_base.py:552-570. -/
def argsOf (m : Mha F) (k : Kwargs F) : Args F where
  embed := k.embed.getD m.embed
  heads := k.heads.getD m.heads
  dropout := k.dropout.getD m.dropout
  bias := k.bias.getD m.inB.isSome
  biasKV := k.biasKV.getD m.biasK.isSome
  zeroAttn := k.zeroAttn.getD m.zeroAttn
  kdim := k.kdim.getD (some m.kdim)
  vdim := k.vdim.getD (some m.vdim)
  batchFirst := k.batchFirst.getD m.batchFirst
  place := k.place.getD m.outW.place

/-- `build_from`: mha_base.py:551-592, in the order of the code. -/
def buildFrom [Casts F] (seed : String → List Nat → F) (m : Mha F) (k : Kwargs F) : Except Err (Mha F) := do
  let c ← make seed (argsOf m k)
  let inW ← copyIf c.inW m.inW
  let qW ← copyIf c.qW m.qW
  let kW ← copyIf c.kW m.kW
  let vW ← copyIf c.vW m.vW
  let inB ← copyIf c.inB m.inB
  let outW ← copy (some c.outW) m.outW
  let outB ← copyIf c.outB m.outB
  let biasK ← copyIf c.biasK m.biasK
  let biasV ← copyIf c.biasV m.biasV
  return { c with
    inW := inW, qW := qW, kW := kW, vW := vW, inB := inB, outW := outW.getD c.outW, outB := outB, biasK := biasK, biasV := biasV }

/-- The classes that inherit `build_from`. -/
inductive Class where
  | retroactive
  | singleOutput (queryIndex : Int)

/-- Their constructors: retroactive_mha.py:226-249, single_output_mha.py:203-230; `sequence_len` is only looked at by the latter. -/
def construct [Casts F] (seed : String → List Nat → F) (cls : Class) (m : Mha F) (seqLen : Nat) (k : Kwargs F) : Except Err (Mha F × Nat) :=
  match cls with
  | .retroactive => (buildFrom seed m k).map fun c => (c, seqLen)
  | .singleOutput q =>
    match make seed (argsOf m k) with
    | .error e => .error e
    | .ok _ => if q < seqLen then (buildFrom seed m k).map fun c => (c, seqLen) else .error .assertion

/-- The entries of a matrix. -/
def Ten.mat (t : Ten F) (r c : Nat) : Attn.Nd.Mat F r c := fun i j => t.val [i, j]

/-- The entries of a vector. -/
def Ten.vec (t : Ten F) (r : Nat) : Fin r → F := fun i => t.val [i]

/-- The one matrix of a module with `kdim = vdim = embed_dim`: mha_base.py:136-140. -/
def packedOf {e : Nat} (m : Mha F) : Option (Attn.Nd.Proj F e e e) := m.inW.map fun w => .packed (w.mat (3 * e) e)

/-- The three matrices of another: mha_base.py:141-159. -/
def separateOf {e kd vd : Nat} (m : Mha F) : Option (Attn.Nd.Proj F e kd vd) :=
  m.qW.bind fun q => m.kW.bind fun k => m.vW.map fun v => .separate (q.mat e e) (k.mat e kd) (v.mat e vd)

/-- What a module computes with, as in `Verif.Model.AttnNd`. -/
def paramsOf {n H D kd vd : Nat} (m : Mha F) (N : Nat) (sqrt : Nat → F) (ex : F → F) (proj : Attn.Nd.Proj F (H * D) kd vd) :
    Attn.Nd.Params F n H D kd vd where
  N := N
  proj := proj
  inBias := m.inB.map fun b => b.vec (3 * (H * D))
  biasKV := m.biasK.bind fun k => m.biasV.map fun v => (fun i => k.val [0, 0, i], fun i => v.val [0, 0, i])
  zeroAttn := m.zeroAttn
  outW := m.outW.mat (H * D) (H * D)
  outB := m.outB.map fun b => b.vec (H * D)
  sqrt := sqrt
  ex := ex

end CoInf.AttnBuild
