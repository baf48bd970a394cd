/-
Arguments of `SingleOutputTransformerEncoderLayer`, `RetroactiveTransformerEncoderLayer` and `TransformerEncoderLayerFactory`:
/repo/continual/transformer.py:28-39, 154-293, 296-406, 409-502.

Simplifications
* `device` and `dtype` are left out.  Numbers are integers and rationals, `sequence_len` may be `None`.
* Assumed of torch: sizes of tensors must not be negative (`RuntimeError`); `nn.MultiheadAttention` raises `ValueError` unless
  `embed_dim` and `num_heads` are positive and then asserts that `num_heads` divides `embed_dim`; `nn.Dropout` raises
  `ValueError` unless `0 ≤ p ≤ 1`.
-/
import Verif.Model.EncoderBuild

set_option autoImplicit false

namespace CoInf.EncoderArgs
open EncoderBuild

variable {H : Type}

/-- The arguments common to the three functions: transformer.py:154-165, 296-308, 426-438. -/
structure Args (H : Type) where
  d_model : Int
  nhead : Int
  dim_feedforward : Int
  dropout : ℚ
  activation : Activation H
  layer_norm_eps : ℚ
  sequence_len : Option Int

/-- First branch of a layer. -/
inductive Shortcut where
  /-- `Identity()` -/
  | identity
  /-- `SelectOrDelay(d)` -/
  | select (d : Int)
  /-- `RetroactiveUnity(d)` -/
  | unity (d : Int)
  deriving DecidableEq, Repr

/-- The modules of a layer, with the arguments of their constructors: transformer.py:219-293, 355-406. -/
structure Made (H : Type) where
  norm1 : Int × ℚ
  norm2 : Int × ℚ
  attn : Int × Int × ℚ
  /-- `RetroactiveMultiheadAttention`, or `SingleOutputMultiheadAttention` with `query_index` and `single_output_forward` -/
  cls : Option (Int × Bool)
  len : Int
  linear1 : Int × Int
  act : H → H
  drop1 : ℚ
  linear2 : Int × Int
  drop2 : ℚ
  shortcut : Shortcut

/-! ### Constructors of torch -/

/-- A tensor with one axis of `n` entries. -/
def sized (n : Int) : Except Err Unit := if n < 0 then .error .runtime else .ok ()

/-- `nn.MultiheadAttention(embed_dim, num_heads)` -/
def mhaInit (d h : Int) : Except Err Unit :=
  if d ≤ 0 ∨ h ≤ 0 then .error .value else if d % h = 0 then .ok () else .error .assertion

/-- `nn.Linear(n, m)` -/
def linearInit (n m : Int) : Except Err Unit := do
  sized n
  sized m

/-- `nn.Dropout(p)` -/
def dropInit (p : ℚ) : Except Err Unit := if p < 0 ∨ 1 < p then .error .value else .ok ()

/-- `sequence_len > 0`: transformer.py:215-217, 352-354; `None > 0` is a `TypeError`. -/
def lenOf : Option Int → Except Err Int
  | none => .error .type
  | some n => if n > 0 then .ok n else .error .assertion

/-- `assert p` -/
def ensure (p : Prop) [Decidable p] : Except Err Unit := if p then .ok () else .error .assertion

/-! ### The layers -/

/-- `SingleOutputTransformerEncoderLayer(..., single_output_forward=sf, query_index=q)`: transformer.py:154-293.  The modules of
`ff` are made first, then `Sequential` converts the activation (container.py:135-142); `callee` is what the argument
`activation` is.  The attention asserts `query_index < sequence_len` (single_output_mha.py:228), its delay is that of
single_output_mha.py:260-266, and `Delay` asserts that it is not negative (delay.py:51). -/
def singleWith (callee : Except Err (Callable × (H → H))) (a : Args H) (sf : Bool) (q : Int) : Except Err (Made H) := do
  let n ← lenOf a.sequence_len
  sized a.d_model
  mhaInit a.d_model a.nhead
  ensure (q < n)
  linearInit a.d_model a.dim_feedforward
  dropInit a.dropout
  linearInit a.dim_feedforward a.d_model
  let f ← callee
  f.1.adopted
  let delay := if q ≥ 0 then n - q - 1 else -q - 1
  ensure (sf = true → 0 ≤ delay)
  .ok { norm1 := (a.d_model, a.layer_norm_eps), norm2 := (a.d_model, a.layer_norm_eps),
        attn := (a.d_model, a.nhead, a.dropout), cls := some (q, sf), len := n,
        linear1 := (a.d_model, a.dim_feedforward), act := f.2, drop1 := a.dropout,
        linear2 := (a.dim_feedforward, a.d_model), drop2 := a.dropout,
        shortcut := if sf then .select delay else .identity }

/-- `RetroactiveTransformerEncoderLayer(...)`: transformer.py:296-406.  The activation goes to `Lambda`, which takes everything
that can be called (closure.py:68-74).  The delay of the attention is `sequence_len - 1` (mha_base.py:547-549, module.py:188). -/
def retroWith (callee : Except Err (Callable × (H → H))) (a : Args H) : Except Err (Made H) := do
  let n ← lenOf a.sequence_len
  sized a.d_model
  mhaInit a.d_model a.nhead
  linearInit a.d_model a.dim_feedforward
  let f ← callee
  dropInit a.dropout
  linearInit a.dim_feedforward a.d_model
  .ok { norm1 := (a.d_model, a.layer_norm_eps), norm2 := (a.d_model, a.layer_norm_eps),
        attn := (a.d_model, a.nhead, a.dropout), cls := none, len := n,
        linear1 := (a.d_model, a.dim_feedforward), act := f.2, drop1 := a.dropout,
        linear2 := (a.dim_feedforward, a.d_model), drop2 := a.dropout,
        shortcut := .unity (n - 1) }

/-- What the layer functions make of their argument `activation`: strings are not looked up, and neither `continual` nor `Lambda`
takes them (convert.py:237, closure.py:68). -/
def asGiven : Activation H → Except Err (Callable × (H → H))
  | .fn k f => .ok (k, f)
  | .name _ => .error .assertion

def singleOutput (a : Args H) (sf : Bool) (q : Int) : Except Err (Made H) := singleWith (asGiven a.activation) a sf q

def retroactive (a : Args H) : Except Err (Made H) := retroWith (asGiven a.activation) a

/-! ### The factory -/

/-- `MhaType`: transformer.py:28-39. -/
inductive MhaType where
  | RETROACTIVE | SINGLE_OUTPUT | SINGLE_OUTPUT_FORWARD | REGULAR
  deriving DecidableEq, Repr

/-- The argument of the function that the factory returns. -/
inductive MhaArg where
  | member (m : MhaType)
  | text (s : String)

/-- `MhaType(mha_type)`, `ValueError` for unknown values. -/
def mhaType : MhaArg → Except Err MhaType
  | .member m => .ok m
  | .text s =>
    if s = "retroactive" then .ok .RETROACTIVE
    else if s = "single_output" then .ok .SINGLE_OUTPUT
    else if s = "single_output_forward" then .ok .SINGLE_OUTPUT_FORWARD
    else if s = "regular" then .ok .REGULAR
    else .error .value

/-- `TransformerEncoderLayerFactory(...)(mha_type)`: transformer.py:472-502.  `none` is `None`, the result of
`StepLocalTransformerEncoderLayer` (transformer.py:409-423). -/
def factory (relu : H → H) (a : Args H) (t : MhaArg) : Except Err (Option (Made H)) :=
  match mhaType t with
  | .error e => .error e
  | .ok .RETROACTIVE => (retroWith (resolve relu a.activation) a).map some
  | .ok .SINGLE_OUTPUT => (singleWith (resolve relu a.activation) a false (-1)).map some
  | .ok .SINGLE_OUTPUT_FORWARD => (singleWith (resolve relu a.activation) a true (-1)).map some
  | .ok .REGULAR => .ok none

end CoInf.EncoderArgs
