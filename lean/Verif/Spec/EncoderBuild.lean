/-
`torch.nn.TransformerEncoder`: its parameters, their names in its state dict, and what it computes on a clip.
-/
import Verif.Spec.Transformer

set_option autoImplicit false

namespace CoInf.Spec

/-- The parameters of an encoder layer: attention, the two linear maps of the feed-forward block, the two norms. -/
inductive Role where
  | inW | inB | outW | outB | w1 | b1 | w2 | b2 | n1W | n1B | n2W | n2B
  deriving DecidableEq, Repr

/-- Name of a parameter inside `nn.TransformerEncoderLayer`. -/
def Role.torchName : Role → String
  | .inW => "self_attn.in_proj_weight"
  | .inB => "self_attn.in_proj_bias"
  | .outW => "self_attn.out_proj.weight"
  | .outB => "self_attn.out_proj.bias"
  | .w1 => "linear1.weight"
  | .b1 => "linear1.bias"
  | .w2 => "linear2.weight"
  | .b2 => "linear2.bias"
  | .n1W => "norm1.weight"
  | .n1B => "norm1.bias"
  | .n2W => "norm2.weight"
  | .n2B => "norm2.bias"

/-- In the order of their registration. -/
def roles : List Role := [.inW, .inB, .outW, .outB, .w1, .b1, .w2, .b2, .n1W, .n1B, .n2W, .n2B]

/-- The state dict of `nn.TransformerEncoder` with `n` layers of weights `w` and, if there is one, a final layer norm with
the parameters `final`. -/
def torchDict {V : Type} (n : Nat) (w : Nat → Role → V) (final : Option (V × V)) : List (String × V) :=
  ((List.range n).flatMap fun i => roles.map fun r => ("layers." ++ toString i ++ "." ++ r.torchName, w i r)) ++
  match final with
  | none => []
  | some p => [("norm.weight", p.1), ("norm.bias", p.2)]

/-- `nn.TransformerEncoderLayer` on a clip, with or without `norm_first`. -/
def torchLayer {X : Type} [Add X] (normFirst : Bool) (attn : List X → List X) (norm1 ff norm2 : X → X) (xs : List X) : List X :=
  if normFirst then
    (List.zipWith (fun x a => x + a) xs (attn (xs.map norm1))).map fun y => y + ff (norm2 y)
  else encoderLayer attn norm1 ff norm2 xs

end CoInf.Spec
