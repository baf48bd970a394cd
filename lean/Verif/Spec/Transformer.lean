/-
The transformer encoder layer (post-norm), and a stack of them, on a clip of tokens.
-/
import Verif.Spec.Attention

set_option autoImplicit false

namespace CoInf.Spec
variable {X : Type} [Add X]

/-- An encoder layer on a clip: attention with residual connection, norm, feed-forward block with residual connection,
norm.  `attn` is the self-attention of all tokens of the clip. -/
def encoderLayer (attn : List X → List X) (norm1 ff norm2 : X → X) (xs : List X) : List X :=
  (List.zipWith (fun x a => x + a) xs (attn xs)).map fun y => norm2 (norm1 y + ff (norm1 y))

end CoInf.Spec
