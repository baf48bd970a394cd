/-
Softmax attention, entry by entry, and the attention over a sliding window.
-/
import Verif.Spec.Window
import Mathlib.Algebra.Field.Basic
import Mathlib.Algebra.BigOperators.Group.Finset.Basic
import Mathlib.Data.Fintype.Basic

set_option autoImplicit false

namespace CoInf.Spec

variable {F X Y B E : Type} [Field F] [Fintype E]

/-- Attention of a query to a key, before normalisation: `exp (⟨q, k⟩ / √E)` in head `b`. -/
def affinity (ex : F → F) (scale : F) (q k : X → B → E → F) (b : B) (x y : X) : F :=
  ex (∑ e, q x b e * scale * k y b e)

/-- Entry `e` of the attention of the query of frame `x`, in head `b`, over the keys and values of the frames `xs`: the
values, averaged with the affinities as weights. -/
def attention (ex : F → F) (scale : F) (q k v : X → B → E → F) (xs : List X) (x : X) (b : B) (e : E) : F :=
  (∑ j : Fin xs.length, affinity ex scale q k b x xs[j] * v xs[j] b e) / ∑ j : Fin xs.length, affinity ex scale q k b x xs[j]

/-- Multi-head attention on a clip: one output per frame. -/
def multihead (ex : F → F) (scale : F) (q k v : X → B → E → F) (out : (B → E → F) → Y) (xs : List X) : List Y :=
  xs.map fun x => out (attention ex scale q k v xs x)

end CoInf.Spec
