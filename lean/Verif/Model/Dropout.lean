/-
Dropout in training mode.

/repo/continual/convert.py:54-75, 155-160 (the dropout layers of torch in a stream), rnn.py:119-154, 196-224 (dropout between
recurrent layers), multihead_attention/mha_base.py:211-219, retroactive_mha.py:74-75, single_output_mha.py:75-104.

Assumed of torch: each call of a dropout layer draws one bit per unit, independently, where `true` means that the unit is dropped;
the units of `nn.Dropout` and `nn.AlphaDropout` are the entries of the tensor, those of `nn.Dropout2d`, `nn.Dropout3d` and
`nn.FeatureAlphaDropout` its channels.  What happens to the entries of a unit is a function of the bit.  torch's recurrent modules
apply dropout to the output sequence of each layer but the last.  Random numbers are modelled by the bits that are drawn and their
weights, so that the mean of any statistic is a finite sum.
-/
import Verif.Model.Rnn
import Mathlib.Algebra.BigOperators.Group.Finset.Basic
import Mathlib.Algebra.Field.Defs
import Mathlib.Data.Fintype.Pi
import Mathlib.Data.Fintype.BigOperators

set_option autoImplicit false

namespace CoInf.Dropout

/-- A dropout layer on clips of `T` frames with channels `C` (including the batch) and places `P`: its units, and the unit that an
entry belongs to. -/
structure Drop (C P : Type) where
  Units : Nat → Type
  fin : ∀ T, Fintype (Units T)
  dec : ∀ T, DecidableEq (Units T)
  unit : ∀ T, Fin T → C → P → Units T

instance {C P : Type} (k : Drop C P) (T : Nat) : Fintype (k.Units T) := k.fin T
instance {C P : Type} (k : Drop C P) (T : Nat) : DecidableEq (k.Units T) := k.dec T

section kinds
variable (C P : Type) [Fintype C] [DecidableEq C] [Fintype P] [DecidableEq P]

/-- `nn.Dropout`, `nn.AlphaDropout`. -/
@[reducible] def elements : Drop C P where
  Units := fun T => Fin T × C × P
  fin := fun _ => inferInstance
  dec := fun _ => inferInstance
  unit := fun _ t c p => (t, c, p)

/-- `nn.Dropout2d`, `nn.Dropout3d`, `nn.FeatureAlphaDropout`: one unit per channel, whatever the number of frames. -/
@[reducible] def features : Drop C P where
  Units := fun _ => C
  fin := fun _ => inferInstance
  dec := fun _ => inferInstance
  unit := fun _ _ c _ => c

end kinds

section run
variable {C P V : Type} (apply : Bool → V → V) (k : Drop C P)

/-- `forward` on a clip, given the bits that are drawn. -/
def forward {T : Nat} (mask : k.Units T → Bool) (x : Fin T → C → P → V) : Fin T → C → P → V :=
  fun t c p => apply (mask (k.unit T t c p)) (x t c p)

/-- `forward_step`, convert.py:61-67: `forward` on a clip of one frame. -/
def forwardStep (mask : k.Units 1 → Bool) (x : C → P → V) : C → P → V := forward apply k mask (fun _ => x) 0

/-- A stream of frames, with new bits for each. -/
def stream {T : Nat} (masks : Fin T → k.Units 1 → Bool) (x : Fin T → C → P → V) : Fin T → C → P → V :=
  fun t => forwardStep apply k (masks t) (x t)

end run

/-- Weight of a draw, given the weights of one bit. -/
def prob {R U : Type} [CommMonoid R] [Fintype U] (w : Bool → R) (mask : U → Bool) : R := ∏ u, w (mask u)

section recurrent
variable {V S K : Type}

/-- Recurrent layers with dropout between them, as layers on frames that carry the draws for the layers to come. -/
def dropped (apply : K → V → V) : List (Rnn.Cell V S) → List (Rnn.Cell (V × List K) S)
  | [] => []
  | [f] => [fun x s => let (y, s') := f x.1 s; ((y, x.2), s')]
  | f :: g :: fs => (fun x s =>
      let (y, s') := f x.1 s
      match x.2 with
      | m :: ms => ((apply m y, ms), s')
      | [] => ((y, []), s')) :: dropped apply (g :: fs)

/-- A recurrent module in training mode: rnn.py:119-154. -/
def training (apply : K → V → V) (c : Rnn.Cfg V S) : Rnn.Cfg (V × List K) S := ⟨dropped apply c.layers, c.zero⟩

end recurrent

section attention
variable {R : Type} [Field R] {N : Type} [Fintype N]

/-- `F.dropout` of one number. -/
def dropNumber (p : R) (bit : Bool) (a : R) : R := if bit then 0 else a / (1 - p)

/-- One entry of the result of attention in `forward` in training mode (torch), for attention weights `a` and values `v`; also of
`SingleOutputMultiheadAttention.forward_step`, single_output_mha.py:103-107. -/
def attnForward (p : R) (mask : N → Bool) (a v : N → R) : R := ∑ i, dropNumber p (mask i) (a i) * v i

/-- The same entry in `RetroactiveMultiheadAttention.forward_step`: the dropout is skipped, retroactive_mha.py:74-75. -/
def attnStep (a v : N → R) : R := ∑ i, a i * v i

end attention

end CoInf.Dropout
