/-
Two modules that process corresponding data.

`Follows M M' a b`: whatever script of calls is made, the results of `M'` on the images (under `a`) of the inputs are the
images (under `b`) of the results of `M`, exceptions included.  With `a`, `b` the restriction of tensors to some entries
of a batch, this says that the entries of a batch are processed independently of each other.
-/
import Verif.Spec.Observe

set_option autoImplicit false

namespace CoInf.Spec

/-- A translation of frames and clips. -/
structure SigMap (I I' : Sig) where
  step : I.Step → I'.Step
  clip : I.Clip → I'.Clip

/-- Translate a tensor stream frame by frame. -/
@[reducible] def SigMap.stream {X X' : Type} (f : X → X') : SigMap (.stream X) (.stream X') := ⟨f, List.map f⟩

variable {I I' O O' : Sig}

/-- The same call with translated arguments. -/
def Call.map (a : SigMap I I') : Call I → Call I'
  | .step u x => .step u (a.step x)
  | .steps p u xs => .steps p u (a.clip xs)
  | .clean => .clean
  | .fwd xs => .fwd (a.clip xs)

/-- The same result with translated tensors. -/
def CallRes.map (b : SigMap O O') : CallRes O → CallRes O'
  | .frame o => .frame (o.map b.step)
  | .clip o => .clip (o.map b.clip)
  | .done => .done
  | .whole ys => .whole (b.clip ys)
  | .raised e => .raised e

/-- `M'` on translated inputs gives the translated results of `M`. -/
def Follows (M : CoMod I O) (M' : CoMod I' O') (a : SigMap I I') (b : SigMap O O') : Prop :=
  ∀ cs : List (Call I), (calls M' M'.init (cs.map (Call.map a))).1 = (calls M M.init cs).1.map (CallRes.map b)

end CoInf.Spec
