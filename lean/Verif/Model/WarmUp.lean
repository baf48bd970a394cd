/-
Model of `CoModule.warm_up`: /repo/continual/module.py:314-327.
-/
import Verif.Model.Core

set_option autoImplicit false

namespace CoInf

/-- `warm_up(step_shape)`: module.py:314-327.  `pad` is a frame of `_make_padding(torch.zeros(step_shape))`;
`torch.zeros` raises for a negative number of frames. -/
def warmUp {X Y : Type} (m : CoMod (.stream X) (.stream Y)) (i : m.Inst) (pad : X) : Except Err m.Inst :=
  if m.delay < 0 then .error .runtime
  else match m.steps i false true (List.replicate m.delay.toNat pad) with
    | .ok (_, i') => .ok i'
    | .error e => .error e

end CoInf
