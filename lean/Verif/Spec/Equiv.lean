/-
When two modules behave identically.
-/
import Verif.Spec.Observe

set_option autoImplicit false

namespace CoInf.Spec
variable {I O : Sig}

/-- Functional stepping over arbitrary signatures, the outputs only. -/
def threadOuts (M : CoMod I O) (s : Option M.St) : List I.Step → Except Err (List (Option O.Step))
  | [] => .ok []
  | x :: xs => do
    let (o, s') ← M.pstep x s
    let os ← threadOuts M s' xs
    return o :: os

/-- The two modules cannot be told apart: every script of calls (any of `forward`, `forward_step`,
`forward_steps`, `clean_state`, any flags) on newly constructed objects shows the same results and
exceptions, and so does threading states through `_forward_step`. -/
structure Alike (M N : CoMod I O) : Prop where
  calls : ∀ cs : List (Call I), (Spec.calls M M.init cs).1 = (Spec.calls N N.init cs).1
  thread : ∀ xs : List I.Step, threadOuts M none xs = threadOuts N none xs

end CoInf.Spec
