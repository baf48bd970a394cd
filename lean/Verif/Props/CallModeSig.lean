/-
C39: a `Conditional` called on its own, and the signatures of the three methods.
-/
import Verif.Props.CallMode

set_option autoImplicit false

namespace CoInf.CallMode

/-- Keywords that `forward`, `forward_step` and `forward_steps` take besides the input: module.py:232-327. -/
def Spec.keywords : Mode → List String
  | .forward => []
  | .step => ["update_state"]
  | .steps => ["pad_end", "update_state"]

/-- **C39**, arguments: a module that is given the arguments of one method and dispatches to another accepts them exactly if it
has all their keywords; a module's own method always accepts its arguments. -/
theorem C39_signatures (kw M : Mode) : fits kw M = true ↔ ∀ s ∈ Spec.keywords kw, s ∈ Spec.keywords M := by
  cases kw <;> cases M <;> decide

/-- **C39 fails** for a `Conditional` that is called on its own: `forward` calls the chosen branch in whatever mode the branch
itself is in. -/
theorem C39_conditional_direct_refuted (m : Mode) (i j : Nat) (σ : Modes) (hσ : σ j = .tok m) :
    (method Ctx.init .forward (.cond i (.leaf j false)) σ).trace = [(j, m)] := by
  have h3 : accept .forward (dispatch Ctx.init (.tok m)) = .ok m := rfl
  simp only [method, invoke, hσ, h3, perform]

example : (method Ctx.init .forward (.cond 0 (.leaf 1 false)) fun _ => .tok .step).trace = [(1, .step)] := by
  decide

end CoInf.CallMode
