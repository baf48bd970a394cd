/-
Spec for C73: how long a module remembers wrong values.
-/
import Verif.Spec.Stream

set_option autoImplicit false

namespace CoInf.Spec
variable {X Y : Type}

/-- Two objects of the same module, `i` with the right values and `j` with wrong ones, are fed step by step: first different
frames (`zs`, `zs'`), then `n` common frames `xs`, then further common frames `ys`.  No call raises, both give an output
at the same steps, and for `ys` both return the same. -/
def Recovers (M : CoMod (.stream X) (.stream Y)) (n : Nat) (i j : M.Inst) : Prop :=
  ∀ zs zs' xs ys : List X, zs.length = zs'.length → xs.length = n →
    ∃ as as' bs i' j', callSteps M i (zs ++ xs ++ ys) = .ok (as ++ bs, i') ∧
      callSteps M j (zs' ++ xs ++ ys) = .ok (as' ++ bs, j') ∧
      as.length = zs.length + n ∧ as.map Option.isSome = as'.map Option.isSome

end CoInf.Spec
