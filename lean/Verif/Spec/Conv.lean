/-
Specification of the temporal part of convolution and pooling on one window.
-/
import Verif.Spec.Window
import Mathlib.Algebra.BigOperators.Group.List.Basic

namespace CoInf.Spec
variable {X Y : Type}

/-- Cross-correlation of one window with the kernel slices `w 0, w 1, ...`, plus bias. -/
def corr [AddCommMonoid Y] (w : Nat → X → Y) (bias : Option Y) (win : List X) : Y :=
  (win.mapIdx w).sum + bias.getD 0

/-- The same where the order of the additions matters, as it does with rounding: the newest term, plus the sum over the others from
the oldest on, plus the bias. -/
def corrSeq [Zero Y] [Add Y] (w : Nat → X → Y) (bias : Option Y) (win : List X) : Y :=
  let y := match win.getLast? with
    | some x => w (win.length - 1) x + (win.dropLast.mapIdx w).sum
    | none => 0
  match bias with
  | some b => y + b
  | none => y

/-- A pooling function that does not depend on the order of the frames. -/
def OrderFree (pool : List Y → Y) : Prop := ∀ a b : List Y, a.Perm b → pool a = pool b

end CoInf.Spec
