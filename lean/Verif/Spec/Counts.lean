/-
When the members of a `Sequential` satisfy the length formula of `forward`.
-/
import Verif.Spec.Geometry
import Verif.Model.Container

set_option autoImplicit false

namespace CoInf.Spec

/-- The module reports a positive stride and receptive field, and its `forward` satisfies the length
formula for the values it reports. -/
structure Counts {X Y : Type} (m : CoMod (.stream X) (.stream Y)) : Prop where
  stride_pos : 1 ≤ m.stride
  rf_pos : 1 ≤ m.rf
  len : FwdLen m

/-- Every member of the chain satisfies the length formula. -/
inductive CountChain : {X Y : Type} → Chain (.stream X) (.stream Y) → Prop where
  | single {X Y : Type} {m : CoMod (.stream X) (.stream Y)} : Counts m → CountChain (.single m)
  | cons {X Y Z : Type} {m : CoMod (.stream X) (.stream Y)} {c : Chain (.stream Y) (.stream Z)} :
      Counts m → CountChain c → CountChain (.cons m c)

end CoInf.Spec
