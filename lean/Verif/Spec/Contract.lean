/-
The contract that composite builders such as `Residual` expect from the module they wrap.
-/
import Verif.Spec.Geometry

set_option autoImplicit false

namespace CoInf.Spec
variable {X Y : Type}

/-- `forward` extends what the stream has emitted. -/
def Ahead (m : CoMod (.stream X) (.stream Y)) (φ : List X → List Y) : Prop :=
  ∀ {xs ys i0}, m.fwd m.init xs = .ok (ys, i0) → φ xs <+: ys

/-- A continual module that keeps what the documentation promises: it implements a stream function, reports the
geometry of that function, its `forward` has the length given by that geometry and starts with what is emitted
while streaming, and `pad_end=True` completes a stream to `forward`. -/
structure Contract (m : CoMod (.stream X) (.stream Y)) (φ : List X → List Y) : Prop where
  impl : Implements m φ
  geom : Geom m φ
  len : FwdLen m
  ahead : Ahead m φ
  padClean : PadClean m (Reach m)
  padRel : PadRel m φ (Reach m)

/-- The frames of the input that the un-padded residual connection adds to the output of a module that shortens a
clip by `d` frames: the centre, the beginning or the end of the clip. -/
inductive Crop where
  | centre
  | start
  | finish
  deriving DecidableEq, Repr

def Crop.apply (c : Crop) (d : Nat) (xs : List X) : List X :=
  match c with
  | .centre => (xs.drop (d / 2)).take (xs.length - d)
  | .start => xs.take (xs.length - d)
  | .finish => xs.drop d

end CoInf.Spec
