/-
What the reported temporal geometry (receptive field `rf`, stride `S`, padding `P`) of a stream
operator is supposed to mean.
-/
import Verif.Spec.Stream

namespace CoInf.Spec
variable {X Y : Type}

/-- The `j`-th output only depends on the input frames `jS-P, ..., jS-P+rf-1`. -/
def Local (φ : List X → List Y) (rf S P : Nat) : Prop :=
  ∀ (xs xs' : List X) (j : Nat), j < (φ xs).length → j < (φ xs').length →
    (∀ i, j * S ≤ i + P → i + P < j * S + rf → xs[i]? = xs'[i]?) → (φ xs)[j]? = (φ xs')[j]?

/-- Outputs whose windows do not reach into the start padding are a function of the window's content
alone: neither the position in the stream nor anything outside of the window matters. -/
def TimeInv (φ : List X → List Y) (rf S P : Nat) : Prop :=
  ∀ (xs xs' : List X) (j j' : Nat), j < (φ xs).length → j' < (φ xs').length → P ≤ j * S → P ≤ j' * S →
    (∀ k, k < rf → xs[j * S - P + k]? = xs'[j' * S - P + k]?) → (φ xs)[j]? = (φ xs')[j']?

/-- The stream operator has the given geometry. -/
structure HasGeo (φ : List X → List Y) (rf S P : Nat) : Prop where
  hS : 1 ≤ S
  hP : P + 1 ≤ rf
  sched : Sched φ (rf - 1 - P) S
  loc : Local φ rf S P
  inv : TimeInv φ rf S P

/-- The module reports the geometry that its stream function has. -/
structure Geom (M : CoMod (.stream X) (.stream Y)) (φ : List X → List Y) : Prop where
  geo : HasGeo φ M.rf M.stride M.padding
  delay : M.delay = (M.rf : Int) - 1 - M.padding

/-- Length of `forward`'s result: `floor((T + 2P - rf)/S) + 1` (on the integers). -/
def FwdLen (M : CoMod (.stream X) (.stream Y)) : Prop :=
  ∀ {i xs ys i'}, M.fwd i xs = .ok (ys, i') →
    (ys.length : Int) = ((xs.length : Int) + 2 * M.padding - M.rf) / M.stride + 1

end CoInf.Spec
