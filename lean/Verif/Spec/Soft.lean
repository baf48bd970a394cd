/-
Stream functions for modules whose probes (`update_state=False`) may raise.
-/
import Verif.Spec.Stream

set_option autoImplicit false

namespace CoInf.Spec
variable {X Y : Type}

/-- Like `SimRel`, but `update_state=False` calls are only described if they return: then they return what an updating
call would have returned, and leave the history as it is. Updating calls always return. -/
structure SoftRel (M : CoMod (.stream X) (.stream Y)) (φ : List X → List Y)
    (R : List X → M.Inst → Prop) : Prop where
  phi_nil : φ [] = []
  init : R [] M.init
  clean : ∀ {h i}, R h i → R [] (M.clean i)
  step : ∀ {h i} (x : X), R h i → ∃ o i', M.step i true x = .ok (o, i') ∧
    φ (h ++ [x]) = φ h ++ o.toList ∧ R (h ++ [x]) i'
  steps : ∀ {h i} (xs : List X), xs ≠ [] → R h i → ∃ ys i',
    M.steps i false true xs = .ok (optList ys, i') ∧ φ (h ++ xs) = φ h ++ ys ∧ R (h ++ xs) i'
  probe : ∀ {h i x o i'}, R h i → M.step i false x = .ok (o, i') → φ (h ++ [x]) = φ h ++ o.toList ∧ R h i'
  probes : ∀ {h i xs o i'}, xs ≠ [] → R h i → M.steps i false false xs = .ok (o, i') →
    ∃ ys, o = optList ys ∧ φ (h ++ xs) = φ h ++ ys ∧ R h i'
  fwd_state : ∀ {h i xs ys i'}, R h i → M.fwd i xs = .ok (ys, i') → R h i'
  fwd_indep : ∀ {h i} (xs : List X), R h i →
    (M.fwd i xs).map Prod.fst = (M.fwd M.init xs).map Prod.fst

/-- `M` streams `φ`, up to probes that raise. -/
def Soft (M : CoMod (.stream X) (.stream Y)) (φ : List X → List Y) : Prop := ∃ R, SoftRel M φ R

end CoInf.Spec
