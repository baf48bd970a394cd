/-
What it means for a continual module to implement a stream function, and the call scripts used to
state history properties.  This file only mentions the public interface `CoMod` of a module.
-/
import Verif.Model.Core

namespace CoInf.Spec

variable {X Y : Type}

/-- The relation `R h i` ("instance `i` has consumed exactly the frames `h` since its last
`clean_state`") ties the module `M` to the stream function `φ`, where `φ h` is the list of all
outputs emitted while consuming `h`. -/
structure SimRel (M : CoMod (.stream X) (.stream Y)) (φ : List X → List Y)
    (R : List X → M.Inst → Prop) : Prop where
  phi_nil : φ [] = []
  init : R [] M.init
  clean : ∀ {h i}, R h i → R [] (M.clean i)
  step : ∀ {h i} (upd : Bool) (x : X), R h i → ∃ o i', M.step i upd x = .ok (o, i') ∧
    φ (h ++ [x]) = φ h ++ o.toList ∧ R (if upd then h ++ [x] else h) i'
  steps : ∀ {h i} (upd : Bool) (xs : List X), xs ≠ [] → R h i → ∃ ys i',
    M.steps i false upd xs = .ok (optList ys, i') ∧
    φ (h ++ xs) = φ h ++ ys ∧ R (if upd then h ++ xs else h) i'
  fwd_state : ∀ {h i xs ys i'}, R h i → M.fwd i xs = .ok (ys, i') → R h i'
  fwd_indep : ∀ {h i} (xs : List X), R h i →
    (M.fwd i xs).map Prod.fst = (M.fwd M.init xs).map Prod.fst

/-- `Reach M h i`: the object `i` can be obtained from a freshly constructed `M` by calls of the public
interface (any of them, in any order, without end padding), and the frames consumed with
`update_state=True` since the last `clean_state` are `h`. -/
inductive Reach (M : CoMod (.stream X) (.stream Y)) : List X → M.Inst → Prop where
  | init : Reach M [] M.init
  | clean {h i} : Reach M h i → Reach M [] (M.clean i)
  | step {h i o i'} (upd : Bool) (x : X) : Reach M h i → M.step i upd x = .ok (o, i') →
      Reach M (if upd then h ++ [x] else h) i'
  | steps {h i o i'} (upd : Bool) (xs : List X) : xs ≠ [] → Reach M h i →
      M.steps i false upd xs = .ok (o, i') → Reach M (if upd then h ++ xs else h) i'
  | fwd {h i xs ys i'} : Reach M h i → M.fwd i xs = .ok (ys, i') → Reach M h i'

/-- `M` implements the stream function `φ`. -/
def Implements (M : CoMod (.stream X) (.stream Y)) (φ : List X → List Y) : Prop :=
  ∃ R, SimRel M φ R

/-- A call of the public interface that belongs to streaming (end padding is treated separately). -/
inductive Op (X : Type) where
  | step (upd : Bool) (x : X)
  | steps (upd : Bool) (xs : List X)
  | clean
  | fwd (xs : List X)

/-- Frames contributed by a call, for the outputs: what was passed to it. -/
def Op.frames {X : Type} : Op X → List X
  | .step _ x => [x]
  | .steps _ xs => xs
  | _ => []

/-- Calls with an empty clip are excluded from scripts: `forward_steps` of a clip with no frames is
not uniform across modules (some raise, some return `None`). -/
def Op.nonempty {X : Type} : Op X → Prop
  | .steps _ xs => xs ≠ []
  | _ => True

/-- Abstract history: how a call changes the list of consumed frames. -/
def Op.hist {X : Type} (h : List X) : Op X → List X
  | .step true x => h ++ [x]
  | .step false _ => h
  | .steps true xs => h ++ xs
  | .steps false _ => h
  | .clean => []
  | .fwd _ => h

/-- Outcome of a call, as seen by the caller. -/
inductive Res (Y : Type) where
  | frame (o : Option Y)
  | clip (o : Option (List Y))
  | done
  | fwd (r : Except Err (List Y))

/-- Run one call on the module. A failing `forward` is reported and leaves the instance alone;
failing streaming calls abort the script. -/
def run1 (M : CoMod (.stream X) (.stream Y)) (i : M.Inst) : Op X → Except Err (Res Y × M.Inst)
  | .step u x => do let (o, i') ← M.step i u x; return (.frame o, i')
  | .steps u xs => do let (o, i') ← M.steps i false u xs; return (.clip o, i')
  | .clean => .ok (.done, M.clean i)
  | .fwd xs => match M.fwd i xs with
    | .ok (ys, i') => .ok (.fwd (.ok ys), i')
    | .error e => .ok (.fwd (.error e), i)

/-- Run a script of calls. -/
def run (M : CoMod (.stream X) (.stream Y)) (i : M.Inst) :
    List (Op X) → Except Err (List (Res Y) × M.Inst)
  | [] => .ok ([], i)
  | op :: ops => do
    let (r, i') ← run1 M i op
    let (rs, i'') ← run M i' ops
    return (r :: rs, i'')

/-- The abstract machine: its only state is the history. `F` is the clip function of `forward`. -/
def absRes (φ : List X → List Y) (F : List X → Except Err (List Y)) (h : List X) : Op X → Res Y
  | .step _ x => .frame ((φ (h ++ [x])).drop (φ h).length).head?
  | .steps _ xs => .clip (optList ((φ (h ++ xs)).drop (φ h).length))
  | .clean => .done
  | .fwd xs => .fwd (F xs)

/-- Results of a script on the abstract machine. -/
def absRun (φ : List X → List Y) (F : List X → Except Err (List Y)) (h : List X) :
    List (Op X) → List (Res Y)
  | [] => []
  | op :: ops => absRes φ F h op :: absRun φ F (op.hist h) ops

/-- History after a script. -/
def histAfter (h : List X) (ops : List (Op X)) : List X := ops.foldl Op.hist h

/-- Functional stepping: thread the state through `_forward_step`. -/
def threadSteps (M : CoMod (.stream X) (.stream Y)) (s : Option M.St) :
    List X → Except Err (List (Option Y) × Option M.St)
  | [] => .ok ([], s)
  | x :: xs => do
    let (o, s') ← M.pstep x s
    let (os, s'') ← threadSteps M s' xs
    return (o :: os, s'')

/-- Stateful stepping: call `forward_step` repeatedly. -/
def callSteps (M : CoMod (.stream X) (.stream Y)) (i : M.Inst) :
    List X → Except Err (List (Option Y) × M.Inst)
  | [] => .ok ([], i)
  | x :: xs => do
    let (o, i') ← M.step i true x
    let (os, i'') ← callSteps M i' xs
    return (o :: os, i'')

/-- The functional step of `M` implements `φ` (relation between history and threaded state). -/
def PImplements (M : CoMod (.stream X) (.stream Y)) (φ : List X → List Y) : Prop :=
  ∃ P : List X → Option M.St → Prop, P [] none ∧
    ∀ {h s} (x : X), P h s → ∃ o s', M.pstep x s = .ok (o, s') ∧
      φ (h ++ [x]) = φ h ++ o.toList ∧ P (h ++ [x]) s'

/-- `forward_steps(.., pad_end=True)` finishes a stream: from a state with history `h`, passing the
last chunk `xs` with end padding produces the remaining outputs of `forward (h ++ xs)`.
Stated for both values of `update_state` on a clean module and for `update_state=True` otherwise. -/
structure PadRel (M : CoMod (.stream X) (.stream Y)) (φ : List X → List Y)
    (R : List X → M.Inst → Prop) : Prop where
  finish : ∀ {h i xs ys i0}, R h i → xs ≠ [] → M.fwd M.init (h ++ xs) = .ok (ys, i0) →
    ∃ rest i', ys = φ h ++ rest ∧ M.steps i true true xs = .ok (optList rest, i')
  clean_probe : ∀ {i xs ys i0}, R [] i → xs ≠ [] → M.fwd M.init xs = .ok (ys, i0) →
    ∃ i', M.steps i true false xs = .ok (optList ys, i')

/-- On a clean module `forward_steps(.., pad_end=True)` computes exactly what `forward` computes
(whether or not the state is saved); and `forward` of an empty clip, if accepted, is empty. -/
structure PadClean (M : CoMod (.stream X) (.stream Y)) (R : List X → M.Inst → Prop) : Prop where
  eq : ∀ {i xs ys i0} (upd : Bool), R [] i → xs ≠ [] → M.fwd M.init xs = .ok (ys, i0) →
    ∃ i', M.steps i true upd xs = .ok (optList ys, i')
  nil : ∀ {ys i0}, M.fwd M.init [] = .ok (ys, i0) → ys = []

/-- Once `forward` accepts the whole stream, the last chunk still contributes at least one output:
this is what keeps the downstream members of a `Sequential` busy. -/
def Flow (M : CoMod (.stream X) (.stream Y)) (φ : List X → List Y) : Prop :=
  ∀ {h xs ys i0}, xs ≠ [] → M.fwd M.init (h ++ xs) = .ok (ys, i0) → (φ h).length < ys.length

/-- Emission schedule: after `n` steps, `emitted d s n` outputs have appeared. -/
def Sched (φ : List X → List Y) (d s : Nat) : Prop :=
  ∀ xs, (φ xs).length = (if xs.length ≤ d then 0 else (xs.length - 1 - d) / s + 1)

end CoInf.Spec
