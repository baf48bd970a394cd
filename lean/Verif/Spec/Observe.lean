/-
Observations on modules: what a caller sees of a stream, and when two objects cannot be told apart.
-/
import Verif.Spec.Stream

namespace CoInf.Spec

variable {X Y : Type}

/-- The tensors among a list of step results (`None` entries dropped). -/
def tensors (os : List (Option Y)) : List Y := os.filterMap id

/-- Started on a clean object (fresh, or after `clean_state`, whatever happened before), repeated
`forward_step` calls return one result per frame, and after any number of frames the tensors returned
so far are exactly what `φ` prescribes for the frames passed so far. -/
def StreamsAs (M : CoMod (.stream X) (.stream Y)) (φ : List X → List Y) : Prop :=
  ∀ i, Reach M [] i → ∀ xs, ∃ os i', callSteps M i xs = .ok (os, i') ∧ os.length = xs.length ∧
    ∀ n, tensors (os.take n) = φ (xs.take n)

/-- The frames returned by a call. -/
def Res.outs : Res Y → List Y
  | .frame o => o.toList
  | .clip o => o.getD []
  | _ => []

/-- Calls that feed the stream: `forward_step(x)` and `forward_steps(x)` with the default flags. -/
def Op.feeds : Op X → Prop
  | .step u _ => u = true
  | .steps u xs => u = true ∧ xs ≠ []
  | _ => False

/-- All frames passed by a script. -/
def framesOf (ops : List (Op X)) : List X := ops.flatMap Op.frames

/-- All frames returned by a script. -/
def outsOf (rs : List (Res Y)) : List Y := rs.flatMap Res.outs

/-- The results of a script (without the final object). -/
def results (M : CoMod (.stream X) (.stream Y)) (i : M.Inst) (ops : List (Op X)) :
    Except Err (List (Res Y)) := (run M i ops).map Prod.fst

/-- No sequence of calls (of any kind, without end padding) tells the two objects apart. -/
def Same (M : CoMod (.stream X) (.stream Y)) (i i' : M.Inst) : Prop :=
  ∀ ops : List (Op X), (∀ op ∈ ops, op.nonempty) → results M i ops = results M i' ops

/-- Arbitrary calls, including end padding and clips without frames. -/
inductive Call (I : Sig) where
  | step (upd : Bool) (x : I.Step)
  | steps (padEnd upd : Bool) (xs : I.Clip)
  | clean
  | fwd (xs : I.Clip)

/-- Result of an arbitrary call. -/
inductive CallRes (O : Sig) where
  | frame (o : Option O.Step)
  | clip (o : Option O.Clip)
  | done
  | whole (ys : O.Clip)
  | raised (e : Err)

/-- Perform one call. -/
def call {I O : Sig} (M : CoMod I O) (i : M.Inst) : Call I → Except Err (CallRes O × M.Inst)
  | .step u x => (M.step i u x).map fun p => (.frame p.1, p.2)
  | .steps p u xs => (M.steps i p u xs).map fun p => (.clip p.1, p.2)
  | .clean => .ok (.done, M.clean i)
  | .fwd xs => (M.fwd i xs).map fun p => (.whole p.1, p.2)

/-- Perform a script of arbitrary calls up to the first exception: what the caller sees, and the object
afterwards if there was no exception.  (A call that raises may have updated some members of a container;
the model does not describe the object after an exception.) -/
def calls {I O : Sig} (M : CoMod I O) (i : M.Inst) : List (Call I) → List (CallRes O) × Option M.Inst
  | [] => ([], some i)
  | c :: cs => match call M i c with
    | .error e => ([.raised e], none)
    | .ok (r, i') => (r :: (calls M i' cs).1, (calls M i' cs).2)

end CoInf.Spec
