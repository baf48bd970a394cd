/-
What a caller sees of a module whose tensors are mutable objects, and the same module with immutable tensors.
-/
import Verif.Model.Heap
import Verif.Spec.Observe

set_option autoImplicit false

namespace CoInf.Spec
open Heap
variable {X Y V : Type}

/-- What the caller sees when looking at a result while the memory is `h` (possibly much later). -/
def look (L : HLeaf X Y V) (h : Mem V) : HRes Y → CallRes (.stream Y)
  | .frame o => .frame (o.bind fun v => (v.read h).bind L.frame)
  | .clip o => .clip (o.map fun a => (Heap.read h a).filterMap L.frame)
  | .done => .done
  | .whole ys => .whole ys
  | .raised e => .raised e

/-- The module object and the kept states, as immutable values. -/
structure VWorld (L : Leaf X Y) where
  obj : L.Inst
  kept : List (Option L.St)

/-- Perform a call with immutable tensors. -/
def vcall (L : Leaf X Y) (fwd : List X → Except Err (List Y)) (w : VWorld L) :
    HCall X → Except Err (CallRes (.stream Y) × VWorld L)
  | .step u x => match L.forwardStep w.obj u x with
    | .error e => .error e
    | .ok (o, i) => .ok (.frame o, { w with obj := i })
  | .steps p u xs => match L.forwardSteps w.obj p u xs with
    | .error e => .error e
    | .ok (o, i) => .ok (.clip o, { w with obj := i })
  | .clean => .ok (.done, { w with obj := L.clean w.obj })
  | .fwd xs => match fwd xs with
    | .error e => .error e
    | .ok ys => .ok (.whole ys, w)
  | .save => .ok (.done, { w with kept := w.kept ++ [L.get w.obj] })
  | .saveClone => .ok (.done, { w with kept := w.kept ++ [L.get w.obj] })
  | .restore k => match w.kept[k]? with
    | none => .error .index
    | some none => .error .type
    | some (some s) => .ok (.done, { w with obj := L.set s w.obj })

/-- Perform calls up to the first exception. -/
def vcalls (L : Leaf X Y) (fwd : List X → Except Err (List Y)) (w : VWorld L) :
    List (HCall X) → List (CallRes (.stream Y)) × VWorld L
  | [] => ([], w)
  | c :: cs => match vcall L fwd w c with
    | .error e => ([.raised e], w)
    | .ok (r, w') => (r :: (vcalls L fwd w' cs).1, (vcalls L fwd w' cs).2)

/-- Calls of the public interface without taking or putting back states. -/
def HCall.plain : HCall X → Prop
  | .save => False
  | .saveClone => False
  | .restore _ => False
  | _ => True

/-- A call of the public interface, as a call of a user who may also keep states. -/
def ofCall : Call (.stream X) → HCall X
  | .step u x => .step u x
  | .steps p u xs => .steps p u xs
  | .clean => .clean
  | .fwd xs => .fwd xs

/-- What a user sees who performs the calls in the world `w` and looks at all results afterwards. -/
def seenFrom (L : HLeaf X Y V) (w : World L) (cs : List (HCall X)) : List (CallRes (.stream Y)) :=
  (hcalls L w cs).1.map (look L (hcalls L w cs).2.mem)

/-- The same with a new object. -/
def seen (L : HLeaf X Y V) (cs : List (HCall X)) : List (CallRes (.stream Y)) := seenFrom L (World.new L) cs

/-- No call raised an exception. -/
def Fine (rs : List (HRes Y)) : Prop := ∀ r ∈ rs, ∀ e, r ≠ .raised e

end CoInf.Spec
