/-
Serving several streams with one module object.  These are programs of a user who only uses the public interface:
`set_state` / `clean_state`, a call, `get_state`; or the functional `_forward_step`.
-/
import Verif.Spec.Heap

set_option autoImplicit false

namespace CoInf.Spec
open Heap
variable {X Y V : Type}

/-- The module object, the state of every stream (what `get_state` returned after its last call; `None` at first), the
memory. -/
structure Server (L : HLeaf X Y V) where
  obj : L.Inst
  state : Nat → Option (Nat × L.A)
  mem : Mem V

/-- A new object, no stream has started. -/
def Server.new (L : HLeaf X Y V) : Server L := ⟨L.init.1, fun _ => none, L.init.2⟩

/-- Replace the entry of one stream. -/
def put {α : Type} (f : Nat → α) (k : Nat) (a : α) : Nat → α := fun j => if j = k then a else f j

/-- The object as stream `k` left it: `m.clean_state() if state[k] is None else m.set_state(state[k])`. -/
def resume (L : HLeaf X Y V) (w : Server L) (k : Nat) : L.Inst × Mem V :=
  match w.state k with
  | some s => (s, w.mem)
  | none => L.clean w.obj w.mem

/-- One call for stream `k`:
```
if state[k] is None: m.clean_state()
else: m.set_state(state[k])
result = m.<call>
state[k] = m.get_state()
```
No tensor is copied. -/
def serve1 (L : HLeaf X Y V) (w : Server L) (k : Nat) (c : Call (.stream X)) : Except Err (HRes Y × Server L) :=
  match hcall L ⟨(resume L w k).1, [], (resume L w k).2⟩ (ofCall c) with
  | .error e => .error e
  | .ok (r, w') => .ok (r, ⟨w'.obj, put w.state k (L.get w'.obj w'.mem), w'.mem⟩)

/-- Calls for many streams, in any order, up to the first exception. -/
def serve (L : HLeaf X Y V) (w : Server L) : List (Nat × Call (.stream X)) → List (Nat × HRes Y) × Server L
  | [] => ([], w)
  | (k, c) :: es => match serve1 L w k c with
    | .error e => ([(k, .raised e)], w)
    | .ok (r, w') => ((k, r) :: (serve L w' es).1, (serve L w' es).2)

/-- What belongs to stream `k`. -/
def mine {α : Type} (k : Nat) (es : List (Nat × α)) : List α := (es.filter fun e => e.1 = k).map Prod.snd

/-- What stream `k` gets, looked at after everything. -/
def served (L : HLeaf X Y V) (es : List (Nat × Call (.stream X))) (k : Nat) : List (CallRes (.stream Y)) :=
  (mine k (serve L (Server.new L) es).1).map (look L (serve L (Server.new L) es).2.mem)

/-- The same with the functional step: `result, state[k] = m._forward_step(x, state[k])`. -/
def thread1 (L : HLeaf X Y V) (state : Nat → Option (Nat × L.A)) (h : Mem V) (k : Nat) (x : X) :
    Except Err (Option View × (Nat → Option (Nat × L.A)) × Mem V) :=
  match L.pstep x (state k) h with
  | .error e => .error e
  | .ok r => .ok (r.out, put state k r.state, r.mem)

/-- Frames of many streams, in any order. -/
def threads (L : HLeaf X Y V) : (Nat → Option (Nat × L.A)) → Mem V → List (Nat × X) →
    Except Err (List (Nat × Option View) × Mem V)
  | _, h, [] => .ok ([], h)
  | st, h, (k, x) :: es => match thread1 L st h k x with
    | .error e => .error e
    | .ok (o, st', h') => match threads L st' h' es with
      | .error e => .error e
      | .ok (os, h'') => .ok ((k, o) :: os, h'')

end CoInf.Spec
