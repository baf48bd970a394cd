/-
Several module objects in one memory: deep and shallow copies of the modules of /repo/continual that keep a state.

The package defines no `__copy__`, `__deepcopy__` or `__getstate__`, so Python's defaults apply.  The state of all modules is
registered as buffers (delay.py:62-63, conv.py:121-123, pooling.py:148-150), which torch keeps in the dictionary `_buffers`.
`copy.copy(m)` gives an object with the same attribute values, so the copy has the same dictionary.  `copy.deepcopy(m)` copies
the dictionary and the tensors; it raises `RuntimeError` for tensors that are not leaves of the autograd graph and `TypeError`
for attributes that are `staticmethod` objects; functions are not copied.
-/
import Verif.Spec.Heap

set_option autoImplicit false

namespace CoInf.Heap
variable {X Y V : Type}

/-- Module objects with the same configuration, and the memory that they share.  `objs` are the dictionaries of buffers (see
`HLeaf.Inst`); the `k`-th object has the dictionary number `names[k]`. -/
structure Herd (L : HLeaf X Y V) where
  names : List Nat
  objs : List L.Inst
  mem : Mem V

/-- What a user may do: call a method of the `k`-th object, or append a copy of it to the objects. -/
inductive HerdCall (X : Type) where
  | on (k : Nat) (c : Spec.Call (.stream X))
  | deep (k : Nat)
  | shallow (k : Nat)

/-- Perform a call.  State tensors are those of streams under `torch.no_grad()`, which can be copied. -/
def herdCall (L : HLeaf X Y V) (w : Herd L) : HerdCall X → Except Err (HRes Y × Herd L)
  | .on k c => match w.names[k]? with
    | none => .error .index
    | some d => match w.objs[d]? with
      | none => .error .index
      | some i => match hcall L ⟨i, [], w.mem⟩ (Spec.ofCall c) with
        | .error e => .error e
        | .ok (r, w') => .ok (r, ⟨w.names, w.objs.set d w'.obj, w'.mem⟩)
  | .deep k => match w.names[k]? with
    | none => .error .index
    | some d => match w.objs[d]? with
      | none => .error .index
      | some i => .ok (.done, ⟨w.names ++ [w.objs.length], w.objs ++ [(L.clone i w.mem).1], (L.clone i w.mem).2⟩)
  | .shallow k => match w.names[k]? with
    | none => .error .index
    | some d => .ok (.done, ⟨w.names ++ [d], w.objs, w.mem⟩)

/-- Perform calls up to the first exception. -/
def herdCalls (L : HLeaf X Y V) (w : Herd L) : List (HerdCall X) → List (HRes Y) × Herd L
  | [] => ([], w)
  | c :: cs => match herdCall L w c with
    | .error e => ([.raised e], w)
    | .ok (r, w') => (r :: (herdCalls L w' cs).1, (herdCalls L w' cs).2)

/-- A network as `copy.deepcopy` sees it: members with a state (does their state tensor hang on the autograd graph?), modules
to which `forward_stepping` was applied, containers. -/
inductive Copied where
  | co (tracked : Bool)
  | stepping
  | box (members : List Copied)

mutual
/-- Does `copy.deepcopy` raise?  `forward_stepping` stores the `staticmethod` object `build_from` as an attribute of the module
(convert.py:79-81, 92), which has no way of being copied. -/
def deepcopyNet : Copied → Except Err Unit
  | .co tracked => if tracked then .error .runtime else .ok ()
  | .stepping => .error .type
  | .box ms => deepcopyAll ms

/-- The members are copied in turn. -/
def deepcopyAll : List Copied → Except Err Unit
  | [] => .ok ()
  | m :: ms => match deepcopyNet m with
    | .error e => .error e
    | .ok _ => deepcopyAll ms
end

end CoInf.Heap
