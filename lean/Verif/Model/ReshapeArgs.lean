/-
Arguments of `co.Reshape`: /repo/continual/shape.py:22-40 (constructor), 48-65 (use of the shape).

Assumed of torch: `reshape` raises `TypeError` for sizes that are not integers (truth values count as none), and `RuntimeError` for
negative ones other than `-1`.
-/
import Verif.Model.ReshapeNd

set_option autoImplicit false

namespace CoInf.ReshapeArgs

/-- Python values as far as the constructor tells them apart. -/
inductive Val where
  | int (i : Int)
  | bool (b : Bool)
  | seq (l : List Val)
  | other

/-- `isinstance(v, int)`: truth values are integers. -/
def Val.isInt : Val → Bool
  | .int _ => true
  | .bool _ => true
  | _ => false

/-- The object. -/
structure Obj where
  shape : List Val
  contiguous : Bool

/-- `Reshape(*shape, contiguous=...)`: shape.py:29-40. -/
def init (shape : List Val) (contiguous : Bool) : Except Err Obj :=
  match shape with
  | [] => .error .assertion
  | v :: _ =>
    if v.isInt then .ok ⟨shape, contiguous⟩
    else
      match v with
      | .seq [] => .error .index
      | .seq (u :: us) => if u.isInt then .ok ⟨u :: us, contiguous⟩ else .error .assertion
      | _ => .error .assertion

/-- A size as torch reads it; `none` is `-1`. -/
def size : Val → Except Err (Option Nat)
  | .int i => if 0 ≤ i then .ok (some i.toNat) else if i = -1 then .ok none else .error .runtime
  | _ => .error .type

variable {F : Type} [Zero F]

/-- No number. -/
def Val.odd : Val → Bool
  | .int _ => false
  | _ => true

/-- Types are checked before values. -/
def sizes (l : List Val) : Except Err (List (Option Nat)) := if l.any Val.odd then .error .type else l.mapM size

/-- `forward`: shape.py:48-53.  The clip must have a time axis before its shape is used. -/
def Obj.forward (o : Obj) (x : Tensor F) : Except Err (Tensor F) :=
  match x.shape[2]? with
  | none => .error .index
  | some _ =>
    match sizes o.shape with
    | .error e => .error e
    | .ok s => ReshapeNd.forward s x

/-- `forward_step`: shape.py:58-65. -/
def Obj.forwardStep (o : Obj) (x : Tensor F) : Except Err (Tensor F) :=
  match sizes o.shape with
  | .error e => .error e
  | .ok s => ReshapeNd.forwardStep s x

end CoInf.ReshapeArgs
