/-
Automatic conversion of the modules passed to containers: which attributes of a module the constructors read before they convert
it.

/repo/continual/container.py:135-142 (`co_add_module`), 263-305 (`Parallel`), 611-631 and 719-726 (`Sequential`), 800-846
(`BroadcastReduce`), 930-978 (`Residual`), 1006-1044 (`Conditional`); /repo/continual/module.py:125-166 (`is_valid`).
`continual` itself is in `Verif.Model.Convert`; here its result is a part of the object.
-/
import Verif.Model.Core
import Mathlib.Data.List.Dedup

set_option autoImplicit false

namespace CoInf.Adopt
variable {M : Type}

/-- A continual module, with the attributes that the constructors read: module.py:114-116, 188-190 (temporal components). -/
structure Co (M : Type) where
  mod : M
  delay : Int
  rf : Nat
  stride : Nat
  deriving DecidableEq

/-- What may be passed to a container:
* `co`: an instance of `CoModule`;
* `enhanced`: a module of torch that was passed to `forward_stepping` (convert.py:38-114) before; `again` is the result of
  `continual` on it, which looks at its type only (convert.py:224-248);
* `plain`: another module of torch, or a function, with its attribute `stride` if it has one (`num_from` of it), and the result
  of `continual`;
* `empty`: `co.Sequential()`, whose `delay` and `receptive_field` raise `IndexError` (container.py:677-684). -/
inductive Arg (M : Type) where
  | co (c : Co M)
  | enhanced (c : Co M) (again : Except Err (Co M))
  | plain (stride : Option Nat) (conv : Except Err (Co M))
  | empty

/-- The attribute `delay`. -/
def delay : Arg M → Except Err Int
  | .co c => .ok c.delay
  | .enhanced c _ => .ok c.delay
  | .plain _ _ => .error .attribute
  | .empty => .error .index

/-- `num_from(getattr(m, "stride", 1))`: container.py:291, 834, 951; utils.py:175-192. -/
def stride : Arg M → Nat
  | .co c => c.stride
  | .enhanced c _ => c.stride
  | .plain s _ => s.getD 1
  | .empty => 1

/-- `co_add_module`: container.py:135-142.  Objects that are not valid (module.py:125-166: plain ones lack `forward_step`) are
converted; looking at the `delay` of `co.Sequential()` raises, and `is_valid` catches `AssertionError` only. -/
def adopt : Arg M → Except Err (Co M)
  | .co c => .ok c
  | .enhanced c _ => .ok c
  | .plain _ conv => conv
  | .empty => .error .index

/-- `Sequential.__init__`: container.py:611-631. -/
def sequential (ms : List (Arg M)) : Except Err (List (Co M)) := ms.mapM adopt

/-- `Sequential.append`: container.py:719-726. -/
def append (cs : List (Co M)) (m : Arg M) : Except Err (List (Co M)) := (adopt m).map fun c => cs ++ [c]

/-- Members of the other containers: `Sequential(c, Delay(n))`, `Sequential(Delay(n), c)` and `Delay(n)` besides modules. -/
inductive Member (M : Type) where
  | mod (c : Co M)
  | after (c : Co M) (n : Nat)
  | before (n : Nat) (c : Co M)
  | delay (n : Nat)
  deriving DecidableEq

/-- A branch after the automatic delays are in place: container.py:277-288, 820-831. -/
inductive Branch (M : Type) where
  | raw (m : Arg M)
  | built (b : Member M)

/-- The stride of a branch.  `Sequential.stride` is the product of the members' (container.py:687-691), `Delay.stride` is one. -/
def Branch.stride : Branch M → Nat
  | .raw m => Adopt.stride m
  | .built (.mod c) => c.stride
  | .built (.after c _) => c.stride
  | .built (.before _ c) => c.stride
  | .built (.delay _) => 1

/-- `co_add_module` for a branch. -/
def Branch.adopt : Branch M → Except Err (Member M)
  | .raw m => (Adopt.adopt m).map .mod
  | .built b => .ok b

/-- `Sequential(module, Delay(max_delay - module.delay)) if module.delay < max_delay else module`: container.py:281-285. -/
def level (longest : Int) (m : Arg M) : Except Err (Branch M) := do
  let d ← delay m
  if d < longest then
    let c ← adopt m
    pure (.built (.after c (longest - d).toNat))
  else pure (.raw m)

/-- Automatic delays: container.py:275-288, 818-831.  `max` of nothing raises `ValueError`. -/
def levelled (ms : List (Arg M)) : Except Err (List (Branch M)) := do
  let ds ← ms.mapM delay
  match ds.max? with
  | none => .error .value
  | some longest => ms.mapM (level longest)

/-- The test of strides and the registration of the members: container.py:290-296, 833-839. -/
def register (bs : List (Branch M)) : Except Err (List (Member M)) :=
  if (bs.map Branch.stride).dedup.length = 1 then bs.mapM Branch.adopt else .error .assertion

/-- `Parallel.__init__`: container.py:263-296. -/
def parallel (autoDelay : Bool) (ms : List (Arg M)) : Except Err (List (Member M)) := do
  let bs ← if autoDelay then levelled ms else pure (ms.map .raw)
  register bs

/-- `BroadcastReduce.__init__`: container.py:800-839. -/
def broadcastReduce (autoDelay : Bool) (ms : List (Arg M)) : Except Err (List (Member M)) :=
  if 1 < ms.length then parallel autoDelay ms else .error .assertion

/-- `Residual` without `residual_shrink`: container.py:930-978.  `Delay` refuses negative numbers (delay.py:50). -/
def residual (m : Arg M) : Except Err (List (Member M)) := do
  if stride m = 1 then
    let d ← delay m
    if d < 0 then .error .assertion
    else register [.built (.delay d.toNat), .raw m]
  else .error .assertion

/-- `if not isinstance(on_true, CoModule): on_true = continual(on_true)`: container.py:1015-1018. -/
def convert : Arg M → Except Err (Arg M)
  | .co c => .ok (.co c)
  | .enhanced _ again => again.map .co
  | .plain _ conv => conv.map .co
  | .empty => .ok .empty

/-- `module if module.delay == self._delay else Sequential(Delay(self._delay - module.delay), module)`: container.py:1030-1044. -/
def lead (longest d : Int) (m : Arg M) : Except Err (Member M) := do
  let c ← adopt m
  pure (if d = longest then .mod c else .before (longest - d).toNat c)

/-- `Conditional.__init__`: container.py:1006-1044. -/
def conditional (onTrue : Arg M) (onFalse : Option (Arg M)) : Except Err (List (Member M)) := do
  let t ← convert onTrue
  match onFalse with
  | none =>
    let d ← delay t
    let a ← lead (max d 0) d t
    pure [a]
  | some f =>
    let f ← convert f
    let d ← delay t
    let d' ← delay f
    let a ← lead (max d d') d t
    let b ← lead (max d d') d' f
    pure [a, b]

end CoInf.Adopt
