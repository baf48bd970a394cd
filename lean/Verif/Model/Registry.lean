/-
The classes that `register` and `CoModule` accept, and the choice of the conversion in `continual`:
/repo/continual/convert.py:38-114, 117-246, /repo/continual/module.py:101-167, 188-218, 294-312, 417-432.

Classes are modelled by what `getattr` finds: the namespaces of the method resolution order, each with the kinds of its values.
Attributes of metaclasses are not modelled.
-/
import Verif.Model.Core

set_option autoImplicit false

namespace CoInf.Registry

/-- What the checks tell apart among the values of attributes. -/
inductive Kind where
  /-- a function, bound method or static method -/
  | function
  | int
  | tensor
  | prop
  | tuple
  | list
  | none
  /-- anything else, callable or not -/
  | other (callable : Bool)
  deriving DecidableEq, Repr

/-- `callable(value)`. -/
def Kind.callable : Kind → Bool
  | .function => true
  | .other c => c
  | _ => false

abbrev Namespace := List (String × Kind)

/-- Names of the checked methods, module.py:127-141. -/
def methods : List String := ["forward_step", "forward_steps", "forward", "get_state", "set_state", "clean_state"]

/-- `getattr(cls, name, None)` along the method resolution order. -/
def getattr (name : String) : List Namespace → Kind
  | [] => .none
  | ns :: mro =>
    match ns.lookup name with
    | some k => k
    | Option.none => getattr name mro

/-- `CoModule._validate_class`, module.py:126-158. -/
def validateClass (mro : List Namespace) : Except Err Unit :=
  if ! methods.all fun fn => (getattr fn mro).callable then .error .assertion
  else if ! ["delay", "receptive_field"].all fun p => [Kind.int, .tensor, .prop].contains (getattr p mro) then .error .assertion
  else if ! ["stride", "padding", "_state_shape", "_dynamic_state_inds"].all fun p =>
      [Kind.int, .prop, .tuple, .list].contains (getattr p mro) then .error .assertion
  else .ok ()

/-- `CoModule.is_valid`, module.py:160-166. -/
def isValid (mro : List Namespace) : Bool :=
  match validateClass mro with
  | .ok _ => true
  | .error _ => false

/-- The namespace of `CoModule`: module.py:114-120, 168-432. -/
def coModule : Namespace :=
  [("receptive_field", .int), ("stride", .tuple), ("padding", .tuple), ("_make_padding", .function), ("_state_shape", .int),
   ("_dynamic_state_inds", .list), ("_call_mode", .tensor), ("get_state", .function), ("set_state", .function),
   ("clean_state", .function), ("delay", .prop), ("forward_step", .function), ("forward_steps", .function),
   ("_forward_steps_impl", .function), ("forward", .function), ("warm_up", .function), ("call_mode", .prop),
   ("_call_impl", .function), ("__call__", .function), ("build_from", .function)]

/-- `class X(...)` with `CoModule` among its bases: `__init_subclass__`, module.py:122-123.  `mro` begins with the class itself. -/
def defineClass (mro : List Namespace) : Except Err (List Namespace) := do
  validateClass mro
  return mro

/-- What a call of `forward` finds: the method of `CoModule` has no body and returns `None` (module.py:294-312).  `own` tells
whether a namespace is that of `CoModule`. -/
def forwardReturnsNone : List Namespace → Bool
  | [] => false
  | ns :: mro => if (ns.lookup "forward").isSome then ns == coModule else forwardReturnsNone mro

/-- `forward_step` of `CoModule`: module.py:213-217, up to the call of `self._forward_step`. -/
def forwardStep (mro : List Namespace) : Except Err Unit :=
  if (getattr "_forward_step" mro).callable then .ok ()
  else if getattr "_forward_step" mro = .none then .error .attribute else .error .type

/-- The attributes that `forward_stepping` puts on a module: convert.py:84-99, 112.  The values of `stride` and `padding` are
tuples. -/
def stepping : Namespace :=
  [("forward_steps", .function), ("forward_step", .function), ("_forward_step", .function), ("delay", .int),
   ("receptive_field", .int), ("stride", .tuple), ("padding", .tuple), ("build_from", .other true), ("get_state", .function),
   ("set_state", .function), ("clean_state", .function), ("_state_shape", .int), ("_dynamic_state_inds", .list),
   ("call_mode", .tensor), ("forward", .function)]

/-- A class that is offered for registration. -/
structure Cls where
  name : Nat
  mro : List Namespace
  deriving DecidableEq, Repr

section registry
variable {Ty : Type} [DecidableEq Ty]

/-- `MODULE_MAPPING`. -/
abbrev Mapping (Ty : Type) := List (Ty × Cls)

/-- Assignment to a key of a dictionary. -/
def assign (mapping : Mapping Ty) (t : Ty) (c : Cls) : Mapping Ty :=
  if mapping.any fun e => e.1 = t then mapping.map fun e => if e.1 = t then (t, c) else e else mapping ++ [(t, c)]

/-- `register`, convert.py:190-204. -/
def register (mapping : Mapping Ty) (t : Ty) (c : Cls) : Except Err (Mapping Ty) := do
  validateClass c.mro
  if (getattr "build_from" c.mro).callable then pure () else throw Err.assertion
  return assign mapping t c

/-- Calls of `register` one after the other; one that raises leaves the mapping as it was. -/
def registerAll (mapping : Mapping Ty) : List (Ty × Cls) → Mapping Ty
  | [] => mapping
  | (t, c) :: calls =>
    match register mapping t c with
    | .ok mapping' => registerAll mapping' calls
    | .error _ => registerAll mapping calls

/-- The tables of convert.py:120-161, 179-183. -/
structure Tables (Ty : Type) where
  naive : Ty → Bool
  conditional : Ty → Bool

/-- A module: its type, `isinstance(module, CoModule)`, whether it meets the condition on its type, its attributes. -/
structure Obj (Ty : Type) where
  ty : Ty
  co : Bool
  meets : Bool
  attrs : List Namespace

/-- Results of `continual`. -/
inductive Result where
  | same
  | enhanced
  /-- `build_from` of the class was called -/
  | built (c : Cls)
  deriving DecidableEq, Repr

/-- `continual`, convert.py:227-246. -/
def continual (tables : Tables Ty) (mapping : Mapping Ty) (m : Obj Ty) : Except Err Result :=
  if m.co then .ok .same
  else if tables.naive m.ty then .ok .enhanced
  else if tables.conditional m.ty then
    if m.meets then .ok .enhanced else .error .assertion
  else
    match mapping.lookup m.ty with
    | some c => .ok (.built c)
    | Option.none => .error .assertion

/-- `forward_stepping(module)`, convert.py:84-112: attributes are put on the object. -/
def enhance (m : Obj Ty) : Obj Ty := { m with attrs := stepping :: m.attrs }

end registry

end CoInf.Registry
