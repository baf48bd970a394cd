/-
What `forward_stepping` does to the module object it is given: the attributes it sets, and the module's own `forward` behind
`forward_with_callmode`, with positional and keyword arguments.

/repo/continual/convert.py:38-114, module.py:125-166 (`is_valid`).  The step methods are in `Verif.Model.NaiveNd` and
`Verif.Model.Closure`; here the call mode is `forward`.
-/
import Verif.Model.Core

set_option autoImplicit false

namespace CoInf.Enhance
variable {V Y : Type}

/-- Values of the attributes `stride` and `padding` of a module: a number (`nn.MaxPool2d(2).stride`), a sequence of numbers, a
string (`padding="same"`), a tuple of one-letter strings. -/
inductive Attr where
  | num (n : Nat)
  | seq (l : List Nat)
  | str (s : List Char)
  | letters (s : List Char)
  deriving DecidableEq

/-- `tuple(v)`: numbers are not iterable. -/
def Attr.tuple : Attr → Except Err Attr
  | .num _ => .error .type
  | .seq l => .ok (.seq l)
  | .str s => .ok (.letters s)
  | .letters s => .ok (.letters s)

/-- The attributes that `forward_stepping` sets besides `stride` and `padding`, in three groups, by the place in the source:
convert.py:83-87; 90-95; 98-112. -/
structure Marks where
  steps : Bool
  state : Bool
  wrapped : Bool
  deriving DecidableEq

/-- A module: the parameters of its `forward` with their defaults, the body of `forward`, which finds the attributes `stride` and
`padding` in the object, these attributes, and the marks of `forward_stepping`. -/
structure Mod (V Y : Type) where
  params : List (String × Option V)
  body : Option Attr → Option Attr → List V → Except Err Y
  stride : Option Attr
  padding : Option Attr
  marks : Marks

/-- The arguments for the parameters that were not given by position: by keyword, then by default, otherwise `TypeError`. -/
def bindRest (kwargs : List (String × V)) : List (String × Option V) → Except Err (List V)
  | [] => .ok []
  | (p, dflt) :: ps =>
    match kwargs.lookup p, dflt with
    | some v, _ => (bindRest kwargs ps).map (v :: ·)
    | none, some v => (bindRest kwargs ps).map (v :: ·)
    | none, none => .error .type

/-- Python's rules for `f(*args, **kwargs)`: `TypeError` for too many arguments, a keyword that is not a parameter or was given by
position already, a missing argument. -/
def bind (params : List (String × Option V)) (args : List V) (kwargs : List (String × V)) : Except Err (List V) :=
  if params.length < args.length then .error .type
  else
    let rest := params.drop args.length
    if kwargs.all fun kv => rest.any fun p => p.1 == kv.1 then (bindRest kwargs rest).map (args ++ ·) else .error .type

/-- The module's own `forward(*args, **kwargs)`. -/
def own (m : Mod V Y) (args : List V) (kwargs : List (String × V)) : Except Err Y := do
  let vs ← bind m.params args kwargs
  m.body m.stride m.padding vs

/-- `m(*args, **kwargs)` in the call mode `forward`: torch runs the attribute `forward`, which for a wrapped module is
`forward_with_callmode`.  That one calls `orig_forward(*args, *kwargs)`, convert.py:109; iterating over a dictionary gives its
keys, and `name` makes a Python value of a string. -/
def call (name : String → V) (m : Mod V Y) (args : List V) (kwargs : List (String × V)) : Except Err Y :=
  if m.marks.wrapped then own m (args ++ kwargs.map fun kv => name kv.1) [] else own m args kwargs

/-- `forward_stepping(module)`: the object afterwards, and the exception if one was raised.  convert.py:81-114. -/
def forwardStepping (m : Mod V Y) : Mod V Y × Option Err :=
  let m := { m with marks := { m.marks with steps := true } }
  match (m.stride.getD (.seq [1])).tuple with
  | .error e => (m, some e)
  | .ok s =>
    let m := { m with stride := some s }
    match (m.padding.getD (.seq [0])).tuple with
    | .error e => (m, some e)
    | .ok p => ({ m with padding := some p, marks := { m.marks with state := true, wrapped := true } }, none)

/-- `CoModule.is_valid(module)` for a module of torch: module.py:125-166.  Without `get_state` (third group of functions) or with
an attribute `stride` or `padding` that is missing it is not valid. -/
def isValid (m : Mod V Y) : Bool := m.marks.steps && m.marks.state && m.stride.isSome && m.padding.isSome

end CoInf.Enhance
