/-
`temporary_parameter` and the access to attributes by dotted names: /repo/continual/utils.py:28-58.

Simplifications: a dotted name is the list of its parts (`attr.split(".")`, `attr.rpartition(".")`); attributes are plain ones: looked up in
the object and then in its class, assigned in the object (attributes with setters, such as `call_mode`, are the subject of
`Verif.Model.CallMode`; the registries of `nn.Module` are left out).
-/
import Verif.Model.Core

set_option autoImplicit false

namespace CoInf.TempAttr

/-- The value of an attribute: an object, or something without attributes. -/
inductive Val (D : Type) where
  | obj (o : Nat)
  | data (d : D)

/-- The attributes of an object, and those of its class. -/
structure Obj (D : Type) where
  own : String → Option (Val D)
  cls : String → Option (Val D)

/-- All objects. -/
abbrev Heap (D : Type) := Nat → Obj D

variable {D : Type}

/-- `getattr(o, name)`. -/
def get (h : Heap D) (v : Val D) (name : String) : Except Err (Val D) :=
  match v with
  | .data _ => .error .attribute
  | .obj o =>
    match (h o).own name with
    | some v => .ok v
    | none =>
      match (h o).cls name with
      | some v => .ok v
      | none => .error .attribute

/-- The heap after an attribute of the object `o` itself was changed. -/
def write (h : Heap D) (o : Nat) (name : String) (v : Option (Val D)) : Heap D :=
  fun o' => if o' = o then { h o with own := fun n => if n = name then v else (h o).own n } else h o'

/-- `setattr(o, name, val)`. -/
def set (h : Heap D) (v : Val D) (name : String) (val : Val D) : Except Err (Heap D) :=
  match v with
  | .data _ => .error .attribute
  | .obj o => .ok (write h o name (some val))

/-- `delattr(o, name)`. -/
def del (h : Heap D) (v : Val D) (name : String) : Except Err (Heap D) :=
  match v with
  | .data _ => .error .attribute
  | .obj o =>
    match (h o).own name with
    | none => .error .attribute
    | some _ => .ok (write h o name none)

/-- `rgetattr(obj, attr)`: utils.py:33-37. -/
def rget (h : Heap D) (v : Val D) : List String → Except Err (Val D)
  | [] => .ok v
  | n :: ns =>
    match get h v n with
    | .error e => .error e
    | .ok v => rget h v ns

/-- A dotted name: the parts before the last dot, and the last part. -/
structure Name where
  pre : List String
  post : String

/-- `rsetattr(obj, attr, val)`: utils.py:28-30. -/
def rset (h : Heap D) (v : Val D) (a : Name) (val : Val D) : Except Err (Heap D) :=
  match rget h v a.pre with
  | .error e => .error e
  | .ok p => set h p a.post val

/-- What a block does: it reads attributes (by any name, starting at any object), raises, uses `temporary_parameter`, and so on in
sequence. -/
inductive Block (D : Type) where
  | done
  | read (o : Nat) (path : List String) (rest : Block D)
  | raise (e : Err)
  | temp (o : Nat) (a : Name) (val : Val D) (body rest : Block D)

/-- How a block ends: what was read, the heap, and the exception if there was one. -/
structure End (D : Type) where
  seen : List (Except Err (Val D))
  heap : Heap D
  exc : Option Err

/-- Something was read before. -/
def End.after (s : List (Except Err (Val D))) (e : End D) : End D := { e with seen := s ++ e.seen }

/-- Running a block; `temp` is `with temporary_parameter(o, a, val): body`: utils.py:40-58.  (Reads that raise are caught.) -/
def run : Block D → Heap D → End D
  | .done, h => ⟨[], h, none⟩
  | .read o path rest, h => (run rest h).after [rget h (.obj o) path]
  | .raise e, h => ⟨[], h, some e⟩
  | .temp o a val body rest, h =>
    match rget h (.obj o) (a.pre ++ [a.post]) with
    | .error .attribute =>
      -- `do_del = True`
      if a.pre ≠ [] then ⟨[], h, some .assertion⟩
      else
        match rset h (.obj o) a val with
        | .error e => ⟨[], h, some e⟩
        | .ok h1 =>
          let r := run body h1
          match r.exc with
          | some _ => r
          | none =>
            match del r.heap (.obj o) a.post with
            | .error e => ⟨r.seen, r.heap, some e⟩
            | .ok h2 => (run rest h2).after r.seen
    | .error e => ⟨[], h, some e⟩
    | .ok prev =>
      match rset h (.obj o) a val with
      | .error e => ⟨[], h, some e⟩
      | .ok h1 =>
        let r := run body h1
        match r.exc with
        | some _ => r
        | none =>
          match rset r.heap (.obj o) a prev with
          | .error e => ⟨r.seen, r.heap, some e⟩
          | .ok h2 => (run rest h2).after r.seen

end CoInf.TempAttr
