/-
What `repr` shows of the functions in `Lambda` and `Conditional`.

/repo/continual/utils.py:201-232 (`function_repr`), used in closure.py:94-109 and container.py:1088-1089.
-/
import Verif.Model.Core
import Mathlib.Data.List.Infix

set_option autoImplicit false

namespace CoInf.Repr

/-- What a function object is to `function_repr`. -/
inductive Fn where
  | none
  /-- an `nn.Module` with its `__repr__()` -/
  | module (repr : List Char)
  /-- `functools.partial` of a function -/
  | partialOf (fn : Fn)
  /-- a function defined by `def` -/
  | named (name : List Char)
  /-- a lambda; `source` is what `inspect.getsource` returns: the lines of the statement in which it was written -/
  | lambda (source : List Char)
  /-- another callable object, without an attribute `__name__` -/
  | object

/-- `str.find` of Python: the first position, or -1. -/
def find (pat : List Char) : List Char → Nat → Int
  | [], i => if pat = [] then i else -1
  | c :: cs, i => if pat <+: c :: cs then i else find pat cs (i + 1)

/-- `s[i:]` of Python. -/
def from' (s : List Char) (i : Int) : List Char := s.drop (if i < 0 then (s.length + i).toNat else i.toNat)

/-- `s[:i]` of Python. -/
def upTo (s : List Char) (i : Int) : List Char := s.take (if i < 0 then (s.length + i).toNat else i.toNat)

/-- The loop, utils.py:220-228: the value of `i` after it. -/
def scan : Int → Int → List Char → Int
  | i, _, [] => i
  | i, stack, c :: cs =>
    let stack := if c = '(' then stack + 1 else if c = ')' then stack - 1 else stack
    if (stack = 0 ∧ c = ',') ∨ (stack = -1 ∧ c = ')') then i + 1 else scan (i + 1) stack cs

/-- `str.isspace` of a character, as far as it concerns source code. -/
def blank (c : Char) : Bool := c = ' ' || c = '\n' || c = '\t' || c = '\r'

/-- `str.rstrip`. -/
def rstrip (s : List Char) : List Char := (s.reverse.dropWhile blank).reverse

/-- The text of a lambda, utils.py:211-231. -/
def lambdaText (source : List Char) : List Char :=
  let s := from' source (find "lambda".toList source 0)
  let i := find [':'] s 0
  rstrip (upTo s (scan i 0 (from' s (i + 1))))

/-- `function_repr`.  For a partial only its function is looked at (utils.py:208-210); the name of a lambda is `<lambda>`. -/
def functionRepr : Fn → Except Err (List Char)
  | .none => .ok []
  | .module r => .ok r
  | .named n => .ok n
  | .lambda src => .ok (lambdaText src)
  | .object => .error .attribute
  | .partialOf fn => match fn with
    | .named n => .ok n
    | .lambda src => .ok (lambdaText src)
    | _ => .error .attribute

/-- `Lambda.__repr__`, closure.py:94-109 (`callable(f)` is that a function was given). -/
def lambdaRepr (fn fo fs fss : Option Fn) (takesTime : Bool) : Except Err (List Char) := do
  let s := "Lambda(".toList
  let s ← match fn with
    | some f => do pure (s ++ (← functionRepr f))
    | none => pure s
  let s ← match fo with
    | some f => do
      let s := if fn.isSome then s ++ ", ".toList else s
      pure (s ++ (← functionRepr f))
    | none => pure s
  let s ← match fs with
    | some f => do pure (s ++ ", ".toList ++ (← functionRepr f))
    | none => pure s
  let s ← match fss with
    | some f => do pure (s ++ ", ".toList ++ (← functionRepr f))
    | none => pure s
  let s := if takesTime then s ++ ", takes_time=True".toList else s
  pure (s ++ ")".toList)

end CoInf.Repr
