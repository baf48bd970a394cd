/-
Model of the flattened state dicts: /repo/continual/utils.py:61-172 (`flat_state_dict`, `state_dict`, `load_state_dict`)
and `FlattenableStateDict` (/repo/continual/container.py:109-132).
-/
import Verif.Model.Core
import Mathlib.Data.List.Dedup

set_option autoImplicit false

namespace CoInf.StateDict

/-- A key is the list of the parts between its dots.  (`torch` rejects names that are empty or contain a dot, so `".".join`
and `split(".")` are inverse to each other on keys.) -/
abbrev Key (P : Type) := List P

/-- An ordered dict.  The entries of a module's own dict have different keys. -/
abbrev Dict (P V : Type) := List (Key P × V)

variable {P V : Type} [DecidableEq P] (isdigit : P → Bool)

/-- `".".join(part for part in name.split(".") if not part.isdigit())`: utils.py:115, 156. -/
def short (k : Key P) : Key P := k.filter fun p => !isdigit p

/-- `len(set(l))`. -/
def distinct (l : List (Key P)) : Nat := l.dedup.length

/-- `state_dict(module, flatten)`: utils.py:87-123, on the dict `d` that torch returns.  (Flattening happens on the outermost
module only: nested modules fill the dict of the caller, and the dict they return is not used.) -/
def stateDict (d : Dict P V) (flatten : Bool) : Dict P V :=
  if flatten then
    let flat := d.map fun e => short isdigit e.1
    if distinct flat = d.length then flat.zip (d.map (·.2)) else d
  else d

/-- Look-up in a dict. -/
def get (d : Dict P V) (k : Key P) : Option V := d.lookup k

/-- `{short(key): key for key in long_keys}`: utils.py:155-158; the last key wins. -/
def short2long (ks : List (Key P)) (s : Key P) : Option (Key P) := ks.reverse.find? fun k => short isdigit k == s

/-- `torch.nn.Module.load_state_dict(module, state_dict, strict)`: `own` are the parameters before, the result those
after. -/
def torchLoad (own sd : Dict P V) (strict : Bool) : Except Err (Dict P V) :=
  if strict && !(own.all fun e => (get sd e.1).isSome) then .error .runtime
  else if strict && !(sd.all fun e => (get own e.1).isSome) then .error .runtime
  else .ok (own.map fun e => (e.1, (get sd e.1).getD e.2))

/-- `[(short2long[key], val) for key, val in state_dict.items() if strict or key in short2long]`: utils.py:160-166. -/
def remap (ks : List (Key P)) (strict : Bool) : Dict P V → Except Err (Dict P V)
  | [] => .ok []
  | e :: sd =>
    match short2long isdigit ks e.1 with
    | some k =>
      match remap ks strict sd with
      | .ok r => .ok ((k, e.2) :: r)
      | .error x => .error x
    | none => if strict then .error .key else remap ks strict sd

/-- `load_state_dict(module, state_dict, strict, flatten)`: utils.py:126-172. -/
def loadStateDict (own sd : Dict P V) (strict flatten : Bool) : Except Err (Dict P V) :=
  if flatten then
    let ks := own.map (·.1)
    if distinct (ks.map (short isdigit)) = sd.length then
      match remap isdigit ks strict sd with
      | .ok sd' => torchLoad own sd' strict
      | .error x => .error x
    else torchLoad own sd strict
  else torchLoad own sd strict

/-- Programs with `with co.flat_state_dict:` blocks; `use` is a call of `state_dict` or `load_state_dict` without the
`flatten` argument. -/
inductive Prog where
  | use
  | block (ps : List Prog)

mutual
/-- The flag of `_FlatStateDict` (utils.py:61-72): set on entry, cleared on exit.  Returns what the uses see and the flag
afterwards. -/
def exec : Prog → Bool → List Bool × Bool
  | .use, f => ([f], f)
  | .block ps, _ => ((execs ps true).1, false)
def execs : List Prog → Bool → List Bool × Bool
  | [], f => ([], f)
  | p :: ps, f => let (l, f') := exec p f; let (r, f'') := execs ps f'; (l ++ r, f'')
end

end CoInf.StateDict
