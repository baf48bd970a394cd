/-
Hooks (`register_forward_pre_hook`, `register_forward_hook`) in calls of networks: `CoModule._call_impl`
(/repo/continual/module.py:341-415), modules made by `forward_stepping` (/repo/continual/convert.py:99-114), whose class
inherits `__call__` from `torch.nn.Module`, and the places where containers bypass `__call__` (/repo/continual/container.py:58-61,
1041-1072).

The functions below are those of `Verif.Model.CallMode` with the rounds of hooks added to the trace.  Hooks registered
for all modules of the process and backward hooks are left out.
-/
import Verif.Model.CallMode

set_option autoImplicit false

namespace CoInf.Hooks
open CallMode

/-- What happens in a call: the pre-hooks of an object are run, a leaf module executes a method, the hooks of an object are
run. -/
inductive Ev where
  | pre (i : Nat)
  | run (i : Nat) (M : Mode)
  | post (i : Nat)
  deriving DecidableEq, Repr

/-- The object. -/
def Ev.id : Ev → Nat
  | .pre i | .run i _ | .post i => i

/-- Outcome of a call. -/
structure Out where
  trace : List Ev
  err : Option Err
  modes : Modes

/-- A leaf executes a method. -/
def perform (i : Nat) (bad : Bool) (M : Mode) (σ : Modes) : Out :=
  ⟨[.run i M], if bad then some .runtime else none, σ⟩

/-- `_call_impl` around the method: module.py:367-395.  If the method raises, the forward hooks are not reached. -/
def around (i : Nat) (r : Out) : Out :=
  match r.err with
  | some e => ⟨.pre i :: r.trace, some e, r.modes⟩
  | none => ⟨.pre i :: r.trace ++ [.post i], none, r.modes⟩

/-- The mode has been looked up before the hooks are run (module.py:347-353); the keyword arguments are bound when the method
is called (385), after the pre-hooks. -/
def impl (i : Nat) (kw : Mode) (σ : Modes) (d : Except Err Mode) (body : Mode → Out) : Out :=
  match d with
  | .error e => ⟨[], some e, σ⟩
  | .ok M => around i (if fits kw M then body M else ⟨[], some .type, σ⟩)

/-- `forward_with_callmode` of a module made by `forward_stepping`: convert.py:102-112.  In the modes for steps it calls
`CoModule._call_impl`. -/
def withMode (g : Ctx) (kw : Mode) (i : Nat) (b : Bool) (σ : Modes) : Out :=
  match naiveDispatch g (σ i) with
  | .ok .forward => if fits kw .forward then perform i b .forward σ else ⟨[], some .type, σ⟩
  | d => impl i kw σ d fun M => perform i b M σ

mutual
/-- The method `M` of a module, called directly: no hooks of the module itself. -/
def method (g : Ctx) (M : Mode) : Tree → Modes → Out
  | .leaf i b, σ => perform i b M σ
  | .rnn i b, σ => perform i b M σ
  | .naive i b, σ =>
    match M with
    | .forward => withMode g .forward i b σ
    | M => perform i b M σ
  | .box raw _ cs, σ => children g M raw cs σ
  | .cond _ c, σ =>
    match M with
    | .forward => invoke g .forward c σ
    | M => method g M c σ
  | .condId _, σ => ⟨[], none, σ⟩

/-- `m(input, **kwargs)`, see `CallMode.invoke`.  A module made by `forward_stepping` is called through
`torch.nn.Module.__call__`, which runs the hooks around `forward_with_callmode`. -/
def invoke (g : Ctx) (kw : Mode) : Tree → Modes → Out
  | .rnn i b, σ =>
    if kw = .forward then perform i b .forward σ
    else impl i kw σ (dispatch g (σ i)) fun M => perform i b M σ
  | .naive i b, σ => around i (withMode g kw i b σ)
  | .leaf i b, σ => impl i kw σ (dispatch g (σ i)) fun M => perform i b M σ
  | .box raw i cs, σ =>
    match dispatch g (σ i) with
    | .error e => ⟨[], some e, σ⟩
    | .ok M => around i (if fits kw M then children g M raw cs σ else ⟨[], some .type, σ⟩)
  | .cond i c, σ =>
    match dispatch g (σ i) with
    | .error e => ⟨[], some e, σ⟩
    | .ok .forward => around i (if fits kw .forward then invoke g .forward c σ else ⟨[], some .type, σ⟩)
    | .ok M => around i (if fits kw M then method g M c σ else ⟨[], some .type, σ⟩)
  | .condId i, σ => impl i kw σ (dispatch g (σ i)) fun _ => ⟨[], none, σ⟩

/-- The loops over the children, see `CallMode.children`. -/
def children (g : Ctx) (M : Mode) (raw : Bool) : List Tree → Modes → Out
  | [], σ => ⟨[], none, σ⟩
  | c :: cs, σ =>
    let r := invoke g M c (assign (childMode raw M) c σ)
    match r.err with
    | some e => ⟨r.trace, some e, r.modes⟩
    | none =>
      let r' := children g M raw cs (assign (σ c.id) c r.modes)
      ⟨r.trace ++ r'.trace, r'.err, r'.modes⟩
end

/-- What a chain of modules computes: `f i M` is the method `M` of module `i`, `pre i` and `post i` are what the hooks of
module `i` make of input and output. -/
def value {V : Type} (f : Nat → Mode → V → V) (pre post : Nat → V → V) : List Ev → V → V
  | [], x => x
  | .pre i :: es, x => value f pre post es (pre i x)
  | .run i M :: es, x => value f pre post es (f i M x)
  | .post i :: es, x => value f pre post es (post i x)

end CoInf.Hooks
