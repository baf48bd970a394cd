/-
Model of call modes: /repo/continual/module.py:34-92 (`_callmode`, `_CallModeContext`), 329-355 (`call_mode` property,
`_call_impl`), /repo/continual/utils.py:40-58 (`temporary_parameter`), the dispatching methods of the containers in
/repo/continual/container.py, and `forward_stepping` (/repo/continual/convert.py:99-114).

Only the dispatch is modelled here, not the data: the observable of a run is which leaf module executed which of its
three methods, in order.
-/
import Verif.Model.Core

set_option autoImplicit false

namespace CoInf.CallMode

/-- The three methods. -/
inductive Mode where
  | forward
  | steps
  | step
  deriving DecidableEq, Repr

/-- Values of the attribute `call_mode`: module.py:34-38.  The modes are tensors and serve as dictionary keys
(module.py:348-353); torch hashes tensors by identity, so an equal tensor that is another object (e.g. a deep copy) is
not found in the dictionary.  A plain string can only be stored in modules without the property setter. -/
inductive MV where
  | tok (m : Mode)    -- one of the three objects in `CALL_MODES`
  | copy (m : Mode)   -- an equal tensor that is another object
  | str (m : Mode)    -- the name of the mode
  deriving DecidableEq, Repr

/-- Arguments of `co.call_mode(...)` and of the property setter. -/
inductive Arg where
  | val (v : MV)
  | unknown           -- a string that is not the name of a mode
  | int               -- a Python integer
  deriving DecidableEq, Repr

/-- `_callmode`: module.py:41-54.  For an integer, `torch.tensor(int)` is called on the *type* `int`. -/
def callmode : Arg → Except Err MV
  | .val (.str m) => .ok (.tok m)
  | .val v => .ok v
  | .unknown => .error .key
  | .int => .error .runtime

/-- `_callmode` on values that are modes. -/
def norm : MV → MV
  | .str m => .tok m
  | v => v

/-- The global `call_mode = _CallModeContext()`: module.py:75-92. -/
structure Ctx where
  cur : Option MV
  prev : Option MV
  deriving DecidableEq, Repr

/-- `__init__`: module.py:75-77 -/
def Ctx.init : Ctx := ⟨some (.tok .forward), none⟩

/-- `__call__`: module.py:79-82.  `prev` is assigned before `_callmode(value)` may raise. -/
def Ctx.enter (g : Ctx) (a : Arg) : Ctx × Option Err :=
  match callmode a with
  | .ok v => (⟨some v, g.cur⟩, none)
  | .error e => (⟨g.cur, g.cur⟩, some e)

/-- `__exit__`: module.py:87-89; it returns `None`, so exceptions propagate. -/
def Ctx.exit (g : Ctx) : Ctx := ⟨g.prev, none⟩

/-- `call_mode.cur if call_mode.prev is not None else self.call_mode`: module.py:347, convert.py:103-107. -/
def effective (g : Ctx) (own : MV) : Option MV := if g.prev.isSome then g.cur else some own

/-- The dictionary lookup of `_call_impl`: module.py:348-353 (no tracing). -/
def lookup : Option MV → Except Err Mode
  | some (.tok m) => .ok m
  | _ => .error .key

/-- Which method `module(...)` calls for a `CoModule` whose attribute is `own`. -/
def dispatch (g : Ctx) (own : MV) : Except Err Mode := lookup (effective g own)

/-- `forward_with_callmode` of a module made by `forward_stepping`: convert.py:102-110.  The first test compares tensors by
value (a string is unequal to every tensor); otherwise `CoModule._call_impl` looks the mode up. -/
def naiveDispatch (g : Ctx) (own : MV) : Except Err Mode :=
  match effective g own with
  | some (.copy .forward) => .ok .forward
  | v => lookup v

/-! ### Programs that use the context manager -/

/-- A Python program as far as contexts are concerned: calls of modules (with their own `call_mode`), `with` blocks,
`raise`, `try: ... except: pass`. -/
inductive Prog where
  | done
  | call (own : Mode) (rest : Prog)
  | within (a : Arg) (body rest : Prog)
  | raise
  | attempt (body rest : Prog)

/-- Run a program: the modes that were executed, whether an exception escaped, the context afterwards. -/
def exec : Ctx → Prog → List Mode × Bool × Ctx
  | g, .done => ([], false, g)
  | g, .call own rest =>
    match dispatch g (.tok own) with
    | .error _ => ([], true, g)
    | .ok m => let (ms, r, g') := exec g rest; (m :: ms, r, g')
  | g, .within a body rest =>
    match g.enter a with
    | (g1, some _) => ([], true, g1)
    | (g1, none) =>
      let (ms, r, g2) := exec g1 body
      if r then (ms, true, g2.exit)
      else let (ms', r', g3) := exec g2.exit rest; (ms ++ ms', r', g3)
  | g, .raise => ([], true, g)
  | g, .attempt body rest =>
    let (ms, _, g1) := exec g body
    let (ms', r', g2) := exec g1 rest
    (ms ++ ms', r', g2)

/-! ### Module trees -/

/-- Modules by the way they dispatch.  `id` identifies the Python object; `bad` modules raise when executed.
* `leaf`: a continual module without children;
* `rnn`: a recurrent module, for which `apply_forward` bypasses `__call__` (container.py:58-61);
* `naive`: made by `forward_stepping`;
* `box raw`: `Sequential`, `Parallel` (`raw = false`) or `BroadcastReduce`, `Residual` (`raw = true`);
* `cond`: a `Conditional`, with the branch that its predicate selects for the input at hand;
* `condId`: a `Conditional` that selects the missing second branch. -/
inductive Tree where
  | leaf (id : Nat) (bad : Bool)
  | rnn (id : Nat) (bad : Bool)
  | naive (id : Nat) (bad : Bool)
  | box (raw : Bool) (id : Nat) (cs : List Tree)
  | cond (id : Nat) (c : Tree)
  | condId (id : Nat)

/-- The Python object of a module. -/
def Tree.id : Tree → Nat
  | .leaf i _ | .rnn i _ | .naive i _ | .box _ i _ | .cond i _ | .condId i => i

/-- The attributes `call_mode` of all objects. -/
abbrev Modes := Nat → MV

def setAttr (σ : Modes) (i : Nat) (v : MV) : Modes := fun j => if j = i then v else σ j

mutual
/-- The assignment `m.call_mode = v`: the property setter (module.py:333-339) normalises the value and, for modules with
`__len__` (the `nn.Sequential` based containers, not `Conditional`), assigns it to the children; modules made by
`forward_stepping` have a plain attribute. -/
def assign (v : MV) : Tree → Modes → Modes
  | .leaf i _, σ => setAttr σ i (norm v)
  | .rnn i _, σ => setAttr σ i (norm v)
  | .naive i _, σ => setAttr σ i v
  | .box _ i cs, σ => assignAll (norm v) cs (setAttr σ i (norm v))
  | .cond i _, σ => setAttr σ i (norm v)
  | .condId i, σ => setAttr σ i (norm v)

def assignAll (v : MV) : List Tree → Modes → Modes
  | [], σ => σ
  | c :: cs, σ => assignAll v cs (assign v c σ)
end

/-- Outcome of a call: executed methods of leaf modules, the exception if one was raised, attributes afterwards. -/
structure Out where
  trace : List (Nat × Mode)
  err : Option Err
  modes : Modes

/-- A leaf executes a method. -/
def perform (i : Nat) (bad : Bool) (M : Mode) (σ : Modes) : Out :=
  ⟨[(i, M)], if bad then some .runtime else none, σ⟩

/-- Does a method `M` take the keyword arguments that are meant for method `kw`?  `forward(input)`,
`forward_step(input, update_state)`, `forward_steps(input, pad_end, update_state)`. -/
def fits : Mode → Mode → Bool
  | .forward, _ => true
  | .step, .forward => false
  | .step, _ => true
  | .steps, .steps => true
  | .steps, _ => false

/-- Binding the keyword arguments: Python raises `TypeError` if the method does not take them. -/
def accept (kw : Mode) : Except Err Mode → Except Err Mode
  | .ok M => if fits kw M then .ok M else .error .type
  | .error e => .error e

/-- The value assigned to the children: container.py:329, 338, 345, 635, 642, 673 (`_callmode(...)`) and 874, 884, 893
(`BroadcastReduce`: the string). -/
def childMode (raw : Bool) (M : Mode) : MV := if raw then .str M else .tok M

mutual
/-- The method `M` of a module: `m.forward(...)`, `m.forward_steps(...)`, `m.forward_step(...)`.
Containers: container.py:326-347, 633-677, 871-896; `Conditional`: container.py:1041-1070, whose `forward` calls the
branch through `__call__` (`apply_forward`) and whose other methods call the method of the branch directly. -/
def method (g : Ctx) (M : Mode) : Tree → Modes → Out
  | .leaf i b, σ => perform i b M σ
  | .rnn i b, σ => perform i b M σ
  | .naive i b, σ =>
    match M with
    | .forward =>
      match naiveDispatch g (σ i) with
      | .error e => ⟨[], some e, σ⟩
      | .ok M' => perform i b M' σ
    | M => perform i b M σ
  | .box raw _ cs, σ => children g M raw cs σ
  | .cond _ c, σ =>
    match M with
    | .forward => invoke g .forward c σ
    | M => method g M c σ
  | .condId _, σ => ⟨[], none, σ⟩

/-- `m(input, **kwargs)` with the keyword arguments that method `kw` takes.  For `kw = forward` the containers use
`apply_forward` (container.py:58-61), which calls `forward` of a recurrent module directly. -/
def invoke (g : Ctx) (kw : Mode) : Tree → Modes → Out
  | .rnn i b, σ =>
    if kw = .forward then perform i b .forward σ
    else match accept kw (dispatch g (σ i)) with
      | .error e => ⟨[], some e, σ⟩
      | .ok M => perform i b M σ
  | .naive i b, σ =>
    match accept kw (naiveDispatch g (σ i)) with
    | .error e => ⟨[], some e, σ⟩
    | .ok M => perform i b M σ
  | .leaf i b, σ =>
    match accept kw (dispatch g (σ i)) with
    | .error e => ⟨[], some e, σ⟩
    | .ok M => perform i b M σ
  | .box raw i cs, σ =>
    match accept kw (dispatch g (σ i)) with
    | .error e => ⟨[], some e, σ⟩
    | .ok M => children g M raw cs σ
  | .cond i c, σ =>
    match accept kw (dispatch g (σ i)) with
    | .error e => ⟨[], some e, σ⟩
    | .ok .forward => invoke g .forward c σ
    | .ok M => method g M c σ
  | .condId i, σ =>
    match accept kw (dispatch g (σ i)) with
    | .error e => ⟨[], some e, σ⟩
    | .ok _ => ⟨[], none, σ⟩

/-- The loops over the children: every child is called inside `temporary_parameter(m, "call_mode", ...)`
(utils.py:40-58), which reads the attribute, assigns the temporary value, and assigns the old value back - unless the
body raised, because there is no `try ... finally`. -/
def children (g : Ctx) (M : Mode) (raw : Bool) : List Tree → Modes → Out
  | [], σ => ⟨[], none, σ⟩
  | c :: cs, σ =>
    let r := invoke g M c (assign (childMode raw M) c σ)
    match r.err with
    | some e => ⟨r.trace, some e, r.modes⟩
    | none =>
      let r' := children g M raw cs (assign (σ c.id) c r.modes)
      ⟨r.trace ++ r'.trace, r'.err, r'.modes⟩
end

end CoInf.CallMode
