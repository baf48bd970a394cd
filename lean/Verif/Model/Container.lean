/-
Model of the containers of /repo/continual/container.py.

The containers set a child's `call_mode` and call the child; that this reaches the child's method of
the intended name (and when it does not) is the subject of `Verif.Model.CallMode`.  Here the child's
method is called directly.
-/
import Verif.Model.Delay

namespace CoInf

/-- Members of a `Sequential`: container.py:609-628.  A `Sequential` without members is not
modelled (its geometry attributes raise `IndexError`). -/
inductive Chain : Sig → Sig → Type 1 where
  | single {I O : Sig} (m : CoMod I O) : Chain I O
  | cons {I J O : Sig} (m : CoMod I J) (c : Chain J O) : Chain I O

namespace Chain

/-- Attributes of the members. -/
@[reducible] def Inst : {I O : Sig} → Chain I O → Type
  | _, _, single m => m.Inst
  | _, _, cons m c => m.Inst × c.Inst

/-- State list of `_forward_step`: one optional state per member (container.py:651-652). -/
@[reducible] def St : {I O : Sig} → Chain I O → Type
  | _, _, single m => Option m.St
  | _, _, cons m c => Option m.St × c.St

/-- The members after construction. -/
def init : {I O : Sig} → (c : Chain I O) → c.Inst
  | _, _, single m => m.init
  | _, _, cons m c => (m.init, c.init)

/-- `clean_state`: container.py:714-717. -/
def clean : {I O : Sig} → (c : Chain I O) → c.Inst → c.Inst
  | _, _, single m, i => m.clean i
  | _, _, cons m c, i =>
    let i : m.Inst × c.Inst := i
    (m.clean i.1, clean c i.2)

/-- `forward`: container.py:633-637. -/
def fwd : {I O : Sig} → (c : Chain I O) → c.Inst → I.Clip → Except Err (O.Clip × c.Inst)
  | _, _, single m, i, x => m.fwd i x
  | _, _, cons m c, i, x =>
    let i : m.Inst × c.Inst := i
    do
    let (y, i1) ← m.fwd i.1 x
    let (z, i2) ← fwd c i.2 y
    return (z, (i1, i2))

/-- `forward_step`: container.py:639-648; stops at the first member that gives `None`. -/
def step : {I O : Sig} → (c : Chain I O) → c.Inst → Bool → I.Step →
    Except Err (Option O.Step × c.Inst)
  | _, _, single m, i, u, x => m.step i u x
  | _, _, cons m c, i, u, x =>
    let i : m.Inst × c.Inst := i
    do
    let (o, i1) ← m.step i.1 u x
    match o with
    | none => return (none, (i1, i.2))
    | some y =>
      let (z, i2) ← step c i.2 u y
      return (z, (i1, i2))

/-- `forward_steps`: container.py:668-677; `None` from a member is returned before the next member
is called.  (`len(input) == 0` concerns an empty batch.) -/
def steps : {I O : Sig} → (c : Chain I O) → c.Inst → (padEnd upd : Bool) → I.Clip →
    Except Err (Option O.Clip × c.Inst)
  | _, _, single m, i, p, u, x => m.steps i p u x
  | _, _, cons m c, i, p, u, x =>
    let i : m.Inst × c.Inst := i
    do
    let (o, i1) ← m.steps i.1 p u x
    match o with
    | none => return (none, (i1, i.2))
    | some y =>
      let (z, i2) ← steps c i.2 p u y
      return (z, (i1, i2))

/-- `[None for _ in range(len(self))]`: container.py:651. -/
def noneSt : {I O : Sig} → (c : Chain I O) → c.St
  | _, _, single _ => none
  | _, _, cons _ c => (none, noneSt c)

/-- The loop of `_forward_step`: container.py:653-658. -/
def pstepAll : {I O : Sig} → (c : Chain I O) → I.Step → c.St → Except Err (Option O.Step × c.St)
  | _, _, single m, x, s => m.pstep x s
  | _, _, cons m c, x, s =>
    let s : Option m.St × c.St := s
    do
    let (o, s1) ← m.pstep x s.1
    match o with
    | none => return (none, (s1, s.2))
    | some y =>
      let (z, s2) ← pstepAll c y s.2
      return (z, (s1, s2))

/-- `_forward_step`: container.py:650-658. -/
def pstep {I O : Sig} (c : Chain I O) (x : I.Step) (s : Option c.St) :
    Except Err (Option O.Step × Option c.St) := do
  let (o, s') ← c.pstepAll x (s.getD c.noneSt)
  return (o, some s')

/-- Geometry attributes of a member: `(receptive_field, stride[0], padding[0])`. -/
structure Geo where
  rf : Nat
  stride : Nat
  padding : Nat
  deriving DecidableEq, Repr

/-- The geometry of all members, in order. -/
def geos : {I O : Sig} → Chain I O → List Geo
  | _, _, single m => [⟨m.rf, m.stride, m.padding⟩]
  | _, _, cons m c => ⟨m.rf, m.stride, m.padding⟩ :: geos c

/-- `receptive_field`: container.py:679-687.  A loop over the reversed members. (Python's
subtraction never goes below zero here because receptive fields are at least one.) -/
def rfOf (gs : List Geo) : Nat :=
  match gs.reverse with
  | [] => 0
  | g :: rest => rest.foldl (fun rf m => m.stride * rf + m.rf - m.stride) g.rf

/-- `stride`: container.py:689-694. -/
def strideOf (gs : List Geo) : Nat := gs.foldl (fun tot m => tot * m.stride) 1

/-- `padding`: container.py:696-704. -/
def paddingOf (gs : List Geo) : Nat :=
  match gs with
  | [] => 0
  | g :: rest =>
    (rest.foldl (fun (a : Nat × Nat) m => (a.1 + m.padding * a.2, a.2 * m.stride))
      (g.padding, g.stride)).1

end Chain

/-- `Sequential`: container.py:558-726.  `delay` is inherited: module.py:188-190. -/
@[reducible] def Sequential.mod {I O : Sig} (c : Chain I O) : CoMod I O where
  Inst := c.Inst
  init := c.init
  clean := c.clean
  fwd := c.fwd
  step := c.step
  steps := c.steps
  St := c.St
  pstep := c.pstep
  rf := Chain.rfOf c.geos
  stride := Chain.strideOf c.geos
  padding := Chain.paddingOf c.geos
  delay := (Chain.rfOf c.geos : Int) - 1 - Chain.paddingOf c.geos

end CoInf
