/-
What the graph of autograd says, independently of the engine.
-/
import Verif.Model.Grad

set_option autoImplicit false

/-! ### Kinds of networks -/

namespace CoInf.Grad

/-- Modules that do not write into what they saved: all but max pooling of a view of the buffer. -/
def Kind.Tame : Kind → Prop
  | .pool _ _ _ _ m _ _ c => m = true → c = true
  | _ => True

/-- Networks of such modules. -/
def Net.Tame : Net → Prop
  | .one k => k.Tame
  | .seq a b => a.Tame ∧ b.Tame
  | .sum _ a b => a.Tame ∧ b.Tame

/-- Modules with a state. -/
def Kind.stateful : Kind → Bool
  | .layer _ _ => false
  | _ => true

/-- Modules with weights and a state. -/
def Kind.heavy : Kind → Bool
  | .conv .. => true
  | .single .. => true
  | .retro _ => true
  | _ => false

/-- A `Delay` is at least one step long (`Delay(0)` hands its input over). -/
def Kind.Fine : Kind → Prop
  | .delay d _ _ => 1 ≤ d
  | _ => True

/-- So are those of a network. -/
def Net.Fine : Net → Prop
  | .one k => k.Fine
  | .seq a b => a.Fine ∧ b.Fine
  | .sum _ a b => a.Fine ∧ b.Fine

/-- Networks of layers without state. -/
def Net.Light : Net → Prop
  | .one k => k.stateful = false
  | .seq a b => a.Light ∧ b.Light
  | .sum _ a b => a.Light ∧ b.Light

/-- Networks in which a member with a state comes after layers only (on one branch). -/
inductive Keeps : Net → Prop
  | one {k : Kind} (h : k.stateful = true) : Keeps (.one k)
  | seq {a b : Net} (h : Keeps a) : Keeps (.seq a b)
  | layer {w o : Bool} {b : Net} (h : Keeps b) : Keeps (.seq (.one (.layer w o)) b)
  | sumL {m : Bool} {a b : Net} (h : Keeps a) : Keeps (.sum m a b)
  | sumR {m : Bool} {a b : Net} (h : Keeps b) : Keeps (.sum m a b)

/-- Networks in which moreover this member has weights, or a layer before it. -/
inductive Remembers : Net → Prop
  | one {k : Kind} (h : k.heavy = true) : Remembers (.one k)
  | seq {a b : Net} (h : Remembers a) : Remembers (.seq a b)
  | layer {w o : Bool} {b : Net} (h : Remembers b) : Remembers (.seq (.one (.layer w o)) b)
  | weights {o : Bool} {b : Net} (h : Keeps b) : Remembers (.seq (.one (.layer true o)) b)
  | sumL {m : Bool} {a b : Net} (h : Remembers a) : Remembers (.sum m a b)
  | sumR {m : Bool} {a b : Net} (h : Remembers b) : Remembers (.sum m a b)

/-- The number of tensors that the members of a network keep. -/
def Net.slots : Net → Nat
  | .one (.layer _ _) => 0
  | .one (.conv ..) => 1
  | .one (.pool ..) => 1
  | .one (.delay ..) => 1
  | .one (.single ..) => 3
  | .one (.retro _) => 5
  | .seq a b => a.slots + b.slots
  | .sum _ a b => a.slots + b.slots

end CoInf.Grad

namespace CoInf.Spec

open CoInf.Grad

/-- The nodes that gradients from `roots` arrive at. -/
inductive Arrives (L : List Node) (roots : List Nat) : Nat → Prop
  | root {i : Nat} (h : i ∈ roots) : Arrives L roots i
  | step {i j : Nat} {n : Node} (h : Arrives L roots i) (hn : nodeAt L i = some n) (hj : j ∈ n.ins) : Arrives L roots j

/-- Gradients of the tensor `t` arrive at node `c`. -/
def Hits (L : List Node) (t : Ten) (c : Nat) : Prop :=
  t.req = true ∧ ∃ i, t.fn = some i ∧ Arrives L [i] c

/-- The storage `m` is kept alive by one of the tensors `ts`: it was saved for the backward pass by a node that `ts`
refer to. -/
def HeldBy (L : List Node) (ts : List Ten) (m : Nat) : Prop :=
  ∃ t ∈ ts, ∃ c n, Hits L t c ∧ nodeAt L c = some n ∧ m ∈ n.saved.map Prod.fst

/-- A program of the caller: training on one clip of `n` frames after the other with `clean_state`, the steps of the
stream, `backward` from the outputs (unless none requires grad), `optimizer.step()`. -/
def train (net : Grad.Net) : List Nat → Inst × Graph → Except Err (Inst × Graph)
  | [], p => .ok p
  | n :: ns, (i, g) =>
    let S := net.stream n i.clean g
    if S.1.any Ten.req then
      match S.2.2.backward false S.1 with
      | .error e => .error e
      | .ok g' => train net ns (S.2.1, g'.update S.2.1.params)
    else train net ns (S.2.1, S.2.2)

/-- A program of the caller: `backward` and `optimizer.step()` after each of `n` frames (unless there is no output that
requires grad). -/
def online (net : Grad.Net) : Nat → Inst × Graph → Except Err (Inst × Graph)
  | 0, p => .ok p
  | n + 1, (i, g) =>
    let S := net.stream 1 i g
    if S.1.any Ten.req then
      match S.2.2.backward false S.1 with
      | .error e => .error e
      | .ok g' => online net n (S.2.1, g'.update S.2.1.params)
    else online net n (S.2.1, S.2.2)

end CoInf.Spec
