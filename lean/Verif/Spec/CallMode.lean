/-
Specification of call modes: dynamically scoped overrides, and which modules a call has to reach.
-/
import Verif.Model.CallMode

set_option autoImplicit false

namespace CoInf.Spec
open CallMode

/-- The mode that an argument of `co.call_mode` denotes. -/
def modeOf : Arg → Option Mode
  | .val (.tok m) | .val (.str m) => some m
  | _ => none

/-- What the documentation of `co.call_mode` promises: inside a `with` block the innermost override is in force, outside
of all blocks every module runs its own mode; leaving a block, also by an exception, changes nothing else.  Returns the
executed modes and whether an exception escapes. -/
def dynScope : Option Mode → Prog → List Mode × Bool
  | _, .done => ([], false)
  | ov, .call own rest => ((ov.getD own) :: (dynScope ov rest).1, (dynScope ov rest).2)
  | ov, .within a body rest =>
    match modeOf a with
    | none => ([], true)
    | some m =>
      if (dynScope (some m) body).2 then ((dynScope (some m) body).1, true)
      else ((dynScope (some m) body).1 ++ (dynScope ov rest).1, (dynScope ov rest).2)
  | _, .raise => ([], true)
  | ov, .attempt body rest => ((dynScope ov body).1 ++ (dynScope ov rest).1, (dynScope ov rest).2)

/-- No `with` block. -/
def NoWith : Prog → Prop
  | .done | .raise => True
  | .call _ r => NoWith r
  | .within _ _ _ => False
  | .attempt b r => NoWith b ∧ NoWith r

/-- `with` blocks with valid modes that are not nested. -/
def FlatProg : Prog → Prop
  | .done | .raise => True
  | .call _ r => FlatProg r
  | .within a b r => modeOf a ≠ none ∧ NoWith b ∧ FlatProg r
  | .attempt b r => FlatProg b ∧ FlatProg r

/-- The program with its `with` statements removed (the blocks run in place). -/
def ignoring : Prog → List Mode × Bool
  | .done => ([], false)
  | .call own rest => (own :: (ignoring rest).1, (ignoring rest).2)
  | .within _ body rest =>
    if (ignoring body).2 then ((ignoring body).1, true)
    else ((ignoring body).1 ++ (ignoring rest).1, (ignoring rest).2)
  | .raise => ([], true)
  | .attempt body rest => ((ignoring body).1 ++ (ignoring rest).1, (ignoring rest).2)

mutual
/-- The modules that compute something, in the order of execution. -/
def workers : Tree → List Nat
  | .leaf i _ | .rnn i _ | .naive i _ => [i]
  | .box _ _ cs => workersAll cs
  | .cond _ c => workers c
  | .condId _ => []
def workersAll : List Tree → List Nat
  | [] => []
  | c :: cs => workers c ++ workersAll cs
end

mutual
/-- All objects of a tree. -/
def objects : Tree → List Nat
  | .leaf i _ | .rnn i _ | .naive i _ | .condId i => [i]
  | .box _ i cs => i :: objectsAll cs
  | .cond i c => i :: objects c
def objectsAll : List Tree → List Nat
  | [] => []
  | c :: cs => objects c ++ objectsAll cs
end

/-- Kinds of trees. -/
structure Kind where
  /-- `Conditional` may occur -/
  cond : Bool
  /-- recurrent modules may occur -/
  rnn : Bool

mutual
/-- No module raises, modules made by `forward_stepping` are not direct members of a `BroadcastReduce` or `Residual`
(`raw`), and the tree is of the given kind. -/
def Plain (k : Kind) (raw : Bool) : Tree → Prop
  | .leaf _ b => b = false
  | .rnn _ b => b = false ∧ k.rnn = true
  | .naive _ b => b = false ∧ raw = false
  | .box r _ cs => PlainAll k r cs
  | .cond _ c => k.cond = true ∧ Plain k false c
  | .condId _ => True
def PlainAll (k : Kind) (raw : Bool) : List Tree → Prop
  | [] => True
  | c :: cs => Plain k raw c ∧ PlainAll k raw cs
end

end CoInf.Spec
