/-
Exceptions inside `forward_steps` and the attributes that modules report afterwards.

/repo/continual/utils.py:40-58 (`temporary_parameter`), delay.py:116-128 (`Delay.forward_steps` sets the attribute `padding` for
the time of the call), container.py:332-340, 349-363 (`Parallel`), 664-706 (`Sequential`), 881-888, 898-912 (`BroadcastReduce`),
module.py:188-190 (`CoModule.delay`).

A call is given by what the single operations do that the modules perform in it, one after the other: a list of outcomes (the
rest succeeds).  Values are not modelled.
-/
import Mathlib.Data.List.Basic

set_option autoImplicit false

namespace CoInf.Faults

/-- A module with what its attributes are. -/
inductive Net where
  /-- a module other than the following: its receptive field, stride and padding along time -/
  | leaf (rf stride pad : Nat)
  /-- `Delay(d)` with the current value of its attribute `padding` (`(0,)` at first, module.py:113) -/
  | delay (d pad : Nat)
  /-- `Sequential` -/
  | seq (members : List Net)
  /-- `Parallel` or `BroadcastReduce`; receptive field and delay are stored when it is built (container.py:293-302, 842-846) -/
  | par (rf delay : Nat) (members : List Net)

/-- What a member does: returns a tensor, returns `None`, or raises. -/
inductive Outcome where
  | out | none | raised
  deriving DecidableEq

mutual
/-- `stride[0]`: container.py:689-694 for `Sequential`, 357-359 and 906-908 (the first member's) for the others; delay.py:144-146. -/
def stride : Net → Nat
  | .leaf _ s _ => s
  | .delay _ _ => 1
  | .seq ms => strideAll ms
  | .par _ _ [] => 1
  | .par _ _ (m :: _) => stride m

/-- The product over the members. -/
def strideAll : List Net → Nat
  | [] => 1
  | m :: ms => stride m * strideAll ms
end

mutual
/-- `padding[0]`: container.py:696-704 for `Sequential`, 361-363 and 910-912 for the others. -/
def padding : Net → Nat
  | .leaf _ _ p => p
  | .delay _ p => p
  | .seq ms => paddingSeq ms
  | .par _ _ ms => paddingMax ms

/-- `p += m[i].padding[0] * s; s = s * m[i].stride[0]`, written from the front: the padding of what follows counts `stride` times. -/
def paddingSeq : List Net → Nat
  | [] => 0
  | m :: ms => padding m + stride m * paddingSeq ms

def paddingMax : List Net → Nat
  | [] => 0
  | m :: ms => max (padding m) (paddingMax ms)
end

mutual
/-- `receptive_field`: delay.py:136-138; container.py:679-687 for `Sequential`. -/
def receptiveField : Net → Int
  | .leaf r _ _ => r
  | .delay d _ => d + 1
  | .seq ms => receptiveSeq ms
  | .par r _ _ => r

/-- From the back: `rf = s * rf + m.receptive_field - s`. -/
def receptiveSeq : List Net → Int
  | [] => 1
  | m :: ms => (stride m : Int) * receptiveSeq ms + receptiveField m - stride m
end

/-- `delay`: module.py:188-190, delay.py:140-142, container.py:353-355, 902-904. -/
def delay : Net → Int
  | .delay d _ => d
  | .par _ d _ => d
  | m => receptiveField m - 1 - padding m

/-- The next outcome. -/
def next : List Outcome → Outcome × List Outcome
  | [] => (.out, [])
  | o :: os => (o, os)

mutual
/-- `forward_steps`: the module afterwards, how the call ends, and the outcomes that are left.  `temporary_parameter` has no
`finally`: if the block raises, the old value is not restored. -/
def call : Net → List Outcome → Net × Outcome × List Outcome
  | .leaf r s p, os => (.leaf r s p, (next os).1, (next os).2)
  | .delay d p, os =>
    if d = 0 then (.delay d p, .out, os)
    else match next os with
      | (.raised, os) => (.delay d d, .raised, os)
      | (o, os) => (.delay d p, o, os)
  | .seq ms, os => (.seq (callSeq ms os).1, (callSeq ms os).2)
  | .par r d ms, os => (.par r d (callPar ms os).1, (callPar ms os).2)

/-- The loop of `Sequential.forward_steps`: stops if a member returns `None`. -/
def callSeq : List Net → List Outcome → List Net × Outcome × List Outcome
  | [], os => ([], .out, os)
  | m :: ms, os => match (call m os).2.1 with
    | .out => ((call m os).1 :: (callSeq ms (call m os).2.2).1, (callSeq ms (call m os).2.2).2)
    | o => ((call m os).1 :: ms, o, (call m os).2.2)

/-- The loops of `Parallel` and `BroadcastReduce`: all members are called; the reduction is one more operation. -/
def callPar : List Net → List Outcome → List Net × Outcome × List Outcome
  | [], os => ([], next os)
  | m :: ms, os => match (call m os).2.1 with
    | .raised => ((call m os).1 :: ms, .raised, (call m os).2.2)
    | _ => ((call m os).1 :: (callPar ms (call m os).2.2).1, (callPar ms (call m os).2.2).2)
end

/-- Calls in turn; exceptions are caught by the user. -/
def calls : Net → List (List Outcome) → Net
  | m, [] => m
  | m, os :: oss => calls (call m os).1 oss

end CoInf.Faults
