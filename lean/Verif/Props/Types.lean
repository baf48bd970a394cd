/-
Subclasses of `Tensor` and empty batches in a `Sequential`: C93.
-/
import Verif.Model.Types

set_option autoImplicit false

namespace CoInf.Spec
open Types

variable {X S : Type}

/-- A chain of members on data: every member receives what the member before it returned, as long as that returns something. -/
def relayStep : Chain X S → Bool → X → Except Err (Option X × Chain X S)
  | .nil, _, x => .ok (some x, .nil)
  | .cons m s rest, u, x => do
    let (o, s') ← m.step s u x
    match o with
    | none => return (none, .cons m s' rest)
    | some y =>
      let (o, rest') ← relayStep rest u y
      return (o, .cons m s' rest')

/-- The same for clips. -/
def relaySteps : Chain X S → Bool → Bool → X → Except Err (Option X × Chain X S)
  | .nil, _, _, x => .ok (some x, .nil)
  | .cons m s rest, p, u, x => do
    let (o, s') ← m.steps s p u x
    match o with
    | none => return (none, .cons m s' rest)
    | some y =>
      let (o, rest') ← relaySteps rest p u y
      return (o, .cons m s' rest')

/-- The same for `forward`. -/
def relayFwd : Chain X S → X → Except Err X
  | .nil, x => .ok x
  | .cons m _ rest, x => m.fwd x >>= relayFwd rest

/-- What is in a result. -/
def dataOf {C : Type} (r : Except Err (Option (Ten X) × C)) : Except Err (Option X × C) :=
  r.map fun p => (p.1.map Ten.data, p.2)

end CoInf.Spec

namespace CoInf
open Types Spec

variable {X S : Type}

theorem Types.steps_none (c : Chain X S) (p u : Bool) : steps c p u none = .ok (none, c) := by
  cases c <;> rfl

/-- **C93**, plain tensors: `forward_step` (any batch) and `forward_steps` (batches that are not empty) of a `Sequential` pass the
data through the members. -/
theorem C93_plain_partial (c : Chain X S) (t : Ten X) (ht : t.sub = false) (p u : Bool) :
    dataOf (step c u t) = relayStep c u t.data ∧
    (t.batch ≠ 0 → dataOf (steps c p u (some t)) = relaySteps c p u t.data) := by
  induction c generalizing t with
  | nil => exact ⟨rfl, fun _ => rfl⟩
  | cons m s rest ih =>
    refine ⟨?_, fun hb => ?_⟩
    · simp only [step, relayStep]
      cases h : m.step s u t.data with
      | error e => rfl
      | ok q =>
        obtain ⟨o, s'⟩ := q
        cases o with
        | none => rfl
        | some y =>
          have hi := (ih ⟨t.sub && m.keeps, t.batch, y⟩ (by simp [ht])).1
          simp only [Member.wrap, Option.map_some, plain, ht, Bool.false_and, Bool.not_false, if_true] at hi ⊢
          show dataOf _ = (relayStep rest u y).bind _
          rw [← hi]
          cases step rest u ⟨false, t.batch, y⟩ <;> rfl
    · have hb' : (t.batch == 0) = false := by simp [hb]
      simp only [steps, relaySteps, plain, ht, Bool.not_false, Bool.not_true, Bool.false_or, hb', Bool.false_eq_true, if_false]
      cases h : m.steps s p u t.data with
      | error e => rfl
      | ok q =>
        obtain ⟨o, s'⟩ := q
        cases o with
        | none => simp only [Member.wrap, Option.map_none, steps_none]; rfl
        | some y =>
          have hi := (ih ⟨t.sub && m.keeps, t.batch, y⟩ (by simp [ht])).2 hb
          simp only [Member.wrap, Option.map_some, ht, Bool.false_and] at hi ⊢
          show dataOf _ = (relaySteps rest p u y).bind _
          rw [← hi]
          cases steps rest p u (some ⟨false, t.batch, y⟩) <;> rfl

/-- **C93**, `forward`: tensors of all types and batch sizes pass through the members. -/
theorem C93_forward (c : Chain X S) (t : Ten X) : (fwd c t).map Ten.data = relayFwd c t.data := by
  induction c generalizing t with
  | nil => rfl
  | cons m s rest ih =>
    simp only [fwd, relayFwd]
    cases h : m.fwd t.data with
    | error e => rfl
    | ok y => exact ih ⟨t.sub && m.keeps, t.batch, y⟩

/-- **C93**, `forward_step` of a subclass: if the results of the first member are plain tensors, all is as for plain tensors. -/
theorem C93_parameter_partial (m : Member X S) (s : S) (rest : Chain X S) (t : Ten X) (hk : m.keeps = false) (u : Bool) :
    dataOf (step (.cons m s rest) u t) = relayStep (.cons m s rest) u t.data := by
  have h := (C93_plain_partial (.cons m s rest) ⟨false, t.batch, t.data⟩ rfl true u).1
  rw [← h]
  simp only [step]
  cases m.step s u t.data with
  | error e => rfl
  | ok q =>
    obtain ⟨o, s'⟩ := q
    cases o <;> simp [Member.wrap, plain, hk]

/-- **C93 fails** for `forward_steps`: for every `Sequential` with members, a clip whose type is a subclass of `Tensor` (such as an
`nn.Parameter`) or whose batch is empty is dropped: the result is `None` and no state changes. -/
theorem C93_steps_refuted (m : Member X S) (s : S) (rest : Chain X S) (t : Ten X) (ht : t.sub = true ∨ t.batch = 0) (p u : Bool) :
    steps (.cons m s rest) p u (some t) = .ok (none, .cons m s rest) := by
  rcases ht with h | h <;> simp [steps, plain, h]

/-- **C93 fails** for `forward_step`: a frame whose type is a subclass that the first member keeps reaches no other member: the
result is `None`, and the first member has moved on. -/
theorem C93_step_refuted (m : Member X S) (s s' : S) (rest : Chain X S) (t : Ten X) (ht : t.sub = true) (hk : m.keeps = true)
    (o : Option X) (u : Bool) (hm : m.step s u t.data = .ok (o, s')) :
    step (.cons m s rest) u t = .ok (none, .cons m s' rest) := by
  cases o <;> simp [step, hm, Member.wrap, plain, ht, hk]

/-- A running sum. -/
def exSumMember (keeps : Bool) : Member Int Int where
  keeps := keeps
  step := fun s u x => .ok (some (s + x), if u then s + x else s)
  steps := fun s _ u x => .ok (some (s + x), if u then s + x else s)
  fwd := fun x => .ok x

example : dataOf (step (.cons (exSumMember true) 5 (.cons (exSumMember true) 100 .nil)) true ⟨false, 2, 1⟩) =
    .ok (some 106, .cons (exSumMember true) 6 (.cons (exSumMember true) 106 .nil)) ∧
  step (.cons (exSumMember true) 5 (.cons (exSumMember true) 100 .nil)) true ⟨true, 2, 1⟩ =
    .ok (none, .cons (exSumMember true) 6 (.cons (exSumMember true) 100 .nil)) ∧
  dataOf (step (.cons (exSumMember false) 5 (.cons (exSumMember true) 100 .nil)) true ⟨true, 2, 1⟩) =
    .ok (some 106, .cons (exSumMember false) 6 (.cons (exSumMember true) 106 .nil)) ∧
  (fwd (.cons (exSumMember true) 5 (.cons (exSumMember true) 100 .nil)) ⟨true, 0, 1⟩).map Ten.data = .ok 1 := ⟨rfl, rfl, rfl, rfl⟩

end CoInf
