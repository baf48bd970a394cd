/-
Property C43, continued: which function a `Lambda` calls, and what its constructor refuses.
-/
import Verif.Model.Closure
import Mathlib.Tactic.Common

set_option autoImplicit false

namespace CoInf
variable {X Y : Type}

/-- What the documentation says (closure.py:27-33): the function for the mode, or else `fn`, which is applied to the clip
or to each of its frames. -/
def Spec.lambdaClip (special : Option (List X → List Y)) (fn : Lambda.Fn X Y) (xs : List X) : List Y :=
  match special, fn with
  | some g, _ => g xs
  | none, .clip g => g xs
  | none, .frame f => xs.map f

/-- **C43**, the functions of a `Lambda` are called in their modes: whatever the functions for `forward`, `forward_step` and
`forward_steps` do, and if any of them is missing, `fn` is called. -/
theorem C43_functions (fn : Lambda.Fn X Y) (g g' : Option (List X → List Y)) (f : Option (X → Y)) (p u : Bool)
    (xs : List X) (hx : xs ≠ []) (x : X) :
    (Lambda.mod { fn := some fn, fwdOnly := g, stepOnly := f, stepsOnly := g' }).fwd () xs =
      .ok (Spec.lambdaClip g fn xs, ()) ∧
    (Lambda.mod { fn := some fn, fwdOnly := g, stepOnly := f, stepsOnly := g' }).steps () p u xs =
      .ok (some (Spec.lambdaClip g' fn xs), ()) ∧
    (∀ y, (f.map fun f => [f x]).getD (Spec.lambdaClip none fn [x]) = [y] →
      (Lambda.mod { fn := some fn, fwdOnly := g, stepOnly := f, stepsOnly := g' }).step () u x = .ok (some y, ())) := by
  have he : xs.isEmpty = false := by cases xs; exact absurd rfl hx; rfl
  refine ⟨?_, ?_, ?_⟩
  · cases g <;> cases fn <;> simp [Lambda.forward, Lambda.applyClip, Spec.lambdaClip, Except.map, hx]
  · cases g' <;> cases fn <;> simp [Lambda.forwardSteps, Lambda.applyClip, Spec.lambdaClip, Except.map, hx]
  · intro y hy
    cases f with
    | some f =>
      simp only [Option.map_some, Option.getD_some, List.cons.injEq, and_true] at hy
      subst hy
      rfl
    | none =>
      cases fn with
      | frame f =>
        simp only [Option.map_none, Option.getD_none, Spec.lambdaClip, List.map_cons, List.map_nil, List.cons.injEq,
          and_true] at hy
        subst hy
        rfl
      | clip h =>
        simp only [Option.map_none, Option.getD_none, Spec.lambdaClip] at hy
        simp [Lambda.stepFn, hy, squeeze, Except.map]

/-- **C43**, the constructor: it refuses exactly the arguments that leave some mode without a function to call. -/
theorem C43_constructor [Inhabited X] (c : Lambda.Cfg X Y) :
    (Lambda.assertion c = .ok () ∨ Lambda.assertion c = .error .assertion) ∧
    (Lambda.assertion c = .ok () ↔
      (∀ xs, (Lambda.mod c).fwd () xs ≠ .error .type) ∧ (∀ u x, (Lambda.mod c).step () u x ≠ .error .type) ∧
      (∀ p u xs, (Lambda.mod c).steps () p u xs ≠ .error .type)) := by
  obtain ⟨fn, a, b, d⟩ := c
  constructor
  · unfold Lambda.assertion
    split
    · exact .inl rfl
    · exact .inr rfl
  · constructor
    · intro h
      refine ⟨fun xs => ?_, fun u x => ?_, fun p u xs => ?_⟩
      · cases fn with
        | none =>
          cases a with
          | none => cases b <;> cases d <;> cases h
          | some a => simp [Lambda.forward, Except.map]
        | some fn =>
          cases a <;> cases fn <;> by_cases hx : xs = [] <;> simp [Lambda.forward, Lambda.applyClip, Except.map, hx]
      · cases fn with
        | none =>
          cases b with
          | none => cases a <;> cases d <;> cases h
          | some a => simp [Lambda.stepFn, Except.map]
        | some fn =>
          cases b with
          | some b => simp [Lambda.stepFn, Except.map]
          | none =>
            cases fn with
            | frame f => simp [Lambda.stepFn, Except.map]
            | clip g =>
              simp only [Lambda.stepFn]
              rcases g [x] with _ | ⟨y, _ | ⟨z, t⟩⟩ <;> simp [squeeze, Except.map]
      · cases fn with
        | none =>
          cases d with
          | none => cases a <;> cases b <;> cases h
          | some a => simp [Lambda.forwardSteps, Except.map]
        | some fn =>
          cases d <;> cases fn <;> by_cases hx : xs = [] <;> simp [Lambda.forwardSteps, Lambda.applyClip, Except.map, hx]
    · rintro ⟨h1, h2, h3⟩
      cases fn with
      | some fn => simp [Lambda.assertion]
      | none =>
        cases a with
        | none => exact absurd rfl (h1 [])
        | some a =>
          cases b with
          | none => exact absurd rfl (h2 true default)
          | some b =>
            cases d with
            | none => exact absurd rfl (h3 true true [])
            | some d => simp [Lambda.assertion]

/-- Three functions that differ. -/
def exLambda : Lambda.Cfg Int Int :=
  { fn := some (.frame id), fwdOnly := some (List.map (· + 1)), stepOnly := some (· + 2), stepsOnly := some (List.map (· + 3)) }

/-- Each mode has its function; without one, `fn` is called; a function for `forward` only is refused. -/
example : (Lambda.mod exLambda).steps () false true [1] = .ok (some [4], ()) ∧
    (Lambda.mod { exLambda with stepsOnly := none }).steps () false true [1] = .ok (some [1], ()) ∧
    Lambda.assertion { exLambda with fn := none, stepsOnly := none } = .error .assertion := ⟨rfl, rfl, rfl⟩

end CoInf
