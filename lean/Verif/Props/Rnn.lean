/-
Property C30: recurrent modules.
-/
import Verif.Lemmas.Rnn
import Verif.Lemmas.Tame
import Verif.Spec.Observe

set_option autoImplicit false

namespace CoInf
open Spec Rnn
variable {V S : Type}

namespace Rnn

/-- Calls with default flags, from an object that holds the state of `h`. -/
theorem feed (c : Cfg V S) {ss : List S} : ∀ (ops : List (Op V)) {h : List V} {i : Option (List S)}, Rel c ss h i →
    (∀ op ∈ ops, op.feeds) → ∃ rs j, run (mod c) i ops = .ok (rs, j) ∧
      outsOf rs = recur c.layers (stateAfter c.layers ss h) (framesOf ops) ∧ Rel c ss (h ++ framesOf ops) j ∧ (ops = [] → j = i) := by
  intro ops
  induction ops with
  | nil => intro h i r _; exact ⟨[], i, rfl, rfl, by simpa [framesOf] using r, fun _ => rfl⟩
  | cons op ops ih =>
    intro h i r hf
    have hop := hf op (by simp)
    have key : ∃ rr j, run1 (mod c) i op = .ok (rr, j) ∧ rr.outs = recur c.layers (stateAfter c.layers ss h) op.frames ∧
        Rel c ss (h ++ op.frames) j := by
      cases op with
      | step u x =>
        have hu : u = true := hop
        subst hu
        obtain ⟨j, h1, h2⟩ := step_rel c true x r
        exact ⟨_, j, by show (forwardStep c i true x >>= _) = _; rw [h1]; rfl, rfl, h2⟩
      | steps u xs =>
        obtain ⟨hu, hx⟩ : u = true ∧ xs ≠ [] := hop
        subst hu
        obtain ⟨j, h1, h2⟩ := steps_rel c false true xs hx r
        exact ⟨_, j, by show (forwardSteps c i false true xs >>= _) = _; rw [h1]; rfl, rfl, h2⟩
      | clean => exact hop.elim
      | fwd xs => exact hop.elim
    obtain ⟨rr, j, h1, h2, h3⟩ := key
    obtain ⟨rs, j', h4, h5, h6, _⟩ := ih h3 (fun o ho => hf o (by simp [ho]))
    refine ⟨rr :: rs, j', ?_, ?_, ?_, by simp⟩
    · show (run1 (mod c) i op >>= _) = _
      rw [h1, ok_bind]
      show (run (mod c) j ops >>= _) = _
      rw [h4]; rfl
    · show rr.outs ++ outsOf rs = _
      rw [h2, h5, stateAfter_append]
      exact (recur_append _ _ _ _).symm
    · simpa [framesOf] using h6

end Rnn

/-- **C30.** Take any recurrent module and any object `i` of it: fresh, cleaned, after other calls, or with a state
installed by `set_state` (one state per layer).  However a sequence is cut into `forward_step` and `forward_steps`
calls, the outputs together are the outputs of `forward` on the whole sequence started with the state held by `i`;
afterwards `get_state` is the final state that `forward` returns.  Both are the textbook recurrence, frame after frame
through all layers. -/
theorem C30_rnn_chunking (c : Cfg V S) (i : Option (List S)) (hi : ∀ s, i = some s → s.length = c.layers.length)
    (ops : List (Op V)) (hf : ∀ op ∈ ops, op.feeds) (hne : ops ≠ []) :
    ∃ rs ys hN, run (mod c) i ops = .ok (rs, some hN) ∧ forward c (framesOf ops) i = .ok (ys, hN) ∧ outsOf rs = ys ∧
      ys = recur c.layers (i.getD (c.layers.map fun _ => c.zero)) (framesOf ops) ∧
      hN = stateAfter c.layers (i.getD (c.layers.map fun _ => c.zero)) (framesOf ops) ∧
      ys.length = (framesOf ops).length := by
  have hl : (start c i).length = c.layers.length := by
    cases i with
    | none => simp [start]
    | some s => exact hi s rfl
  have r : Rel c (start c i) [] i := ⟨rfl, hl, fun h => absurd rfl h⟩
  obtain ⟨rs, j, h1, h2, h3, _⟩ := feed c ops r hf
  have hfr : framesOf ops ≠ [] := by
    cases ops with
    | nil => exact absurd rfl hne
    | cons op ops =>
      have := hf op (by simp)
      cases op with
      | step u x => simp [framesOf, Op.frames]
      | steps u xs =>
        have hx : xs ≠ [] := this.2
        simp [framesOf, Op.frames, hx]
      | clean => exact this.elim
      | fwd xs => exact this.elim
  have hj := h3.2.2 (by simpa using hfr)
  subst hj
  refine ⟨rs, _, _, h1, torchForward_eq c _ i hfr hl, h2, rfl, rfl, recur_length _ _ _⟩

/-- **C30**, probes: `update_state=False` calls (of either kind, also with `pad_end`) return what the updating call
returns and leave the state alone, so they may be inserted anywhere. -/
theorem C30_rnn_probe (c : Cfg V S) (i : Option (List S)) (p : Bool) (x : V) (xs : List V) :
    forwardStep c i false x = (forwardStep c i true x).map (fun r => (r.1, i)) ∧
    forwardSteps c i p false xs = (forwardSteps c i false true xs).map (fun r => (r.1, i)) := by
  unfold forwardStep forwardSteps
  constructor
  · cases Rnn.pstep c x i <;> rfl
  · cases Rnn.forward c xs i <;> rfl

/-- **C30**, `clean_state`: afterwards the module behaves as if it had just been constructed. -/
theorem C30_rnn_clean (c : Cfg V S) (i : Option (List S)) : (mod c).clean i = (mod c).init := rfl

/-- Two layers over the integers: a leaky accumulator with an output that is not its state, below a multiplicative cell. -/
def exRnn : Cfg Int Int where
  layers := [fun x s => (x + 3 * s, 2 * s + x), fun x s => (x * s + 1, s + x)]
  zero := 1

example : ∃ rs ys hN, run (mod exRnn) (some [5, 7]) [.step true 1, .steps true [2, 3], .step true (-1)] =
    .ok (rs, some hN) ∧ forward exRnn [1, 2, 3, -1] (some [5, 7]) = .ok (ys, hN) ∧ outsOf rs = ys := by
  obtain ⟨rs, ys, hN, h1, h2, h3, _⟩ := C30_rnn_chunking exRnn (some [5, 7]) (by simp [exRnn])
    [.step true 1, .steps true [2, 3], .step true (-1)] (by simp [Op.feeds]) (by simp)
  exact ⟨rs, ys, hN, h1, h2, h3⟩

example : (callSteps (mod exRnn) (setState none [5, 7]) [1, 2, 3, -1]).map Prod.fst =
    .ok [some 113, some 806, some 4351, some 20217] := by decide

example : forward exRnn [1, 2, 3, -1] (some [5, 7]) = .ok ([113, 806, 4351, 20217], [101, 285]) := by decide

/-- Recurrent modules in sequence are a network, so C08-C10, C14, C15, C25 and C26 apply to it. -/
example : ∃ φ, Net ⟨false, 3⟩ (Sequential.mod (.cons (mod exRnn) (.single (mod exRnn)))) φ :=
  ⟨_, .cons (.rnn exRnn (by simp [Cls.front])) (.single (.rnn exRnn (by simp)))⟩

end CoInf
