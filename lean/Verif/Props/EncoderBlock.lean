/-
Property C71: a `TransformerEncoder` can be called inside `with co.call_mode(...)`.
-/
import Verif.Model.EncoderBlock
import Verif.Props.Transformer

set_option autoImplicit false

namespace CoInf
open Spec Transformer

/-- A step of a `Sequential` whose first member returns a tensor. -/
theorem chain_step_some {I J O : Sig} (m : CoMod I J) (c : Chain J O) {i1 j : m.Inst} {i2 : c.Inst} {u : Bool} {x : I.Step}
    {y : J.Step} (h : m.step i1 u x = .ok (some y, j)) :
    (Chain.cons m c).step (i1, i2) u x = (c.step i2 u y).map fun r => (r.1, (j, r.2)) := by
  rw [Chain.step]
  simp only [h, bind, Except.bind]
  cases c.step i2 u y <;> rfl

theorem chain_step_none {I J O : Sig} (m : CoMod I J) (c : Chain J O) {i1 j : m.Inst} {i2 : c.Inst} {u : Bool} {x : I.Step}
    (h : m.step i1 u x = .ok (none, j)) : (Chain.cons m c).step (i1, i2) u x = .ok (none, (j, i2)) := by
  rw [Chain.step]
  simp only [h, bind, Except.bind]
  rfl

section C71
variable {F X B E : Type} [Field F] [Fintype E] [AddCommGroup X] (p1 p2 : Layer F X B E)

/-- The context inside `with co.call_mode(m):`. -/
def insideBlock (m : CallMode.Mode) : CallMode.Ctx := (CallMode.Ctx.init.enter (.val (.str m))).1

/-- **C71**, as far as it holds: outside of all blocks, after any history, each step of a two-layer encoder returns what
the encoder of `C37_two_layers_partial` returns, whatever the state of the second layer. -/
theorem C71_outside_partial (hN : 2 ≤ p1.attn.N) {h : List X} {i1 : (retroLayer p1).Inst} (hi : Reach (retroLayer p1) h i1)
    (i2 : (singleLayer p2 (-1) true).Inst) (x : X) :
    ((twoLayersIn CallMode.Ctx.init p1 p2).step (i1, i2, ()) true x).map Prod.fst =
      ((twoLayers p1 p2).step (i1, (), ()) true x).map Prod.fst := by
  obtain ⟨j, hj⟩ := retroLayer_step p1 hN hi x
  by_cases hc : h.length + 1 < p1.attn.N
  · rw [if_pos hc] at hj
    exact (congrArg (Except.map Prod.fst) (chain_step_none (retroLayer p1) (.cons (retroOver CallMode.Ctx.init (singleLayer p2 (-1) true))
      (.single (squeezeLast X))) hj)).trans
      (congrArg (Except.map Prod.fst) (chain_step_none (retroLayer p1) (.cons (retroLambda (layerForward (singleLayer p2 (-1) true)))
      (.single (squeezeLast X))) hj)).symm
  · rw [if_neg hc] at hj
    revert hj
    generalize hr : (List.zipWith (fun a b : X => a + b) (Unity.held (p1.attn.N - 1) (h ++ [x]))
        (multihead p1.attn.ex p1.attn.scale p1.attn.q p1.attn.k p1.attn.v p1.attn.out (lastN p1.attn.N (h ++ [x])))).map (block p1) = rows
    intro hj
    have hne : rows ≠ [] := by
      have := retroPhi_ne p1 hN (h ++ [x])
      rw [retroPhi_snoc p1 hN h x, if_pos (by omega)] at this
      have h0 := this _ (List.mem_append_right _ (List.mem_singleton_self _))
      rw [← hr]
      simpa using h0
    have hf := layerForward_eq p2 hne
    have hg := pyGet_last (List.getLast?_eq_some_getLast hne)
    have hi2 := singleLayer_fwd_one p2 (y := rows.getLast hne) (z := rows.getLast hne) i2 (by simpa [Attn.nq] using hg) hg
    have hi0 := singleLayer_fwd_one p2 (y := rows.getLast hne) (z := rows.getLast hne) (singleLayer p2 (-1) true).init
      (by simpa [Attn.nq] using hg) hg
    unfold layerForward at hf
    rw [hi0] at hf
    rw [hf] at hi2
    obtain ⟨j2, hj2⟩ : ∃ j2, (singleLayer p2 (-1) true).fwd i2 rows = .ok ([lastToken p2 rows], j2) := by
      cases hq : (singleLayer p2 (-1) true).fwd i2 rows with
      | error e => rw [hq] at hi2; cases hi2
      | ok r =>
        rw [hq] at hi2
        exact ⟨r.2, by rw [← (Except.ok.inj hi2)]⟩
    have e1 : (retroOver CallMode.Ctx.init (singleLayer p2 (-1) true)).step i2 true rows =
        .ok (some [lastToken p2 rows], j2) := by
      show ((singleLayer p2 (-1) true).fwd i2 rows).map (fun r => (some r.1, r.2)) = _
      rw [hj2]; rfl
    have e2 : (retroLambda (layerForward (singleLayer p2 (-1) true))).step () true rows =
        .ok (some [lastToken p2 rows], ()) := by
      show (layerForward (singleLayer p2 (-1) true) rows).map (fun y => (some y, ())) = _
      rw [layerForward_eq p2 hne]; rfl
    have g1 := chain_step_some (retroLayer p1) (.cons (retroOver CallMode.Ctx.init (singleLayer p2 (-1) true))
      (.single (squeezeLast X))) (i2 := (i2, ())) hj
    rw [chain_step_some (retroOver CallMode.Ctx.init (singleLayer p2 (-1) true)) (.single (squeezeLast X)) (i2 := ()) e1] at g1
    have g2 := chain_step_some (retroLayer p1) (.cons (retroLambda (layerForward (singleLayer p2 (-1) true)))
      (.single (squeezeLast X))) (i2 := ((), ())) hj
    rw [chain_step_some (retroLambda (layerForward (singleLayer p2 (-1) true))) (.single (squeezeLast X)) (i2 := ()) e2] at g2
    exact (congrArg (Except.map Prod.fst) g1).trans (congrArg (Except.map Prod.fst) g2).symm

/-- **C71** fails in steps: inside `with co.call_mode("forward_step"):`, an encoder with two layers raises as soon as there
are `sequence_len` frames, whatever the weights and frames. -/
theorem C71_step_block_refuted (hN : 2 ≤ p1.attn.N) {h : List X} {i1 : (retroLayer p1).Inst} (hi : Reach (retroLayer p1) h i1)
    (i2 : (singleLayer p2 (-1) true).Inst) (x : X) (hl : p1.attn.N ≤ h.length + 1) :
    (twoLayersIn (insideBlock .step) p1 p2).step (i1, i2, ()) true x = .error .assertion := by
  obtain ⟨j, hj⟩ := retroLayer_step p1 hN hi x
  rw [if_neg (by omega)] at hj
  exact chain_step_some (retroLayer p1) (.cons (retroOver (insideBlock .step) (singleLayer p2 (-1) true))
    (.single (squeezeLast X))) hj

end C71

/-- **C71** fails in blocks of `forward_steps` as well: the second layer keeps its state between the calls.  With
`sequence_len = 2`, the third frame of the stream `1, 2, 3` gives two tokens instead of one. -/
theorem C71_steps_block_refuted :
    (callSteps (bodyIn (insideBlock .steps) (exLayer 0) (exLayer 1)) (bodyIn (insideBlock .steps) (exLayer 0) (exLayer 1)).init
      [1, 2, 3]).map Prod.fst = .ok [none, some [7 / 2], some [5 / 2, 5]] ∧
    (callSteps (bodyIn CallMode.Ctx.init (exLayer 0) (exLayer 1)) (bodyIn CallMode.Ctx.init (exLayer 0) (exLayer 1)).init
      [1, 2, 3]).map Prod.fst = .ok [none, some [7 / 2], some [5]] := by
  constructor <;> decide +kernel

/-- **C71** fails for `clean_state`, too: it does not reach the second layer, which is left with what it has been given
inside the block.  Whatever was passed before, `clean_state` leaves its state as it is; after the frames `1, 2` and
`clean_state`, the same frames give one token too many. -/
theorem C71_clean_refuted :
    (∀ {F X B E : Type} [Field F] [Fintype E] [Add X] [Zero X] (g : CallMode.Ctx) (p1 p2 : Layer F X B E)
      (i : (bodyIn g p1 p2).Inst), ((bodyIn g p1 p2).clean i).2 = i.2) ∧
    (callSteps (bodyIn (insideBlock .steps) (exLayer 0) (exLayer 1)) (bodyIn (insideBlock .steps) (exLayer 0) (exLayer 1)).init
      [1, 2]).map Prod.fst = .ok [none, some [7 / 2]] ∧
    ((callSteps (bodyIn (insideBlock .steps) (exLayer 0) (exLayer 1)) (bodyIn (insideBlock .steps) (exLayer 0) (exLayer 1)).init
      [1, 2]).bind fun r => (callSteps (bodyIn (insideBlock .steps) (exLayer 0) (exLayer 1))
        ((bodyIn (insideBlock .steps) (exLayer 0) (exLayer 1)).clean r.2) [1, 2]).map Prod.fst) =
          .ok [none, some [5 / 2, 7 / 2]] := by
  refine ⟨fun g p1 p2 i => rfl, ?_, ?_⟩ <;> decide +kernel

/-- The hypotheses of `C71_outside_partial` and `C71_step_block_refuted` hold after one frame with `sequence_len = 2`. -/
example : ∃ i : (retroLayer (exLayer 0)).Inst, 2 ≤ (exLayer 0).attn.N ∧ Reach (retroLayer (exLayer 0)) [1] i ∧
    (exLayer 0).attn.N ≤ [(1 : ℚ)].length + 1 := by
  obtain ⟨j, hj⟩ := retroLayer_step (exLayer 0) (Nat.le_refl 2) .init 1
  exact ⟨j, Nat.le_refl 2, Reach.step true 1 .init hj, Nat.le_refl 2⟩

example : (callSteps (bodyIn (insideBlock .step) (exLayer 0) (exLayer 1)) (bodyIn (insideBlock .step) (exLayer 0) (exLayer 1)).init
    [1, 2]).map Prod.fst = .error .assertion := by decide +kernel

end CoInf
