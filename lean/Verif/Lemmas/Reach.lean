import Verif.Spec.Stream
import Mathlib.Data.List.Induction

namespace CoInf.Spec
variable {X Y : Type} {M : CoMod (.stream X) (.stream Y)} {φ : List X → List Y}
  {R : List X → M.Inst → Prop}

/-- Reachable objects are in every simulation relation. -/
theorem SimRel.of_reach (H : SimRel M φ R) {h i} (hr : Reach M h i) : R h i := by
  induction hr with
  | init => exact H.init
  | clean _ ih => exact H.clean ih
  | step u x _ hs ih =>
    obtain ⟨o, i', h1, _, h3⟩ := H.step u x ih
    rw [hs] at h1; cases h1; exact h3
  | steps u xs hx _ hs ih =>
    obtain ⟨o, i', h1, _, h3⟩ := H.steps u xs hx ih
    rw [hs] at h1; cases h1; exact h3
  | fwd _ hf ih => exact H.fwd_state ih hf

/-- Hence reachability itself is one. -/
theorem SimRel.reach (H : SimRel M φ R) : SimRel M φ (Reach M) where
  phi_nil := H.phi_nil
  init := .init
  clean := .clean
  step := fun u x hr => by
    obtain ⟨o, i', h1, h2, _⟩ := H.step u x (H.of_reach hr)
    exact ⟨o, i', h1, h2, .step u x hr h1⟩
  steps := fun u xs hx hr => by
    obtain ⟨o, i', h1, h2, _⟩ := H.steps u xs hx (H.of_reach hr)
    exact ⟨o, i', h1, h2, .steps u xs hx hr h1⟩
  fwd_state := fun hr hf => .fwd hr hf
  fwd_indep := fun xs hr => H.fwd_indep xs (H.of_reach hr)

theorem Implements.reach (H : Implements M φ) : SimRel M φ (Reach M) := by
  obtain ⟨R, hR⟩ := H
  exact hR.reach

theorem SimRel.implements (H : SimRel M φ R) : Implements M φ := ⟨R, H⟩

theorem PadRel.reach (S : SimRel M φ R) (P : PadRel M φ R) : PadRel M φ (Reach M) where
  finish := fun hr hx hf => P.finish (S.of_reach hr) hx hf
  clean_probe := fun hr hx hf => P.clean_probe (S.of_reach hr) hx hf

theorem PadClean.reach (S : SimRel M φ R) (P : PadClean M R) : PadClean M (Reach M) where
  eq := fun u hr hx hf => P.eq u (S.of_reach hr) hx hf
  nil := P.nil

/-- Every history is reachable. -/
theorem Implements.exists_reach (H : Implements M φ) (h : List X) : ∃ i, Reach M h i := by
  induction h using List.reverseRecOn with
  | nil => exact ⟨_, .init⟩
  | append_singleton h x ih =>
    obtain ⟨i, hi⟩ := ih
    obtain ⟨o, i', h1, _, h3⟩ := H.reach.step true x hi
    exact ⟨i', h3⟩

end CoInf.Spec
