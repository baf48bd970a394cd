import Verif.Spec.Stream

namespace CoInf
open Spec
variable {X Y : Type} {M : CoMod (.stream X) (.stream Y)} {φ : List X → List Y}
  {R : List X → M.Inst → Prop}

namespace Spec.SimRel

theorem run1_eq (H : SimRel M φ R) {h : List X} {i : M.Inst} (hR : R h i) (op : Op X)
    (hne : op.nonempty) :
    ∃ i', run1 M i op =
      .ok (absRes φ (fun xs => (M.fwd M.init xs).map Prod.fst) h op, i') ∧ R (op.hist h) i' := by
  cases op with
  | step u x =>
    obtain ⟨o, i', h1, h2, h3⟩ := H.step u x hR
    refine ⟨i', ?_, ?_⟩
    · simp only [run1, h1, absRes, h2, List.drop_left, bind, Except.bind, pure, Except.pure]
      cases o <;> rfl
    · cases u <;> simpa [Op.hist] using h3
  | steps u xs =>
    obtain ⟨ys, i', h1, h2, h3⟩ := H.steps u xs hne hR
    refine ⟨i', ?_, ?_⟩
    · simp only [run1, h1, absRes, h2, List.drop_left, bind, Except.bind, pure, Except.pure]
    · cases u <;> simpa [Op.hist] using h3
  | clean => exact ⟨_, rfl, H.clean hR⟩
  | fwd xs =>
    have hi := H.fwd_indep xs hR
    simp only [run1, absRes, Op.hist]
    cases hf : M.fwd i xs with
    | error e => rw [hf] at hi; exact ⟨i, by rw [← hi]; rfl, hR⟩
    | ok p =>
      obtain ⟨ys, i'⟩ := p
      rw [hf] at hi
      exact ⟨i', by rw [← hi]; rfl, H.fwd_state hR hf⟩

theorem run_eq (H : SimRel M φ R) (ops : List (Op X)) : ∀ {h : List X} {i : M.Inst}, R h i →
    (∀ op ∈ ops, op.nonempty) →
    ∃ i', run M i ops =
      .ok (absRun φ (fun xs => (M.fwd M.init xs).map Prod.fst) h ops, i') ∧
        R (histAfter h ops) i' := by
  induction ops with
  | nil => intro h i hR _; exact ⟨i, rfl, hR⟩
  | cons op ops ih =>
    intro h i hR hne
    obtain ⟨i1, h1, h2⟩ := H.run1_eq hR op (hne op (by simp))
    obtain ⟨i2, k1, k2⟩ := ih h2 (fun o ho => hne o (by simp [ho]))
    refine ⟨i2, ?_, k2⟩
    simp [run, h1, k1, absRun, bind, Except.bind, pure, Except.pure]

theorem callSteps_eq (H : SimRel M φ R) (xs : List X) : ∀ {h : List X} {i : M.Inst}, R h i →
    ∃ os i', callSteps M i xs = .ok (os, i') ∧ os.length = xs.length ∧
      R (h ++ xs) i' ∧ ∀ t < xs.length,
        φ (h ++ xs.take (t + 1)) = φ (h ++ xs.take t) ++ ((os[t]?).join).toList := by
  induction xs with
  | nil => intro h i hR; exact ⟨[], i, rfl, rfl, by simpa using hR, by simp⟩
  | cons x xs ih =>
    intro h i hR
    obtain ⟨o, i1, h1, h2, h3⟩ := H.step true x hR
    simp only [if_true] at h3
    obtain ⟨os, i2, k1, k2, k3, k4⟩ := ih h3
    refine ⟨o :: os, i2, ?_, by simp [k2], by simpa using k3, ?_⟩
    · simp [callSteps, h1, k1, bind, Except.bind, pure, Except.pure]
    · intro t ht
      cases t with
      | zero => simpa using h2
      | succ t =>
        have := k4 t (by simpa using ht)
        simpa using this

end Spec.SimRel

/-- Functional stepping computes the same sequence. -/
theorem Spec.PImplements.threadSteps_eq {φ : List X → List Y} (H : PImplements M φ) (xs : List X) :
    ∃ os s', threadSteps M none xs = .ok (os, s') ∧ os.length = xs.length ∧
      ∀ t < xs.length, φ (xs.take (t + 1)) = φ (xs.take t) ++ ((os[t]?).join).toList := by
  obtain ⟨P, hP, hstep⟩ := H
  have key : ∀ (xs h : List X) s, P h s → ∃ os s', threadSteps M s xs = .ok (os, s') ∧
      os.length = xs.length ∧ ∀ t < xs.length,
        φ (h ++ xs.take (t + 1)) = φ (h ++ xs.take t) ++ ((os[t]?).join).toList := by
    intro xs
    induction xs with
    | nil => intro h s _; exact ⟨[], s, rfl, rfl, by simp⟩
    | cons x xs ih =>
      intro h s hs
      obtain ⟨o, s1, h1, h2, h3⟩ := hstep x hs
      obtain ⟨os, s2, k1, k2, k4⟩ := ih _ _ h3
      refine ⟨o :: os, s2, ?_, by simp [k2], ?_⟩
      · simp [threadSteps, h1, k1, bind, Except.bind, pure, Except.pure]
      · intro t ht
        cases t with
        | zero => simpa using h2
        | succ t => simpa using k4 t (by simpa using ht)
  simpa using key xs [] none hP

/-- The outputs of stepping are determined by the stream function. -/
theorem outs_unique {φ : List X → List Y} {h xs : List X} {os os' : List (Option Y)}
    (h1 : os.length = xs.length) (h2 : os'.length = xs.length)
    (k1 : ∀ t < xs.length, φ (h ++ xs.take (t + 1)) = φ (h ++ xs.take t) ++ ((os[t]?).join).toList)
    (k2 : ∀ t < xs.length, φ (h ++ xs.take (t + 1)) = φ (h ++ xs.take t) ++ ((os'[t]?).join).toList) :
    os = os' := by
  apply List.ext_getElem (by omega)
  intro t ht ht'
  have e := (k1 t (by omega)).symm.trans (k2 t (by omega))
  have e' := List.append_cancel_left e
  rw [List.getElem?_eq_getElem ht, List.getElem?_eq_getElem ht'] at e'
  simp only [Option.join_some] at e'
  cases ha : os[t] <;> cases hb : os'[t] <;> rw [ha, hb] at e' <;> simp_all

end CoInf
