import Verif.Spec.Soft
import Verif.Lemmas.Broadcast
import Verif.Lemmas.Reach
import Verif.Spec.Observe

set_option autoImplicit false

namespace CoInf.Spec
variable {X Y Z : Type} {M : CoMod (.stream X) (.stream Y)} {φ : List X → List Y} {R : List X → M.Inst → Prop}

theorem SimRel.soft (H : SimRel M φ R) : SoftRel M φ R where
  phi_nil := H.phi_nil
  init := H.init
  clean := H.clean
  step := fun x hr => H.step true x hr
  steps := fun xs hx hr => H.steps true xs hx hr
  probe := fun {h i x o i'} hr hs => by
    obtain ⟨o', j, h1, h2, h3⟩ := H.step false x hr
    rw [hs] at h1; cases h1; exact ⟨h2, h3⟩
  probes := fun {h i xs o i'} hx hr hs => by
    obtain ⟨ys, j, h1, h2, h3⟩ := H.steps false xs hx hr
    rw [hs] at h1; cases h1; exact ⟨ys, rfl, h2, h3⟩
  fwd_state := H.fwd_state
  fwd_indep := H.fwd_indep

theorem Implements.soft (H : Implements M φ) : Soft M φ := by
  obtain ⟨R, hR⟩ := H
  exact ⟨R, hR.soft⟩

/-- Reachable objects are in every such relation. -/
theorem SoftRel.of_reach (H : SoftRel M φ R) {h i} (hr : Reach M h i) : R h i := by
  induction hr with
  | init => exact H.init
  | clean _ ih => exact H.clean ih
  | step u x _ hs ih =>
    cases u with
    | false => exact (H.probe ih hs).2
    | true =>
      obtain ⟨o, i', h1, _, h3⟩ := H.step x ih
      rw [hs] at h1; cases h1; exact h3
  | steps u xs hx _ hs ih =>
    cases u with
    | false => exact (H.probes hx ih hs).choose_spec.2.2
    | true =>
      obtain ⟨o, i', h1, _, h3⟩ := H.steps xs hx ih
      rw [hs] at h1; cases h1; exact h3
  | fwd _ hf ih => exact H.fwd_state ih hf

theorem SoftRel.reach (H : SoftRel M φ R) : SoftRel M φ (Reach M) where
  phi_nil := H.phi_nil
  init := .init
  clean := .clean
  step := fun x hr => by
    obtain ⟨o, i', h1, h2, _⟩ := H.step x (H.of_reach hr)
    exact ⟨o, i', h1, h2, by simpa using Reach.step true x hr h1⟩
  steps := fun xs hx hr => by
    obtain ⟨o, i', h1, h2, _⟩ := H.steps xs hx (H.of_reach hr)
    exact ⟨o, i', h1, h2, by simpa using Reach.steps true xs hx hr h1⟩
  probe := fun {h i x o i'} hr hs => ⟨(H.probe (H.of_reach hr) hs).1, by simpa using Reach.step false x hr hs⟩
  probes := fun {h i xs o i'} hx hr hs => by
    obtain ⟨ys, h1, h2, _⟩ := H.probes hx (H.of_reach hr) hs
    exact ⟨ys, h1, h2, by simpa using Reach.steps false xs hx hr hs⟩
  fwd_state := fun hr hf => .fwd hr hf
  fwd_indep := fun xs hr => H.fwd_indep xs (H.of_reach hr)

theorem Soft.reach (H : Soft M φ) : SoftRel M φ (Reach M) := by
  obtain ⟨R, hR⟩ := H
  exact hR.reach

theorem Soft.exists_reach (H : Soft M φ) (h : List X) : ∃ i, Reach M h i := by
  induction h using List.reverseRecOn with
  | nil => exact ⟨_, .init⟩
  | append_singleton h x ih =>
    obtain ⟨i, hi⟩ := ih
    obtain ⟨o, i', h1, _, h3⟩ := H.reach.step x hi
    exact ⟨i', h3⟩

theorem SoftRel.callSteps_eq (H : SoftRel M φ R) (xs : List X) : ∀ {h : List X} {i : M.Inst}, R h i →
    ∃ os i', callSteps M i xs = .ok (os, i') ∧ os.length = xs.length ∧
      R (h ++ xs) i' ∧ ∀ t < xs.length,
        φ (h ++ xs.take (t + 1)) = φ (h ++ xs.take t) ++ ((os[t]?).join).toList := by
  induction xs with
  | nil => intro h i hR; exact ⟨[], i, rfl, rfl, by simpa using hR, by simp⟩
  | cons x xs ih =>
    intro h i hR
    obtain ⟨o, i1, h1, h2, h3⟩ := H.step x hR
    obtain ⟨os, i2, k1, k2, k3, k4⟩ := ih h3
    refine ⟨o :: os, i2, ?_, by simp [k2], by simpa using k3, ?_⟩
    · simp [callSteps, h1, k1, bind, Except.bind, pure, Except.pure]
    · intro t ht
      cases t with
      | zero => simpa using h2
      | succ t =>
        have := k4 t (by simpa using ht)
        simpa using this

/-- Feeding calls of any kind. -/
theorem SoftRel.feed (H : SoftRel M φ R) : ∀ (ops : List (Op X)) {h : List X} {i : M.Inst}, R h i →
    (∀ op ∈ ops, op.feeds) → ∃ rs j, run M i ops = .ok (rs, j) ∧ φ (h ++ framesOf ops) = φ h ++ outsOf rs ∧
      R (h ++ framesOf ops) j := by
  intro ops
  induction ops with
  | nil => intro h i r _; exact ⟨[], i, rfl, by simp [framesOf, outsOf], by simpa [framesOf] using r⟩
  | cons op ops ih =>
    intro h i r hf
    have hop := hf op (by simp)
    have key : ∃ rr j, run1 M i op = .ok (rr, j) ∧ φ (h ++ op.frames) = φ h ++ rr.outs ∧ R (h ++ op.frames) j := by
      cases op with
      | step u x =>
        have hu : u = true := hop
        subst hu
        obtain ⟨o, j, h1, h2, h3⟩ := H.step x r
        exact ⟨.frame o, j, by simp only [run1, h1]; rfl, h2, h3⟩
      | steps u xs =>
        obtain ⟨hu, hx⟩ : u = true ∧ xs ≠ [] := hop
        subst hu
        obtain ⟨ys, j, h1, h2, h3⟩ := H.steps xs hx r
        refine ⟨.clip (optList ys), j, by simp only [run1, h1]; rfl, ?_, h3⟩
        have : (Res.clip (optList ys)).outs = ys := by cases ys <;> rfl
        rw [this]; exact h2
      | clean => exact hop.elim
      | fwd xs => exact hop.elim
    obtain ⟨rr, j, h1, h2, h3⟩ := key
    obtain ⟨rs, j', h4, h5, h6⟩ := ih h3 (fun o ho => hf o (by simp [ho]))
    refine ⟨rr :: rs, j', ?_, ?_, by simpa [framesOf] using h6⟩
    · simp [run, h1, h4, bind, Except.bind, pure, Except.pure]
    · have e : framesOf (op :: ops) = op.frames ++ framesOf ops := rfl
      have e' : outsOf (rr :: rs) = rr.outs ++ outsOf rs := rfl
      rw [e, e', ← List.append_assoc, h5, h2, List.append_assoc]

end CoInf.Spec

namespace CoInf
open Spec
variable {X Y Z : Type}

namespace Sequential
variable {m : CoMod (.stream X) (.stream Y)} {c : Chain (.stream Y) (.stream Z)}

theorem step_inv {i1 : m.Inst} {i2 : c.Inst} {u : Bool} {x : X} {o : Option Z} {i' : (Chain.cons m c).Inst}
    (h : (Chain.cons m c).step (i1, i2) u x = .ok (o, i')) :
    (∃ i1', m.step i1 u x = .ok (none, i1') ∧ o = none ∧ i' = (i1', i2)) ∨
    (∃ y i1' i2', m.step i1 u x = .ok (some y, i1') ∧ c.step i2 u y = .ok (o, i2') ∧ i' = (i1', i2')) := by
  rw [step_eq] at h
  cases h1 : m.step i1 u x with
  | error e => rw [h1, err_bind] at h; cases h
  | ok p =>
    obtain ⟨oy, i1'⟩ := p
    rw [h1, ok_bind] at h
    cases oy with
    | none => cases h; exact .inl ⟨i1', rfl, rfl, rfl⟩
    | some y =>
      simp only at h
      cases h2 : c.step i2 u y with
      | error e => rw [h2, err_bind] at h; cases h
      | ok q =>
        obtain ⟨z, i2'⟩ := q
        rw [h2, ok_bind] at h
        cases h
        exact .inr ⟨y, i1', i2', rfl, h2, rfl⟩

theorem steps_inv {i1 : m.Inst} {i2 : c.Inst} {p u : Bool} {x : List X} {o : Option (List Z)} {i' : (Chain.cons m c).Inst}
    (h : (Chain.cons m c).steps (i1, i2) p u x = .ok (o, i')) :
    (∃ i1', m.steps i1 p u x = .ok (none, i1') ∧ o = none ∧ i' = (i1', i2)) ∨
    (∃ y i1' i2', m.steps i1 p u x = .ok (some y, i1') ∧ c.steps i2 p u y = .ok (o, i2') ∧ i' = (i1', i2')) := by
  rw [steps_eq] at h
  cases h1 : m.steps i1 p u x with
  | error e => rw [h1, err_bind] at h; cases h
  | ok q =>
    obtain ⟨oy, i1'⟩ := q
    rw [h1, ok_bind] at h
    cases oy with
    | none => cases h; exact .inl ⟨i1', rfl, rfl, rfl⟩
    | some y =>
      simp only at h
      cases h2 : c.steps i2 p u y with
      | error e => rw [h2, err_bind] at h; cases h
      | ok q =>
        obtain ⟨z, i2'⟩ := q
        rw [h2, ok_bind] at h
        cases h
        exact .inr ⟨y, i1', i2', rfl, h2, rfl⟩

theorem optList_inj {α : Type} {ys : List α} {o : Option (List α)} (h : o = optList ys) :
    (o = none ∧ ys = []) ∨ (o = some ys ∧ ys ≠ []) := by
  cases ys with
  | nil => exact .inl ⟨h, rfl⟩
  | cons a l => exact .inr ⟨h, by simp⟩

/-- A `Sequential` of softly streaming members. -/
theorem softRel_cons {φ : List X → List Y} {ψ : List Y → List Z} {R1 R2}
    (H1 : SoftRel m φ R1) (H2 : SoftRel (Sequential.mod c) ψ R2) :
    SoftRel (Sequential.mod (.cons m c)) (ψ ∘ φ) (Rel m c R1 R2 φ) where
  phi_nil := by simp [H1.phi_nil, H2.phi_nil]
  init := ⟨H1.init, by rw [H1.phi_nil]; exact H2.init⟩
  clean := fun {h i} hi => ⟨H1.clean hi.1, by rw [H1.phi_nil]; exact H2.clean hi.2⟩
  step := by
    rintro h ⟨i1, i2⟩ x ⟨r1, r2⟩
    obtain ⟨o, i1', h1, h2, h3⟩ := H1.step x r1
    show ∃ o i', (Chain.cons m c).step (i1, i2) true x = _ ∧ _
    rw [step_eq, h1, ok_bind]
    cases o with
    | none =>
      simp only [Option.toList_none, List.append_nil] at h2
      refine ⟨none, (i1', i2), rfl, by simp [h2], h3, ?_⟩
      show R2 (φ (h ++ [x])) i2
      rw [h2]; exact r2
    | some y =>
      obtain ⟨z, i2', k1, k2, k3⟩ := H2.step y r2
      simp only [Option.toList_some] at h2
      refine ⟨z, (i1', i2'), ?_, by simp only [Function.comp, h2, k2], h3, ?_⟩
      · have k1' : c.step i2 true y = .ok (z, i2') := k1
        simp only [k1', ok_bind]; rfl
      · show R2 (φ (h ++ [x])) i2'
        rw [h2]; exact k3
  steps := by
    rintro h ⟨i1, i2⟩ xs hx ⟨r1, r2⟩
    obtain ⟨ys, i1', h1, h2, h3⟩ := H1.steps xs hx r1
    show ∃ zs i', (Chain.cons m c).steps (i1, i2) false true xs = _ ∧ _
    rw [steps_eq, h1, ok_bind]
    cases hy : ys with
    | nil =>
      rw [hy, List.append_nil] at h2
      refine ⟨[], (i1', i2), rfl, by simp [h2], h3, ?_⟩
      show R2 (φ (h ++ xs)) i2
      rw [h2]; exact r2
    | cons a t =>
      have hne : ys ≠ [] := by rw [hy]; simp
      obtain ⟨zs, i2', k1, k2, k3⟩ := H2.steps ys hne r2
      refine ⟨zs, (i1', i2'), ?_, by simp only [Function.comp, h2, k2], h3, ?_⟩
      · have k1' : c.steps i2 false true ys = .ok (optList zs, i2') := k1
        rw [hy] at k1'
        simp only [optList, k1', ok_bind]; rfl
      · show R2 (φ (h ++ xs)) i2'
        rw [h2]; exact k3
  probe := by
    rintro h ⟨i1, i2⟩ x o i' ⟨r1, r2⟩ hs
    rcases step_inv hs with ⟨i1', h1, rfl, rfl⟩ | ⟨y, i1', i2', h1, h2, rfl⟩
    · obtain ⟨h2, h3⟩ := H1.probe r1 h1
      simp only [Option.toList_none, List.append_nil] at h2
      exact ⟨by simp [h2], h3, r2⟩
    · obtain ⟨h3, h4⟩ := H1.probe r1 h1
      obtain ⟨h5, h6⟩ := H2.probe r2 h2
      simp only [Option.toList_some] at h3
      exact ⟨by simp only [Function.comp, h3, h5], h4, h6⟩
  probes := by
    rintro h ⟨i1, i2⟩ xs o i' hx ⟨r1, r2⟩ hs
    rcases steps_inv hs with ⟨i1', h1, rfl, rfl⟩ | ⟨y, i1', i2', h1, h2, rfl⟩
    · obtain ⟨ys, e, h2, h3⟩ := H1.probes hx r1 h1
      rcases optList_inj e with ⟨_, rfl⟩ | ⟨e', _⟩
      · exact ⟨[], rfl, by simp at h2; simp [h2], h3, r2⟩
      · cases e'
    · obtain ⟨ys, e, h3, h4⟩ := H1.probes hx r1 h1
      rcases optList_inj e with ⟨e', _⟩ | ⟨e', hne⟩
      · cases e'
      · cases e'
        obtain ⟨zs, e2, h5, h6⟩ := H2.probes hne r2 h2
        exact ⟨zs, e2, by simp only [Function.comp, h3, h5], h4, h6⟩
  fwd_state := by
    rintro h ⟨i1, i2⟩ xs ys i' ⟨r1, r2⟩ hf
    obtain ⟨y, i1', i2', h1, h2, rfl⟩ := fwd_inv hf
    exact ⟨H1.fwd_state r1 h1, H2.fwd_state r2 h2⟩
  fwd_indep := by
    rintro h ⟨i1, i2⟩ xs ⟨r1, r2⟩
    have e1 := H1.fwd_indep xs r1
    show ((Chain.cons m c).fwd (i1, i2) xs).map Prod.fst = ((Chain.cons m c).fwd (m.init, c.init) xs).map Prod.fst
    rw [fwd_eq, fwd_eq]
    cases h1 : m.fwd i1 xs with
    | error e => rw [map_fst_err e1 h1]; rfl
    | ok p =>
      obtain ⟨y, i1'⟩ := p
      obtain ⟨b', hb⟩ := map_fst_ok e1 h1
      rw [hb, ok_bind, ok_bind]
      have e2 := H2.fwd_indep y r2
      have e2' : (c.fwd i2 y).map Prod.fst = (c.fwd c.init y).map Prod.fst := e2
      simp only
      cases h2 : c.fwd i2 y with
      | error e => rw [map_fst_err e2' h2]; rfl
      | ok q =>
        obtain ⟨z, i2'⟩ := q
        obtain ⟨b2, hb2⟩ := map_fst_ok e2' h2
        rw [hb2]; rfl

theorem softRel_single {φ : List X → List Y} {R} (H : SoftRel m φ R) : SoftRel (Sequential.mod (.single m)) φ R where
  phi_nil := H.phi_nil
  init := H.init
  clean := H.clean
  step := H.step
  steps := H.steps
  probe := H.probe
  probes := H.probes
  fwd_state := H.fwd_state
  fwd_indep := H.fwd_indep

theorem soft_cons {φ : List X → List Y} {ψ : List Y → List Z} (H1 : Soft m φ) (H2 : Soft (Sequential.mod c) ψ) :
    Soft (Sequential.mod (.cons m c)) (ψ ∘ φ) := by
  obtain ⟨R1, h1⟩ := H1
  obtain ⟨R2, h2⟩ := H2
  exact ⟨_, softRel_cons h1 h2⟩

theorem soft_single {φ : List X → List Y} (H : Soft m φ) : Soft (Sequential.mod (.single m)) φ := by
  obtain ⟨R, h⟩ := H
  exact ⟨R, softRel_single h⟩

end Sequential

end CoInf
