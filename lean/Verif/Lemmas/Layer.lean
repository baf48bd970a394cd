import Verif.Lemmas.Transformer
import Verif.Lemmas.Pair
import Verif.Spec.Transformer

set_option autoImplicit false

namespace CoInf
open Spec
variable {X Y Z W : Type}

/-! ### Stateless functions on the frames that occur -/

/-- `M` applies `g` to frames with property `P`. -/
structure PureOn (M : CoMod (.stream Y) (.stream Z)) (P : Y → Prop) (g : Y → Z) : Prop where
  step : ∀ i u y, P y → ∃ j, M.step i u y = .ok (some (g y), j)
  steps : ∀ i u ys, ys ≠ [] → (∀ y ∈ ys, P y) → ∃ j, M.steps i false u ys = .ok (some (ys.map g), j)
  fwd : ∀ i ys, (M.fwd i ys).map Prod.fst = (M.fwd M.init ys).map Prod.fst

theorem PureOn.single {M : CoMod (.stream Y) (.stream Z)} {P : Y → Prop} {g : Y → Z} (H : PureOn M P g) :
    PureOn (Sequential.mod (.single M)) P g := ⟨H.step, H.steps, H.fwd⟩

theorem Sequential.fwd_eq' {m : CoMod (.stream X) (.stream Y)} {c : Chain (.stream Y) (.stream Z)} {i1 : m.Inst}
    {i2 : c.Inst} {xs : List X} :
    (Chain.cons m c).fwd (i1, i2) xs =
      match m.fwd i1 xs with
      | .error e => .error e
      | .ok (ys, j1) => (c.fwd i2 ys).map fun r => (r.1, (j1, r.2)) := by
  show (m.fwd i1 xs >>= fun (y, i1') => (Chain.fwd c i2 y >>= fun (z, i2') => pure (z, (i1', i2')))) = _
  rcases m.fwd i1 xs with e | ⟨y, i1'⟩
  · rfl
  · rw [ok_bind]
    simp only
    rcases Chain.fwd c i2 y with e | ⟨z, i2'⟩ <;> rfl

theorem Sequential.fwd_fst {m : CoMod (.stream X) (.stream Y)} {c : Chain (.stream Y) (.stream Z)} {i1 : m.Inst}
    {i2 : c.Inst} {xs : List X} :
    ((Chain.cons m c).fwd (i1, i2) xs).map Prod.fst =
      match (m.fwd i1 xs).map Prod.fst with
      | .error e => .error e
      | .ok ys => (c.fwd i2 ys).map Prod.fst := by
  rw [Sequential.fwd_eq']
  rcases m.fwd i1 xs with e | ⟨y, i1'⟩
  · rfl
  · show ((c.fwd i2 y).map _).map _ = (c.fwd i2 y).map _
    rcases c.fwd i2 y with e | ⟨z, i2'⟩ <;> rfl

theorem PureOn.cons {M : CoMod (.stream X) (.stream Y)} {c : Chain (.stream Y) (.stream Z)} {P : X → Prop} {Q : Y → Prop}
    {g : X → Y} {k : Y → Z} (H1 : PureOn M P g) (H2 : PureOn (Sequential.mod c) Q k) (h : ∀ x, P x → Q (g x)) :
    PureOn (Sequential.mod (.cons M c)) P (fun x => k (g x)) where
  step := by
    rintro ⟨i1, i2⟩ u x hx
    obtain ⟨j1, h1⟩ := H1.step i1 u x hx
    obtain ⟨j2, h2⟩ := H2.step i2 u (g x) (h x hx)
    have h2 : c.step i2 u (g x) = .ok (some (k (g x)), j2) := h2
    refine ⟨(j1, j2), ?_⟩
    show (Chain.cons M c).step (i1, i2) u x = _
    rw [Sequential.step_eq, h1, ok_bind]
    simp only [h2, ok_bind]
    rfl
  steps := by
    rintro ⟨i1, i2⟩ u xs hne hx
    obtain ⟨j1, h1⟩ := H1.steps i1 u xs hne hx
    obtain ⟨j2, h2⟩ := H2.steps i2 u (xs.map g) (by simpa using hne) (by
      intro y hy
      obtain ⟨x, hx', rfl⟩ := List.mem_map.1 hy
      exact h x (hx x hx'))
    have h2 : c.steps i2 false u (xs.map g) = .ok (some ((xs.map g).map k), j2) := h2
    refine ⟨(j1, j2), ?_⟩
    show (Chain.cons M c).steps (i1, i2) false u xs = _
    rw [Sequential.steps_eq, h1, ok_bind]
    simp only [h2, ok_bind, List.map_map]
    rfl
  fwd := by
    rintro ⟨i1, i2⟩ xs
    show ((Chain.cons M c).fwd (i1, i2) xs).map Prod.fst = ((Chain.cons M c).fwd (M.init, c.init) xs).map Prod.fst
    rw [Sequential.fwd_fst, Sequential.fwd_fst, H1.fwd i1 xs]
    rcases (M.fwd M.init xs).map Prod.fst with e | ys
    · rfl
    · exact H2.fwd i2 ys

/-- A streaming module followed by a function that works on all frames that occur. -/
theorem SoftRel.then {m : CoMod (.stream X) (.stream Y)} {φ : List X → List Y} {R : List X → m.Inst → Prop}
    {c : Chain (.stream Y) (.stream Z)} {P : Y → Prop} {g : Y → Z} (H : SoftRel m φ R)
    (hP : ∀ h, ∀ y ∈ φ h, P y) (G : PureOn (Sequential.mod c) P g) :
    SoftRel (Sequential.mod (.cons m c)) (fun h => (φ h).map g) (fun h i => R h i.1) where
  phi_nil := by simp [H.phi_nil]
  init := H.init
  clean := fun {h i} hr => H.clean hr
  step := by
    rintro h ⟨i1, i2⟩ x hr
    obtain ⟨o, j, h1, h2, h3⟩ := H.step x hr
    show ∃ o i', (Chain.cons m c).step (i1, i2) true x = _ ∧ _
    rw [Sequential.step_eq, h1, ok_bind]
    cases o with
    | none => exact ⟨none, (j, i2), rfl, by simpa using congrArg (List.map g) h2, h3⟩
    | some y =>
      obtain ⟨j2, k1⟩ := G.step i2 true y (hP (h ++ [x]) y (by rw [h2]; simp))
      have k1 : c.step i2 true y = .ok (some (g y), j2) := k1
      refine ⟨some (g y), (j, j2), ?_, by simpa using congrArg (List.map g) h2, h3⟩
      simp only [k1, ok_bind]; rfl
  steps := by
    rintro h ⟨i1, i2⟩ xs hx hr
    obtain ⟨ys, j, h1, h2, h3⟩ := H.steps xs hx hr
    show ∃ ys i', (Chain.cons m c).steps (i1, i2) false true xs = _ ∧ _
    rw [Sequential.steps_eq, h1, ok_bind]
    cases ys with
    | nil => exact ⟨[], (j, i2), rfl, by simpa using congrArg (List.map g) h2, h3⟩
    | cons y ys =>
      obtain ⟨j2, k1⟩ := G.steps i2 true (y :: ys) (by simp) (fun y' hy' => hP (h ++ xs) y' (by rw [h2]; exact List.mem_append_right _ hy'))
      have k1 : c.steps i2 false true (y :: ys) = .ok (some ((y :: ys).map g), j2) := k1
      refine ⟨(y :: ys).map g, (j, j2), ?_, by simpa using congrArg (List.map g) h2, h3⟩
      simp only [optList, k1, ok_bind]; rfl
  probe := by
    rintro h ⟨i1, i2⟩ x o j hr hs
    rcases Sequential.step_inv hs with ⟨j1, a1, rfl, rfl⟩ | ⟨y, j1, j2, a1, a2, rfl⟩
    · obtain ⟨b1, b2⟩ := H.probe hr a1
      exact ⟨by simpa using congrArg (List.map g) b1, b2⟩
    · obtain ⟨b1, b2⟩ := H.probe hr a1
      obtain ⟨j3, k1⟩ := G.step i2 false y (hP (h ++ [x]) y (by rw [b1]; simp))
      have k1 : c.step i2 false y = .ok (some (g y), j3) := k1
      rw [k1] at a2
      cases a2
      exact ⟨by simpa using congrArg (List.map g) b1, b2⟩
  probes := by
    rintro h ⟨i1, i2⟩ xs o j hx hr hs
    rcases Sequential.steps_inv hs with ⟨j1, a1, rfl, rfl⟩ | ⟨ys, j1, j2, a1, a2, rfl⟩
    · obtain ⟨ys, b0, b1, b2⟩ := H.probes hx hr a1
      cases ys with
      | nil => exact ⟨[], rfl, by simpa using congrArg (List.map g) b1, b2⟩
      | cons y ys => cases b0
    · obtain ⟨ys', b0, b1, b2⟩ := H.probes hx hr a1
      cases ys' with
      | nil => cases b0
      | cons y' ys' =>
        have b0 : ys = y' :: ys' := by simpa [optList] using b0
        subst b0
        obtain ⟨j3, k1⟩ := G.steps i2 false (y' :: ys') (by simp)
          (fun y hy => hP (h ++ xs) y (by rw [b1]; exact List.mem_append_right _ hy))
        have k1 : c.steps i2 false false (y' :: ys') = .ok (some ((y' :: ys').map g), j3) := k1
        rw [k1] at a2
        cases a2
        exact ⟨(y' :: ys').map g, rfl, by simpa using congrArg (List.map g) b1, b2⟩
  fwd_state := by
    rintro h ⟨i1, i2⟩ xs ys j hr hs
    have hs : (Chain.cons m c).fwd (i1, i2) xs = .ok (ys, j) := hs
    rw [Sequential.fwd_eq'] at hs
    rcases a1 : m.fwd i1 xs with e | ⟨zs, j1⟩
    · rw [a1] at hs; cases hs
    · rw [a1] at hs
      have hs : (c.fwd i2 zs).map (fun r => (r.1, (j1, r.2))) = Except.ok (ys, j) := hs
      rcases a2 : c.fwd i2 zs with e | ⟨ws, j2⟩
      · rw [a2] at hs; cases hs
      · rw [a2] at hs; cases hs
        exact H.fwd_state hr a1
  fwd_indep := by
    rintro h ⟨i1, i2⟩ xs hr
    show ((Chain.cons m c).fwd (i1, i2) xs).map Prod.fst = ((Chain.cons m c).fwd (m.init, c.init) xs).map Prod.fst
    rw [Sequential.fwd_fst, Sequential.fwd_fst, H.fwd_indep xs hr]
    rcases (m.fwd m.init xs).map Prod.fst with e | ys
    · rfl
    · exact G.fwd i2 ys

theorem Soft.then {m : CoMod (.stream X) (.stream Y)} {φ : List X → List Y} {c : Chain (.stream Y) (.stream Z)}
    {P : Y → Prop} {g : Y → Z} (H : Soft m φ) (hP : ∀ h, ∀ y ∈ φ h, P y) (G : PureOn (Sequential.mod c) P g) :
    Soft (Sequential.mod (.cons m c)) (fun h => (φ h).map g) := by
  obtain ⟨R, hR⟩ := H
  exact ⟨_, SoftRel.then hR hP G⟩

/-- The output of one step, from the outputs of the histories. -/
theorem Soft.step_of {m : CoMod (.stream X) (.stream Y)} {φ : List X → List Y} (H : Soft m φ) {h : List X} {i : m.Inst}
    (hi : Reach m h i) (x : X) {o : Option Y} (ho : φ (h ++ [x]) = φ h ++ o.toList) :
    ∃ j, m.step i true x = .ok (o, j) ∧ Reach m (h ++ [x]) j := by
  obtain ⟨o', j, h1, h2, h3⟩ := H.reach.step x hi
  rw [ho] at h2
  have e := List.append_cancel_left h2
  have : o = o' := by
    cases o <;> cases o' <;> simp at e <;> simp [e]
  subst this
  exact ⟨j, h1, h3⟩

end CoInf
