import Verif.Model.Container
import Verif.Spec.Stream

namespace CoInf
open Spec

/-- Rewriting rules for `Except` binds. -/
theorem ok_bind {ε α β : Type} (a : α) (f : α → Except ε β) : (Except.ok a >>= f) = f a := rfl
theorem err_bind {ε α β : Type} (e : ε) (f : α → Except ε β) :
    ((Except.error e : Except ε α) >>= f) = .error e := rfl

theorem map_fst_ok {ε α β : Type} {e e' : Except ε (α × β)} (h : e.map Prod.fst = e'.map Prod.fst)
    {a : α} {b : β} (h1 : e = .ok (a, b)) : ∃ b', e' = .ok (a, b') := by
  subst h1
  cases e' with
  | error e => cases h
  | ok p => cases p; cases h; exact ⟨_, rfl⟩

theorem map_fst_err {ε α β : Type} {e e' : Except ε (α × β)} (h : e.map Prod.fst = e'.map Prod.fst)
    {er : ε} (h1 : e = .error er) : e' = .error er := by
  subst h1
  cases e' with
  | error e => cases h; rfl
  | ok p => cases h

namespace Sequential
variable {X Y Z : Type}

section cons
variable (m : CoMod (.stream X) (.stream Y)) (c : Chain (.stream Y) (.stream Z))

/-- Relation for a `Sequential` whose first member is `m`. -/
def Rel (R1 : List X → m.Inst → Prop) (R2 : List Y → c.Inst → Prop) (φ : List X → List Y) :
    List X → (Chain.cons m c).Inst → Prop :=
  fun h i => R1 h (i : m.Inst × c.Inst).1 ∧ R2 (φ h) (i : m.Inst × c.Inst).2

theorem step_eq (i1 : m.Inst) (i2 : c.Inst) (u : Bool) (x : X) :
    (Chain.cons m c).step (i1, i2) u x = (do
      let (o, i1') ← m.step i1 u x
      match o with
      | none => return (none, (i1', i2))
      | some y =>
        let (z, i2') ← c.step i2 u y
        return (z, (i1', i2'))) := by
  rw [Chain.step.eq_2]
  cases m.step i1 u x with
  | error => rfl
  | ok q => obtain ⟨o, i'⟩ := q; cases o <;> rfl

theorem steps_eq (i1 : m.Inst) (i2 : c.Inst) (p u : Bool) (x : List X) :
    (Chain.cons m c).steps (i1, i2) p u x = (do
      let (o, i1') ← m.steps i1 p u x
      match o with
      | none => return (none, (i1', i2))
      | some y =>
        let (z, i2') ← c.steps i2 p u y
        return (z, (i1', i2'))) := by
  rw [Chain.steps.eq_2]
  cases m.steps i1 p u x with
  | error => rfl
  | ok q => obtain ⟨o, i'⟩ := q; cases o <;> rfl

theorem fwd_eq (i1 : m.Inst) (i2 : c.Inst) (x : List X) :
    (Chain.cons m c).fwd (i1, i2) x = (do
      let (y, i1') ← m.fwd i1 x
      let (z, i2') ← c.fwd i2 y
      return (z, (i1', i2'))) := rfl

variable {m c}

theorem fwd_inv {i1 : m.Inst} {i2 : c.Inst} {x : List X} {z : List Z} {i' : (Chain.cons m c).Inst}
    (h : (Chain.cons m c).fwd (i1, i2) x = .ok (z, i')) :
    ∃ y i1' i2', m.fwd i1 x = .ok (y, i1') ∧ c.fwd i2 y = .ok (z, i2') ∧ i' = (i1', i2') := by
  rw [fwd_eq] at h
  cases h1 : m.fwd i1 x with
  | error e => rw [h1, err_bind] at h; cases h
  | ok p =>
    obtain ⟨y, i1'⟩ := p
    rw [h1, ok_bind] at h
    simp only at h
    cases h2 : c.fwd i2 y with
    | error e => rw [h2, err_bind] at h; cases h
    | ok q =>
      obtain ⟨z', i2'⟩ := q
      rw [h2, ok_bind] at h
      cases h
      exact ⟨y, i1', i2', rfl, h2, rfl⟩

theorem simRel_cons {φ : List X → List Y} {ψ : List Y → List Z} {R1 R2}
    (H1 : SimRel m φ R1) (H2 : SimRel (Sequential.mod c) ψ R2) :
    SimRel (Sequential.mod (.cons m c)) (ψ ∘ φ) (Rel m c R1 R2 φ) where
  phi_nil := by simp [H1.phi_nil, H2.phi_nil]
  init := ⟨H1.init, by rw [H1.phi_nil]; exact H2.init⟩
  clean := fun {h i} hi => ⟨H1.clean hi.1, by rw [H1.phi_nil]; exact H2.clean hi.2⟩
  step := by
    rintro h ⟨i1, i2⟩ u x ⟨r1, r2⟩
    obtain ⟨o, i1', h1, h2, h3⟩ := H1.step u x r1
    show ∃ o i', (Chain.cons m c).step (i1, i2) u x = _ ∧ _
    rw [step_eq, h1, ok_bind]
    cases o with
    | none =>
      simp only [Option.toList_none, List.append_nil] at h2
      refine ⟨none, (i1', i2), rfl, by simp [h2], h3, ?_⟩
      cases u
      · exact r2
      · show R2 (φ (h ++ [x])) i2
        rw [h2]; exact r2
    | some y =>
      obtain ⟨z, i2', k1, k2, k3⟩ := H2.step u y r2
      simp only [Option.toList_some] at h2
      refine ⟨z, (i1', i2'), ?_, by simp only [Function.comp, h2, k2], h3, ?_⟩
      · have k1' : c.step i2 u y = .ok (z, i2') := k1
        simp only [k1', ok_bind]; rfl
      · cases u
        · exact k3
        · show R2 (φ (h ++ [x])) i2'
          rw [h2]; exact k3
  steps := by
    rintro h ⟨i1, i2⟩ u xs hx ⟨r1, r2⟩
    obtain ⟨ys, i1', h1, h2, h3⟩ := H1.steps u xs hx r1
    show ∃ zs i', (Chain.cons m c).steps (i1, i2) false u xs = _ ∧ _
    rw [steps_eq, h1, ok_bind]
    cases hy : ys with
    | nil =>
      rw [hy, List.append_nil] at h2
      refine ⟨[], (i1', i2), rfl, by simp [h2], h3, ?_⟩
      cases u
      · exact r2
      · show R2 (φ (h ++ xs)) i2
        rw [h2]; exact r2
    | cons a t =>
      have hne : ys ≠ [] := by rw [hy]; simp
      obtain ⟨zs, i2', k1, k2, k3⟩ := H2.steps u ys hne r2
      refine ⟨zs, (i1', i2'), ?_, by simp only [Function.comp, h2, k2], h3, ?_⟩
      · have k1' : c.steps i2 false u ys = .ok (optList zs, i2') := k1
        rw [hy] at k1'
        simp only [optList, k1', ok_bind]; rfl
      · cases u
        · exact k3
        · show R2 (φ (h ++ xs)) i2'
          rw [h2]; exact k3
  fwd_state := by
    rintro h ⟨i1, i2⟩ xs zs i' ⟨r1, r2⟩ hf
    obtain ⟨y, i1', i2', h1, h2, rfl⟩ := fwd_inv hf
    exact ⟨H1.fwd_state r1 h1, H2.fwd_state r2 h2⟩
  fwd_indep := by
    rintro h ⟨i1, i2⟩ xs ⟨r1, r2⟩
    have e1 := H1.fwd_indep xs r1
    show ((Chain.cons m c).fwd (i1, i2) xs).map _ = ((Chain.cons m c).fwd (m.init, c.init) xs).map _
    rw [fwd_eq, fwd_eq]
    cases h1 : m.fwd i1 xs with
    | error e =>
      rw [map_fst_err e1 h1]; rfl
    | ok p =>
      obtain ⟨y, i1'⟩ := p
      obtain ⟨i0, h0⟩ := map_fst_ok e1 h1
      rw [h0, ok_bind, ok_bind]
      simp only
      have e2 : (c.fwd i2 y).map Prod.fst = (c.fwd c.init y).map Prod.fst := H2.fwd_indep y r2
      cases h2 : c.fwd i2 y with
      | error e => rw [map_fst_err e2 h2]; rfl
      | ok q =>
        obtain ⟨z, i2'⟩ := q
        obtain ⟨i0', h0'⟩ := map_fst_ok e2 h2
        rw [h0']; rfl

theorem padClean_cons {φ : List X → List Y} {R1 R2}
    (S1 : SimRel m φ R1) (P1 : PadClean m R1) (P2 : PadClean (Sequential.mod c) R2) :
    PadClean (Sequential.mod (.cons m c)) (Rel m c R1 R2 φ) where
  eq := by
    rintro ⟨i1, i2⟩ xs zs i0 u ⟨r1, r2⟩ hx hf
    obtain ⟨ys, j1, j2, h1, h2, _⟩ := fwd_inv (i1 := m.init) (i2 := c.init) hf
    obtain ⟨i1', k1⟩ := P1.eq u r1 hx h1
    show ∃ i', (Chain.cons m c).steps (i1, i2) true u xs = _
    rw [steps_eq, k1, ok_bind]
    cases hy : ys with
    | nil =>
      rw [hy] at h2
      have := P2.nil h2
      subst this
      exact ⟨_, rfl⟩
    | cons a t =>
      rw [S1.phi_nil] at r2
      obtain ⟨i2', k2⟩ := P2.eq u r2 (by rw [hy]; simp) h2
      have k2' : c.steps i2 true u ys = .ok (optList zs, i2') := k2
      rw [hy] at k2'
      refine ⟨(i1', i2'), ?_⟩
      simp only [optList, k2', ok_bind]; rfl
  nil := by
    intro zs i0 hf
    obtain ⟨ys, j1, j2, h1, h2, _⟩ := fwd_inv (i1 := m.init) (i2 := c.init) hf
    have := P1.nil h1
    subst this
    exact P2.nil h2

/-- Finishing a stream through a `Sequential`, when the first member keeps the rest busy. -/
theorem padRel_cons {φ : List X → List Y} {ψ : List Y → List Z} {R1 R2}
    (S1 : SimRel m φ R1) (F1 : Flow m φ) (P1 : PadRel m φ R1)
    (P2 : PadRel (Sequential.mod c) ψ R2) :
    PadRel (Sequential.mod (.cons m c)) (ψ ∘ φ) (Rel m c R1 R2 φ) where
  finish := by
    rintro h ⟨i1, i2⟩ xs zs i0 ⟨r1, r2⟩ hx hf
    obtain ⟨ys, j1, j2, h1, h2, _⟩ := fwd_inv (i1 := m.init) (i2 := c.init) hf
    obtain ⟨rest, i1', k1, k2⟩ := P1.finish r1 hx h1
    have hlt := F1 hx h1
    have hne : rest ≠ [] := by
      rintro rfl
      rw [k1] at hlt; simp at hlt
    rw [k1] at h2
    obtain ⟨rest2, i2', l1, l2⟩ := P2.finish r2 hne h2
    refine ⟨rest2, (i1', i2'), l1, ?_⟩
    show (Chain.cons m c).steps (i1, i2) true true xs = _
    rw [steps_eq, k2, ok_bind]
    cases rest with
    | nil => exact absurd rfl hne
    | cons a t =>
      have l2' : c.steps i2 true true (a :: t) = .ok (optList rest2, i2') := l2
      simp only [optList, l2', ok_bind]; rfl
  clean_probe := by
    rintro ⟨i1, i2⟩ xs zs i0 ⟨r1, r2⟩ hx hf
    obtain ⟨ys, j1, j2, h1, h2, _⟩ := fwd_inv (i1 := m.init) (i2 := c.init) hf
    obtain ⟨i1', k1⟩ := P1.clean_probe r1 hx h1
    have hlt := F1 (h := []) hx h1
    rw [S1.phi_nil] at r2
    have hne : ys ≠ [] := by rintro rfl; simp at hlt
    obtain ⟨i2', k2⟩ := P2.clean_probe r2 hne h2
    show ∃ i', (Chain.cons m c).steps (i1, i2) true false xs = _
    rw [steps_eq, k1, ok_bind]
    cases ys with
    | nil => exact absurd rfl hne
    | cons a t =>
      have k2' : c.steps i2 true false (a :: t) = .ok (optList zs, i2') := k2
      refine ⟨(i1', i2'), ?_⟩
      simp only [optList, k2', ok_bind]; rfl

theorem flow_cons {φ : List X → List Y} {ψ : List Y → List Z} {R1}
    (F1 : Flow m φ) (P1 : PadRel m φ R1)
    (hreach : ∀ h, ∃ i, R1 h i) (F2 : Flow (Sequential.mod c) ψ) :
    Flow (Sequential.mod (.cons m c)) (ψ ∘ φ) := by
  intro h xs zs i0 hx hf
  obtain ⟨ys, j1, j2, h1, h2, _⟩ := fwd_inv (i1 := m.init) (i2 := c.init) hf
  obtain ⟨i, hi⟩ := hreach h
  obtain ⟨rest, i1', k1, k2⟩ := P1.finish hi hx h1
  have hlt := F1 hx h1
  have hne : rest ≠ [] := by
    rintro rfl
    rw [k1] at hlt; simp at hlt
  rw [k1] at h2
  exact F2 hne h2

end cons

theorem simRel_single {m : CoMod (.stream X) (.stream Y)} {φ R} (H : SimRel m φ R) :
    SimRel (Sequential.mod (.single m)) φ R where
  phi_nil := H.phi_nil
  init := H.init
  clean := H.clean
  step := H.step
  steps := H.steps
  fwd_state := H.fwd_state
  fwd_indep := H.fwd_indep

theorem padClean_single {m : CoMod (.stream X) (.stream Y)} {R} (H : PadClean m R) :
    PadClean (Sequential.mod (.single m)) R := ⟨H.eq, H.nil⟩

theorem padRel_single {m : CoMod (.stream X) (.stream Y)} {φ R} (H : PadRel m φ R) :
    PadRel (Sequential.mod (.single m)) φ R := ⟨H.finish, H.clean_probe⟩

/-- Functional stepping of a `Sequential`. -/
theorem pImplements_single {m : CoMod (.stream X) (.stream Y)} {φ} (H : PImplements m φ) :
    PImplements (Sequential.mod (.single m)) φ := by
  obtain ⟨P, h0, hs⟩ := H
  refine ⟨fun h s => P h (s.getD none), h0, ?_⟩
  intro h s x hP
  obtain ⟨o, s', h1, h2, h3⟩ := hs x hP
  refine ⟨o, some s', ?_, h2, h3⟩
  show Chain.pstep (.single m) x s = _
  unfold Chain.pstep
  have : (Chain.single m).pstepAll x (s.getD (Chain.single m).noneSt) = .ok (o, s') := h1
  rw [this]; rfl

theorem pImplements_cons {m : CoMod (.stream X) (.stream Y)} {c : Chain (.stream Y) (.stream Z)}
    {φ ψ} (hφ : φ [] = []) (H1 : PImplements m φ) (H2 : PImplements (Sequential.mod c) ψ) :
    PImplements (Sequential.mod (.cons m c)) (ψ ∘ φ) := by
  obtain ⟨P1, h10, h1s⟩ := H1
  obtain ⟨P2, h20, h2s⟩ := H2
  let P2' : List Y → c.St → Prop := fun h s => P2 h (some s) ∨ (h = [] ∧ s = c.noneSt)
  have step2 : ∀ {h s} (y : Y), P2' h s → ∃ o s', c.pstepAll y s = .ok (o, s') ∧
      ψ (h ++ [y]) = ψ h ++ o.toList ∧ P2' (h ++ [y]) s' := by
    intro h s y hs
    have hopt : ∃ so : Option c.St, P2 h so ∧ so.getD c.noneSt = s := by
      rcases hs with hs | ⟨rfl, rfl⟩
      · exact ⟨some s, hs, rfl⟩
      · exact ⟨none, h20, rfl⟩
    obtain ⟨so, hP, rfl⟩ := hopt
    obtain ⟨o, s', k1, k2, k3⟩ := h2s y hP
    have k1' : Chain.pstep c y so = .ok (o, s') := k1
    unfold Chain.pstep at k1'
    cases hq : c.pstepAll y (so.getD c.noneSt) with
    | error e => rw [hq, err_bind] at k1'; cases k1'
    | ok q =>
      obtain ⟨o', s''⟩ := q
      rw [hq, ok_bind] at k1'
      cases k1'
      exact ⟨_, _, rfl, k2, Or.inl k3⟩
  refine ⟨fun h s => P1 h ((s.getD (Chain.cons m c).noneSt : Option m.St × c.St)).1 ∧
    P2' (φ h) ((s.getD (Chain.cons m c).noneSt : Option m.St × c.St)).2, ?_, ?_⟩
  · exact ⟨h10, Or.inr ⟨hφ, rfl⟩⟩
  · intro h s x ⟨p1, p2⟩
    obtain ⟨o, s1, k1, k2, k3⟩ := h1s x p1
    show ∃ o s', Chain.pstep (.cons m c) x s = _ ∧ _
    unfold Chain.pstep
    have heq : (Chain.cons m c).pstepAll x (s.getD (Chain.cons m c).noneSt) = (do
        let (o, s1) ← m.pstep x ((s.getD (Chain.cons m c).noneSt : Option m.St × c.St)).1
        match o with
        | none => return (none, (s1, ((s.getD (Chain.cons m c).noneSt : Option m.St × c.St)).2))
        | some y =>
          let (z, s2) ← c.pstepAll y ((s.getD (Chain.cons m c).noneSt : Option m.St × c.St)).2
          return (z, (s1, s2))) := by
      rw [Chain.pstepAll]
      rw [k1]
      cases o <;> rfl
    rw [heq, k1, ok_bind]
    cases o with
    | none =>
      simp only [Option.toList_none, List.append_nil] at k2
      refine ⟨none, some (s1, _), rfl, by simp [k2], k3, ?_⟩
      show P2' (φ (h ++ [x])) _
      rw [k2]; exact p2
    | some y =>
      obtain ⟨z, s2, l1, l2, l3⟩ := step2 y p2
      simp only [Option.toList_some] at k2
      refine ⟨z, some (s1, s2), ?_, by simp only [Function.comp, k2, l2], k3, ?_⟩
      · simp only [l1, ok_bind]; rfl
      · show P2' (φ (h ++ [x])) _
        rw [k2]; exact l3

end Sequential
end CoInf
