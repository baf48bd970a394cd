import Verif.Spec.Observe
import Verif.Lemmas.Net

namespace CoInf
open Spec
variable {X Y Z : Type}

/-- Discipline in the treatment of attributes, for every object state whatsoever. -/
structure Tame {I O : Sig} (M : CoMod I O) : Prop where
  clean : ∀ i, M.clean i = M.init
  step_false : ∀ {i x o i'}, M.step i false x = .ok (o, i') → i' = i
  steps_false : ∀ {i p xs o i'}, M.steps i p false xs = .ok (o, i') → i' = i
  step_same : ∀ i x, (M.step i false x).map Prod.fst = (M.step i true x).map Prod.fst
  steps_same : ∀ i xs, (M.steps i false false xs).map Prod.fst = (M.steps i false true xs).map Prod.fst
  fwd_state : ∀ {i xs ys i'}, M.fwd i xs = .ok (ys, i') → i' = i
  fwd_indep : ∀ i xs, (M.fwd i xs).map Prod.fst = (M.fwd M.init xs).map Prod.fst

namespace Leaf
variable (L : Leaf X Y)

theorem step_false {i x o i'} (h : L.forwardStep i false x = .ok (o, i')) : i' = i := by
  unfold forwardStep at h
  cases hp : L.pstep x (L.get i) with
  | error e => rw [hp, err_bind] at h; cases h
  | ok p => rw [hp, ok_bind] at h; cases h; rfl

theorem steps_false {i p xs o i'} (h : L.forwardSteps i p false xs = .ok (o, i')) : i' = i := by
  unfold forwardSteps at h
  cases hp : L.loop (L.get i) xs with
  | error e => rw [hp, err_bind] at h; cases h
  | ok q =>
    rw [hp, ok_bind] at h
    cases p with
    | false => cases h; rfl
    | true =>
      simp only [if_true] at h
      cases h1 : L.endPads xs with
      | error e => rw [h1, err_bind] at h; cases h
      | ok pads =>
        rw [h1, ok_bind] at h
        cases h2 : L.loop (L.padState (L.save false q.2 i) q.2) pads with
        | error e => rw [h2, err_bind] at h; cases h
        | ok q2 => rw [h2, ok_bind] at h; cases h; rfl

theorem step_same (i x) :
    (L.forwardStep i false x).map Prod.fst = (L.forwardStep i true x).map Prod.fst := by
  unfold forwardStep
  cases L.pstep x (L.get i) <;> rfl

theorem steps_same (i xs) :
    (L.forwardSteps i false false xs).map Prod.fst = (L.forwardSteps i false true xs).map Prod.fst := by
  unfold forwardSteps
  cases L.loop (L.get i) xs <;> rfl

/-- End padding does not influence what is saved. -/
theorem steps_pad_state {i u xs o i' o' i''} (h : L.forwardSteps i true u xs = .ok (o, i'))
    (h' : L.forwardSteps i false u xs = .ok (o', i'')) : i' = i'' := by
  unfold forwardSteps at h h'
  cases hp : L.loop (L.get i) xs with
  | error e => rw [hp, err_bind] at h; cases h
  | ok q =>
    rw [hp, ok_bind] at h h'
    cases h'
    simp only [if_true] at h
    cases h1 : L.endPads xs with
    | error e => rw [h1, err_bind] at h; cases h
    | ok pads =>
      rw [h1, ok_bind] at h
      cases h2 : L.loop (L.padState (L.save u q.2 i) q.2) pads with
      | error e => rw [h2, err_bind] at h; cases h
      | ok q2 => rw [h2, ok_bind] at h; cases h; rfl

end Leaf

theorem map_pure_state {α β γ : Type} {e : Except Err α} {f : α → β} {i : γ} {y i'}
    (h : (e.map fun a => (f a, i)) = .ok (y, i')) : i' = i := by
  cases e with
  | error e => cases h
  | ok a => cases h; rfl

theorem Conv.tame [Zero X] [Zero Y] [Add Y] (c : Conv.Cfg X Y) : Tame (Conv.mod c) where
  clean := fun _ => rfl
  step_false := (Conv.leaf c).step_false
  steps_false := (Conv.leaf c).steps_false
  step_same := (Conv.leaf c).step_same
  steps_same := (Conv.leaf c).steps_same
  fwd_state := fun h => map_pure_state (f := id) h
  fwd_indep := fun i xs => by show Except.map _ (Except.map _ _) = Except.map _ (Except.map _ _); cases Conv.forward c xs <;> rfl

theorem Pool.tame (c : Pool.Cfg X Y) : Tame (Pool.mod c) where
  clean := fun _ => rfl
  step_false := (Pool.leaf c).step_false
  steps_false := (Pool.leaf c).steps_false
  step_same := (Pool.leaf c).step_same
  steps_same := (Pool.leaf c).steps_same
  fwd_state := fun h => map_pure_state (f := id) h
  fwd_indep := fun i xs => by show Except.map _ (Except.map _ _) = Except.map _ (Except.map _ _); cases Pool.forward c xs <;> rfl

theorem Delay.tame (c : Delay.Cfg X) : Tame (Delay.mod c) where
  clean := fun _ => rfl
  step_false := by
    intro i x o i' h
    by_cases hd : c.d = 0
    · simp only [hd, if_true] at h; cases h; rfl
    · simp only [hd, if_false] at h; exact (Delay.leaf c).step_false h
  steps_false := by
    intro i p xs o i' h
    by_cases hd : c.d = 0
    · simp only [hd, if_true] at h; cases h; rfl
    · simp only [hd, if_false] at h; exact (Delay.leaf c).steps_false h
  step_same := by
    intro i x
    by_cases hd : c.d = 0
    · simp only [hd, if_true]
    · simp only [hd, if_false]; exact (Delay.leaf c).step_same i x
  steps_same := by
    intro i x
    by_cases hd : c.d = 0
    · simp only [hd, if_true]
    · simp only [hd, if_false]; exact (Delay.leaf c).steps_same i x
  fwd_state := fun h => by cases h; rfl
  fwd_indep := fun i xs => rfl

theorem Skip.tame (n : Nat) : Tame (Skip.mod n X) where
  clean := fun _ => rfl
  step_false := (Skip.leaf n X).step_false
  steps_false := (Skip.leaf n X).steps_false
  step_same := (Skip.leaf n X).step_same
  steps_same := (Skip.leaf n X).steps_same
  fwd_state := fun h => by cases h; rfl
  fwd_indep := fun i xs => rfl

theorem Rnn.tame {V S : Type} (c : Rnn.Cfg V S) : Tame (Rnn.mod c) where
  clean := fun _ => rfl
  step_false := by
    intro i x o i' h
    have h : forwardStep c i false x = .ok (o, i') := h
    unfold forwardStep at h
    cases hp : Rnn.pstep c x i with
    | error e => rw [hp] at h; cases h
    | ok p => rw [hp] at h; cases h; rfl
  steps_false := by
    intro i p xs o i' h
    have h : forwardSteps c i p false xs = .ok (o, i') := h
    unfold forwardSteps at h
    cases hp : Rnn.forward c xs i with
    | error e => rw [hp] at h; cases h
    | ok p => rw [hp] at h; cases h; rfl
  step_same := by
    intro i x
    show (forwardStep c i false x).map Prod.fst = (forwardStep c i true x).map Prod.fst
    unfold forwardStep
    cases Rnn.pstep c x i <;> rfl
  steps_same := by
    intro i xs
    show (forwardSteps c i false false xs).map Prod.fst = (forwardSteps c i false true xs).map Prod.fst
    unfold forwardSteps
    cases Rnn.forward c xs i <;> rfl
  fwd_state := by
    intro i xs ys i' h
    have h : (forward c xs none).map (fun p => (p.1, i)) = .ok (ys, i') := h
    cases hp : Rnn.forward c xs none with
    | error e => rw [hp] at h; cases h
    | ok p => rw [hp] at h; cases h; rfl
  fwd_indep := by
    intro i xs
    show ((forward c xs none).map (fun p => (p.1, i))).map Prod.fst = ((forward c xs none).map (fun p => (p.1, none))).map Prod.fst
    cases Rnn.forward c xs none <;> rfl

theorem Pointwise.tame (f : X → Y) : Tame (Pointwise.mod f) where
  clean := fun _ => rfl
  step_false := fun _ => rfl
  steps_false := fun _ => rfl
  step_same := fun _ _ => rfl
  steps_same := fun _ _ => rfl
  fwd_state := fun _ => rfl
  fwd_indep := fun _ _ => rfl

theorem Lambda.tame (c : Lambda.Cfg X Y) : Tame (Lambda.mod c) where
  clean := fun _ => rfl
  step_false := fun _ => rfl
  steps_false := fun _ => rfl
  step_same := fun _ _ => rfl
  steps_same := fun _ _ => rfl
  fwd_state := fun _ => rfl
  fwd_indep := fun _ _ => rfl

theorem Stepping.tame (g : List X → Except Err (List Y)) (s p : Nat) : Tame (Stepping.mod g s p) where
  clean := fun _ => rfl
  step_false := fun _ => rfl
  steps_false := fun _ => rfl
  step_same := fun _ _ => rfl
  steps_same := fun _ _ => rfl
  fwd_state := fun _ => rfl
  fwd_indep := fun _ _ => rfl

namespace Sequential

theorem tame_single {I O : Sig} {m : CoMod I O} (H : Tame m) : Tame (Sequential.mod (.single m)) where
  clean := H.clean
  step_false := H.step_false
  steps_false := H.steps_false
  step_same := H.step_same
  steps_same := H.steps_same
  fwd_state := H.fwd_state
  fwd_indep := H.fwd_indep

theorem tame_cons {I J O : Sig} {m : CoMod I J} {c : Chain J O} (H1 : Tame m)
    (H2 : Tame (Sequential.mod c)) : Tame (Sequential.mod (.cons m c)) where
  clean := fun i => by
    show (m.clean i.1, c.clean i.2) = (m.init, c.init)
    rw [H1.clean]; exact congrArg _ (H2.clean i.2)
  step_false := by
    rintro ⟨i1, i2⟩ x o i' h
    have h : (Chain.cons m c).step (i1, i2) false x = .ok (o, i') := h
    rw [Chain.step.eq_2] at h
    cases h1 : m.step i1 false x with
    | error e => simp only [h1, err_bind] at h; cases h
    | ok p =>
      obtain ⟨o1, j1⟩ := p
      simp only [h1, ok_bind] at h
      have e1 := H1.step_false h1
      cases o1 with
      | none => cases h; rw [e1]
      | some y =>
        simp only at h
        cases h2 : c.step i2 false y with
        | error e => simp only [h2, err_bind] at h; cases h
        | ok q =>
          simp only [h2, ok_bind] at h
          cases h
          rw [e1, H2.step_false (i := i2) (x := y) (o := q.1) (i' := q.2) h2]
  steps_false := by
    rintro ⟨i1, i2⟩ p x o i' h
    have h : (Chain.cons m c).steps (i1, i2) p false x = .ok (o, i') := h
    rw [Chain.steps.eq_2] at h
    cases h1 : m.steps i1 p false x with
    | error e => simp only [h1, err_bind] at h; cases h
    | ok q =>
      obtain ⟨o1, j1⟩ := q
      simp only [h1, ok_bind] at h
      have e1 := H1.steps_false h1
      cases o1 with
      | none => cases h; rw [e1]
      | some y =>
        simp only at h
        cases h2 : c.steps i2 p false y with
        | error e => simp only [h2, err_bind] at h; cases h
        | ok q =>
          simp only [h2, ok_bind] at h
          cases h
          rw [e1, H2.steps_false (i := i2) (xs := y) (o := q.1) (i' := q.2) h2]
  step_same := by
    rintro ⟨i1, i2⟩ x
    show Except.map _ ((Chain.cons m c).step (i1, i2) false x) = Except.map _ ((Chain.cons m c).step (i1, i2) true x)
    rw [Chain.step.eq_2, Chain.step.eq_2]
    have e1 := H1.step_same i1 x
    cases h1 : m.step i1 false x with
    | error e => simp only [map_fst_err e1 h1, err_bind]
    | ok p =>
      obtain ⟨o1, j1⟩ := p
      obtain ⟨j1', h1'⟩ := map_fst_ok e1 h1
      simp only [h1', ok_bind]
      cases o1 with
      | none => rfl
      | some y =>
        have e2 : (c.step i2 false y).map Prod.fst = (c.step i2 true y).map Prod.fst := H2.step_same i2 y
        simp only
        cases h2 : c.step i2 false y with
        | error e => simp only [map_fst_err e2 h2, err_bind]
        | ok q =>
          obtain ⟨j2', h2'⟩ := map_fst_ok e2 h2
          simp only [h2', ok_bind]; rfl
  steps_same := by
    rintro ⟨i1, i2⟩ x
    show Except.map _ ((Chain.cons m c).steps (i1, i2) false false x) = Except.map _ ((Chain.cons m c).steps (i1, i2) false true x)
    rw [Chain.steps.eq_2, Chain.steps.eq_2]
    have e1 := H1.steps_same i1 x
    cases h1 : m.steps i1 false false x with
    | error e => simp only [map_fst_err e1 h1, err_bind]
    | ok p =>
      obtain ⟨o1, j1⟩ := p
      obtain ⟨j1', h1'⟩ := map_fst_ok e1 h1
      simp only [h1', ok_bind]
      cases o1 with
      | none => rfl
      | some y =>
        have e2 : (c.steps i2 false false y).map Prod.fst = (c.steps i2 false true y).map Prod.fst := H2.steps_same i2 y
        simp only
        cases h2 : c.steps i2 false false y with
        | error e => simp only [map_fst_err e2 h2, err_bind]
        | ok q =>
          obtain ⟨j2', h2'⟩ := map_fst_ok e2 h2
          simp only [h2', ok_bind]; rfl
  fwd_state := by
    rintro ⟨i1, i2⟩ x o i' h
    have h : (Chain.cons m c).fwd (i1, i2) x = .ok (o, i') := h
    rw [Chain.fwd.eq_2] at h
    cases h1 : m.fwd i1 x with
    | error e => simp only [h1, err_bind] at h; cases h
    | ok p =>
      obtain ⟨y, j1⟩ := p
      simp only [h1, ok_bind] at h
      have e1 := H1.fwd_state h1
      cases h2 : c.fwd i2 y with
      | error e => simp only [h2, err_bind] at h; cases h
      | ok q =>
        simp only [h2, ok_bind] at h
        cases h
        rw [e1, H2.fwd_state (i := i2) (xs := y) (ys := q.1) (i' := q.2) h2]
  fwd_indep := by
    rintro ⟨i1, i2⟩ x
    show Except.map _ ((Chain.cons m c).fwd (i1, i2) x) = Except.map _ ((Chain.cons m c).fwd (m.init, c.init) x)
    rw [Chain.fwd.eq_2, Chain.fwd.eq_2]
    have e1 := H1.fwd_indep i1 x
    cases h1 : m.fwd i1 x with
    | error e => simp only [map_fst_err e1 h1, err_bind]
    | ok p =>
      obtain ⟨y, j1⟩ := p
      obtain ⟨j1', h1'⟩ := map_fst_ok e1 h1
      simp only [h1', ok_bind]
      have e2 : (c.fwd i2 y).map Prod.fst = (c.fwd c.init y).map Prod.fst := H2.fwd_indep i2 y
      cases h2 : c.fwd i2 y with
      | error e => simp only [map_fst_err e2 h2, err_bind]
      | ok q =>
        obtain ⟨j2', h2'⟩ := map_fst_ok e2 h2
        simp only [h2', ok_bind]; rfl

end Sequential

namespace BroadcastReduce

theorem clean_eq {ms : List (CoMod (.stream X) (.stream Y))} (H : ∀ m ∈ ms, Tame m) (i : Inst ms) :
    clean ms i = init ms := by
  induction ms with
  | nil => rfl
  | cons m ms ih =>
    show (m.clean i.1, clean ms i.2) = (m.init, init ms)
    rw [(H m (by simp)).clean, ih (fun m' h' => H m' (by simp [h']))]

theorem stepAll_false {ms : List (CoMod (.stream X) (.stream Y))} (H : ∀ m ∈ ms, Tame m) :
    ∀ {i x os i'}, stepAll ms i false x = .ok (os, i') → i' = i := by
  induction ms with
  | nil => intro i x os i' h; cases h; rfl
  | cons m ms ih =>
    rintro ⟨i1, i2⟩ x os i' h
    rw [stepAll] at h
    cases h1 : m.step i1 false x with
    | error e => rw [h1, err_bind] at h; cases h
    | ok p =>
      rw [h1, ok_bind] at h
      simp only at h
      cases h2 : stepAll ms i2 false x with
      | error e => rw [h2, err_bind] at h; cases h
      | ok q =>
        rw [h2, ok_bind] at h
        cases h
        rw [(H m (by simp)).step_false (o := p.1) (i' := p.2) h1,
          ih (fun m' h' => H m' (by simp [h'])) (os := q.1) (i' := q.2) h2]

theorem stepsAll_false {ms : List (CoMod (.stream X) (.stream Y))} (H : ∀ m ∈ ms, Tame m) :
    ∀ {i p x os i'}, stepsAll ms i p false x = .ok (os, i') → i' = i := by
  induction ms with
  | nil => intro i p x os i' h; cases h; rfl
  | cons m ms ih =>
    rintro ⟨i1, i2⟩ p x os i' h
    rw [stepsAll] at h
    cases h1 : m.steps i1 p false x with
    | error e => rw [h1, err_bind] at h; cases h
    | ok q1 =>
      rw [h1, ok_bind] at h
      simp only at h
      cases h2 : stepsAll ms i2 p false x with
      | error e => rw [h2, err_bind] at h; cases h
      | ok q =>
        rw [h2, ok_bind] at h
        cases h
        rw [(H m (by simp)).steps_false (o := q1.1) (i' := q1.2) h1,
          ih (fun m' h' => H m' (by simp [h'])) (os := q.1) (i' := q.2) h2]

theorem stepAll_same {ms : List (CoMod (.stream X) (.stream Y))} (H : ∀ m ∈ ms, Tame m) (x : X) : ∀ i,
    (stepAll ms i false x).map Prod.fst = (stepAll ms i true x).map Prod.fst := by
  induction ms with
  | nil => intro i; rfl
  | cons m ms ih =>
    rintro ⟨i1, i2⟩
    rw [stepAll, stepAll]
    have e1 := (H m (by simp)).step_same i1 x
    have e2 := ih (fun m' h' => H m' (by simp [h'])) i2
    cases h1 : m.step i1 false x with
    | error e => simp only [map_fst_err e1 h1, err_bind]
    | ok p =>
      obtain ⟨j1', h1'⟩ := map_fst_ok e1 h1
      simp only [h1', ok_bind]
      cases h2 : stepAll ms i2 false x with
      | error e => simp only [map_fst_err e2 h2, err_bind]
      | ok q =>
        obtain ⟨j2', h2'⟩ := map_fst_ok e2 h2
        simp only [h2', ok_bind]; rfl

theorem stepsAll_same {ms : List (CoMod (.stream X) (.stream Y))} (H : ∀ m ∈ ms, Tame m) (x : List X) : ∀ i,
    (stepsAll ms i false false x).map Prod.fst = (stepsAll ms i false true x).map Prod.fst := by
  induction ms with
  | nil => intro i; rfl
  | cons m ms ih =>
    rintro ⟨i1, i2⟩
    rw [stepsAll, stepsAll]
    have e1 := (H m (by simp)).steps_same i1 x
    have e2 := ih (fun m' h' => H m' (by simp [h'])) i2
    cases h1 : m.steps i1 false false x with
    | error e => simp only [map_fst_err e1 h1, err_bind]
    | ok p =>
      obtain ⟨j1', h1'⟩ := map_fst_ok e1 h1
      simp only [h1', ok_bind]
      cases h2 : stepsAll ms i2 false false x with
      | error e => simp only [map_fst_err e2 h2, err_bind]
      | ok q =>
        obtain ⟨j2', h2'⟩ := map_fst_ok e2 h2
        simp only [h2', ok_bind]; rfl

theorem fwdAll_state {ms : List (CoMod (.stream X) (.stream Y))} (H : ∀ m ∈ ms, Tame m) :
    ∀ {i x os i'}, fwdAll ms i x = .ok (os, i') → i' = i := by
  induction ms with
  | nil => intro i x os i' h; cases h; rfl
  | cons m ms ih =>
    rintro ⟨i1, i2⟩ x os i' h
    rw [fwdAll] at h
    cases h1 : m.fwd i1 x with
    | error e => rw [h1, err_bind] at h; cases h
    | ok p =>
      rw [h1, ok_bind] at h
      simp only at h
      cases h2 : fwdAll ms i2 x with
      | error e => rw [h2, err_bind] at h; cases h
      | ok q =>
        rw [h2, ok_bind] at h
        cases h
        rw [(H m (by simp)).fwd_state (ys := p.1) (i' := p.2) h1,
          ih (fun m' h' => H m' (by simp [h'])) (os := q.1) (i' := q.2) h2]

theorem fwdAll_same {ms : List (CoMod (.stream X) (.stream Y))} (H : ∀ m ∈ ms, Tame m) (x : List X) : ∀ i,
    (fwdAll ms i x).map Prod.fst = (fwdAll ms (init ms) x).map Prod.fst := by
  induction ms with
  | nil => intro i; rfl
  | cons m ms ih =>
    rintro ⟨i1, i2⟩
    rw [fwdAll, fwdAll, init]
    have e1 := (H m (by simp)).fwd_indep i1 x
    have e2 := ih (fun m' h' => H m' (by simp [h'])) i2
    cases h1 : m.fwd i1 x with
    | error e => simp only [map_fst_err e1 h1, err_bind]
    | ok p =>
      obtain ⟨j1', h1'⟩ := map_fst_ok e1 h1
      simp only [h1', ok_bind]
      cases h2 : fwdAll ms i2 x with
      | error e => simp only [map_fst_err e2 h2, err_bind]
      | ok q =>
        obtain ⟨j2', h2'⟩ := map_fst_ok e2 h2
        simp only [h2', ok_bind]; rfl

theorem bind_state {α β γ : Type} {e : Except Err (α × γ)} {g : α → Except Err β} {o : β} {i' : γ}
    (h : (do let (a, i1) ← e; let b ← g a; return (b, i1)) = .ok (o, i')) : ∃ a, e = .ok (a, i') := by
  cases e with
  | error e => cases h
  | ok p =>
    rw [ok_bind] at h
    simp only at h
    cases hg : g p.1 with
    | error e => rw [hg, err_bind] at h; cases h
    | ok b => rw [hg, ok_bind] at h; cases h; exact ⟨p.1, rfl⟩

theorem bind_same {α β γ : Type} {e e' : Except Err (α × γ)} {g : α → Except Err β}
    (h : e.map Prod.fst = e'.map Prod.fst) :
    (do let (a, i1) ← e; let b ← g a; return (b, i1) : Except Err (β × γ)).map Prod.fst =
    (do let (a, i1) ← e'; let b ← g a; return (b, i1) : Except Err (β × γ)).map Prod.fst := by
  cases h1 : e with
  | error er => rw [map_fst_err h h1]
  | ok p =>
    obtain ⟨j, h1'⟩ := map_fst_ok h h1
    rw [h1', ok_bind, ok_bind]
    simp only
    cases g p.1 <;> rfl

theorem tame {r : Reducer Y Z} {ms : List (CoMod (.stream X) (.stream Y))} (H : ∀ m ∈ ms, Tame m) :
    Tame (mod r ms) where
  clean := clean_eq H
  step_false := fun h => by obtain ⟨a, ha⟩ := bind_state h; exact stepAll_false H ha
  steps_false := fun h => by obtain ⟨a, ha⟩ := bind_state h; exact stepsAll_false H ha
  step_same := fun i x => bind_same (stepAll_same H x i)
  steps_same := fun i x => bind_same (stepsAll_same H x i)
  fwd_state := fun h => by obtain ⟨a, ha⟩ := bind_state h; exact fwdAll_state H ha
  fwd_indep := fun i x => bind_same (fwdAll_same H x i)

end BroadcastReduce

theorem net_tame {k : Cls} {m : CoMod (.stream X) (.stream Y)} {φ} (h : Net k m φ) : Tame m := by
  induction h with
  | conv c _ => exact Conv.tame c
  | convRound c _ => exact Conv.tame c
  | pool c _ => exact Pool.tame c
  | delay c _ => exact Delay.tame c
  | skip n _ _ => exact Skip.tame n
  | rnn c _ => exact Rnn.tame c
  | pointwise f => exact Pointwise.tame f
  | lambda c f _ => exact Lambda.tame c
  | stepping g f s p _ _ => exact Stepping.tame g s p
  | single _ ih => exact Sequential.tame_single ih
  | cons _ _ ih1 ih2 => exact Sequential.tame_cons ih1 ih2
  | reduce r f ms φs _ _ _ _ _ _ ih =>
    refine BroadcastReduce.tame fun m hm => ?_
    obtain ⟨j, rfl⟩ := List.mem_ofFn.1 hm
    exact ih j

end CoInf
