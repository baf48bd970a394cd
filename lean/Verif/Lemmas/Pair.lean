import Verif.Lemmas.Soft
import Verif.Lemmas.Attention

set_option autoImplicit false

namespace CoInf.Pair
open Spec
variable {X Y Z : Type}

/-- Outputs of two members of different delay, aligned at the end. -/
def phi (f : Y → Y → Z) (φ1 φ2 : List X → List Y) (h : List X) : List Z :=
  List.zipWith f (lastN (φ2 h).length (φ1 h)) (φ2 h)

theorem lastN_append {α : Type} (k : Nat) (a b : List α) : lastN (k + b.length) (a ++ b) = lastN k a ++ b := by
  unfold lastN
  rw [List.length_append, show a.length + b.length - (k + b.length) = a.length - k by omega,
    List.drop_append_of_le_length (by omega)]

theorem zip_append (f : Y → Y → Z) {a b ys1 ys2 : List Y} (hl : b.length ≤ a.length) (h1 : ys2.length ≤ ys1.length)
    (h2 : b ≠ [] → ys1.length = ys2.length) :
    List.zipWith f (lastN (b ++ ys2).length (a ++ ys1)) (b ++ ys2) =
      List.zipWith f (lastN b.length a) b ++ List.zipWith f (lastN ys2.length ys1) ys2 := by
  by_cases hb : b = []
  · subst hb
    simp only [List.nil_append, List.zipWith_nil_right]
    rw [lastN_append_right _ _ h1]
  · rw [List.length_append, ← h2 hb, lastN_append, List.zipWith_append (lastN_length _ _ hl)]
    rw [Attn.lastN_all _ ys1 (by omega)]

/-- Reductions of two members: frames by `f`, clips aligned at the end. -/
structure Law (r : Reducer Y Z) (f : Y → Y → Z) (D1 D2 : Nat) : Prop where
  frame : ∀ a b, r.frame [a, b] = .ok (f a b)
  clip : ∀ as bs : List Y, bs ≠ [] → bs.length ≤ as.length → (D1 = D2 → as.length = bs.length) →
    r.clip [as, bs] = .ok (List.zipWith f (lastN bs.length as) bs)

variable {m1 m2 : CoMod (.stream X) (.stream Y)} {φ1 φ2 : List X → List Y} {R1 : List X → m1.Inst → Prop}
  {R2 : List X → m2.Inst → Prop} {r : Reducer Y Z} {f : Y → Y → Z} {D1 D2 : Nat}

theorem phi_append (hD : D1 ≤ D2) (l1 : ∀ h, (φ1 h).length = h.length - D1) (l2 : ∀ h, (φ2 h).length = h.length - D2)
    {h xs : List X} {ys1 ys2 : List Y} (e1 : φ1 (h ++ xs) = φ1 h ++ ys1) (e2 : φ2 (h ++ xs) = φ2 h ++ ys2) :
    phi f φ1 φ2 (h ++ xs) = phi f φ1 φ2 h ++ List.zipWith f (lastN ys2.length ys1) ys2 ∧
      ys2.length ≤ ys1.length ∧ (D1 = D2 → ys1.length = ys2.length) := by
  have a1 := congrArg List.length e1
  have a2 := congrArg List.length e2
  rw [List.length_append, l1, l1, List.length_append] at a1
  rw [List.length_append, l2, l2, List.length_append] at a2
  refine ⟨?_, by omega, by omega⟩
  unfold phi
  rw [e1, e2]
  refine zip_append f (by rw [l1, l2]; omega) (by omega) fun hne => ?_
  have := List.length_pos_iff.2 hne
  rw [l2] at this
  omega

theorem clip_ok (L : Law r f D1 D2) {ys1 ys2 : List Y} (h1 : ys2.length ≤ ys1.length)
    (h2 : D1 = D2 → ys1.length = ys2.length) :
    nonempty r.clip [optList ys1, optList ys2] = .ok (optList (List.zipWith f (lastN ys2.length ys1) ys2)) := by
  cases ys2 with
  | nil =>
    cases ys1 with
    | nil => rfl
    | cons a as => rw [List.zipWith_nil_right]; rfl
  | cons b bs =>
    cases ys1 with
    | nil => simp at h1
    | cons a as =>
      have h3 := L.clip (a :: as) (b :: bs) (by simp) h1 h2
      have e : nonempty r.clip [optList (a :: as), optList (b :: bs)] = (r.clip [a :: as, b :: bs]).map some := rfl
      rw [e, h3]
      have hne : List.zipWith f (lastN (b :: bs).length (a :: as)) (b :: bs) ≠ [] := by
        intro h
        have := congrArg List.length h
        rw [List.length_zipWith, lastN_length _ _ h1] at this
        simp at this
      rw [BroadcastReduce.optList_some hne]
      rfl

theorem frame_ok (L : Law r f D1 D2) {o1 o2 : Option Y} (h1 : o2.toList.length ≤ o1.toList.length) :
    nonempty r.frame [o1, o2] = .ok (match o1, o2 with | some a, some b => some (f a b) | _, _ => none) ∧
    (match o1, o2 with | some a, some b => some (f a b) | _, _ => none : Option Z).toList =
      List.zipWith f (lastN o2.toList.length o1.toList) o2.toList := by
  cases o1 with
  | none =>
    cases o2 with
    | none => exact ⟨rfl, rfl⟩
    | some b => simp at h1
  | some a =>
    cases o2 with
    | none => exact ⟨rfl, rfl⟩
    | some b =>
      refine ⟨?_, rfl⟩
      show (r.frame [a, b]).map some = _
      rw [L.frame]; rfl

theorem step_eq {i1 : m1.Inst} {i2 : m2.Inst} {u : Bool} {x : X} :
    BroadcastReduce.step r [m1, m2] (i1, i2, ()) u x =
      match m1.step i1 u x, m2.step i2 u x with
      | .ok (o1, j1), .ok (o2, j2) => (nonempty r.frame [o1, o2]).map fun o => (o, (j1, j2, ()))
      | .error e, _ => .error e
      | _, .error e => .error e := by
  unfold BroadcastReduce.step
  simp only [BroadcastReduce.stepAll]
  rcases m1.step i1 u x with e | ⟨o1, j1⟩
  · rfl
  · rcases m2.step i2 u x with e | ⟨o2, j2⟩
    · rfl
    · simp only [bind, Except.bind, pure, Except.pure]
      cases nonempty r.frame [o1, o2] <;> rfl

theorem steps_eq {i1 : m1.Inst} {i2 : m2.Inst} {p u : Bool} {xs : List X} :
    BroadcastReduce.steps r [m1, m2] (i1, i2, ()) p u xs =
      match m1.steps i1 p u xs, m2.steps i2 p u xs with
      | .ok (o1, j1), .ok (o2, j2) => (nonempty r.clip [o1, o2]).map fun o => (o, (j1, j2, ()))
      | .error e, _ => .error e
      | _, .error e => .error e := by
  unfold BroadcastReduce.steps
  simp only [BroadcastReduce.stepsAll]
  rcases m1.steps i1 p u xs with e | ⟨o1, j1⟩
  · rfl
  · rcases m2.steps i2 p u xs with e | ⟨o2, j2⟩
    · rfl
    · simp only [bind, Except.bind, pure, Except.pure]
      cases nonempty r.clip [o1, o2] <;> rfl

theorem fwd_eq {i1 : m1.Inst} {i2 : m2.Inst} {xs : List X} :
    BroadcastReduce.fwd r [m1, m2] (i1, i2, ()) xs =
      match m1.fwd i1 xs, m2.fwd i2 xs with
      | .ok (o1, j1), .ok (o2, j2) => (r.clip [o1, o2]).map fun o => (o, (j1, j2, ()))
      | .error e, _ => .error e
      | _, .error e => .error e := by
  unfold BroadcastReduce.fwd
  simp only [BroadcastReduce.fwdAll]
  rcases m1.fwd i1 xs with e | ⟨o1, j1⟩
  · rfl
  · rcases m2.fwd i2 xs with e | ⟨o2, j2⟩
    · rfl
    · simp only [bind, Except.bind, pure, Except.pure]
      cases r.clip [o1, o2] <;> rfl

/-- Two softly streaming members of a `BroadcastReduce` without delay matching. -/
theorem soft (H1 : SoftRel m1 φ1 R1) (H2 : SoftRel m2 φ2 R2) (hD : D1 ≤ D2)
    (l1 : ∀ h, (φ1 h).length = h.length - D1) (l2 : ∀ h, (φ2 h).length = h.length - D2) (L : Law r f D1 D2) :
    SoftRel (BroadcastReduce.mod r [m1, m2]) (phi f φ1 φ2) (fun h i => R1 h i.1 ∧ R2 h i.2.1) where
  phi_nil := by simp [phi, H2.phi_nil]
  init := ⟨H1.init, H2.init⟩
  clean := fun {h i} hr => ⟨H1.clean hr.1, H2.clean hr.2⟩
  step := by
    rintro h ⟨i1, i2, _⟩ x ⟨r1, r2⟩
    obtain ⟨o1, j1, a1, b1, c1⟩ := H1.step x r1
    obtain ⟨o2, j2, a2, b2, c2⟩ := H2.step x r2
    obtain ⟨p1, p2, _⟩ := phi_append (f := f) hD l1 l2 b1 b2
    obtain ⟨q1, q2⟩ := frame_ok L p2
    refine ⟨_, (j1, j2, ()), ?_, by rw [p1, ← q2], c1, c2⟩
    show BroadcastReduce.step r [m1, m2] (i1, i2, ()) true x = _
    rw [step_eq, a1, a2]
    simp only [q1]
    rfl
  steps := by
    rintro h ⟨i1, i2, _⟩ xs hx ⟨r1, r2⟩
    obtain ⟨o1, j1, a1, b1, c1⟩ := H1.steps xs hx r1
    obtain ⟨o2, j2, a2, b2, c2⟩ := H2.steps xs hx r2
    obtain ⟨p1, p2, p3⟩ := phi_append (f := f) hD l1 l2 b1 b2
    refine ⟨_, (j1, j2, ()), ?_, p1, c1, c2⟩
    show BroadcastReduce.steps r [m1, m2] (i1, i2, ()) false true xs = _
    rw [steps_eq, a1, a2]
    simp only [clip_ok L p2 p3]
    rfl
  probe := by
    rintro h ⟨i1, i2, _⟩ x o j ⟨r1, r2⟩ hs
    have hs : BroadcastReduce.step r [m1, m2] (i1, i2, ()) false x = .ok (o, j) := hs
    rw [step_eq] at hs
    rcases a1 : m1.step i1 false x with e | ⟨o1, j1⟩
    · rw [a1] at hs; cases hs
    rcases a2 : m2.step i2 false x with e | ⟨o2, j2⟩
    · rw [a1, a2] at hs; cases hs
    obtain ⟨b1, c1⟩ := H1.probe r1 a1
    obtain ⟨b2, c2⟩ := H2.probe r2 a2
    obtain ⟨p1, p2, _⟩ := phi_append (f := f) hD l1 l2 b1 b2
    obtain ⟨q1, q2⟩ := frame_ok L p2
    rw [a1, a2] at hs
    simp only [q1] at hs
    cases hs
    exact ⟨by rw [p1, ← q2], c1, c2⟩
  probes := by
    rintro h ⟨i1, i2, _⟩ xs o j hx ⟨r1, r2⟩ hs
    have hs : BroadcastReduce.steps r [m1, m2] (i1, i2, ()) false false xs = .ok (o, j) := hs
    rw [steps_eq] at hs
    rcases a1 : m1.steps i1 false false xs with e | ⟨o1, j1⟩
    · rw [a1] at hs; cases hs
    rcases a2 : m2.steps i2 false false xs with e | ⟨o2, j2⟩
    · rw [a1, a2] at hs; cases hs
    obtain ⟨ys1, rfl, b1, c1⟩ := H1.probes hx r1 a1
    obtain ⟨ys2, rfl, b2, c2⟩ := H2.probes hx r2 a2
    obtain ⟨p1, p2, p3⟩ := phi_append (f := f) hD l1 l2 b1 b2
    rw [a1, a2] at hs
    simp only [clip_ok L p2 p3] at hs
    cases hs
    exact ⟨_, rfl, p1, c1, c2⟩
  fwd_state := by
    rintro h ⟨i1, i2, _⟩ xs ys j ⟨r1, r2⟩ hs
    have hs : BroadcastReduce.fwd r [m1, m2] (i1, i2, ()) xs = .ok (ys, j) := hs
    rw [fwd_eq] at hs
    rcases a1 : m1.fwd i1 xs with e | ⟨o1, j1⟩
    · rw [a1] at hs; cases hs
    rcases a2 : m2.fwd i2 xs with e | ⟨o2, j2⟩
    · rw [a1, a2] at hs; cases hs
    rw [a1, a2] at hs
    have hs : (r.clip [o1, o2]).map (fun o => (o, (j1, j2, ()))) = Except.ok (ys, j) := hs
    cases hc : r.clip [o1, o2] with
    | error e => rw [hc] at hs; cases hs
    | ok v =>
      rw [hc] at hs
      cases hs
      exact ⟨H1.fwd_state r1 a1, H2.fwd_state r2 a2⟩
  fwd_indep := by
    rintro h ⟨i1, i2, _⟩ xs ⟨r1, r2⟩
    have e1 := H1.fwd_indep xs r1
    have e2 := H2.fwd_indep xs r2
    show (BroadcastReduce.fwd r [m1, m2] (i1, i2, ()) xs).map Prod.fst =
      (BroadcastReduce.fwd r [m1, m2] (m1.init, m2.init, ()) xs).map Prod.fst
    rw [fwd_eq, fwd_eq]
    rcases a1 : m1.fwd i1 xs with e | ⟨o1, j1⟩ <;> rcases b1 : m1.fwd m1.init xs with e' | ⟨o1', j1'⟩ <;>
      rw [a1, b1] at e1 <;> cases e1
    · rfl
    · rcases a2 : m2.fwd i2 xs with e | ⟨o2, j2⟩ <;> rcases b2 : m2.fwd m2.init xs with e' | ⟨o2', j2'⟩ <;>
        rw [a2, b2] at e2 <;> cases e2
      · rfl
      · show ((r.clip [o1, o2]).map _).map _ = ((r.clip [o1, o2]).map _).map _
        cases r.clip [o1, o2] <;> rfl

end CoInf.Pair
