import Verif.Lemmas.Conv
import Verif.Lemmas.Pool
import Verif.Lemmas.Delay
import Verif.Model.Closure

namespace CoInf
open Spec
variable {X Y Z : Type}

theorem Spec.PadRel.padClean {M : CoMod (.stream X) (.stream Y)} {φ R} (S : SimRel M φ R)
    (P : PadRel M φ R) (hnil : ∀ {ys i0}, M.fwd M.init [] = .ok (ys, i0) → ys = []) :
    PadClean M R where
  eq := by
    intro i xs ys i0 u hi hx hf
    cases u
    · exact P.clean_probe hi hx hf
    · obtain ⟨rest, i', h1, h2⟩ := P.finish (h := []) hi hx hf
      rw [S.phi_nil, List.nil_append] at h1
      subst h1
      exact ⟨i', h2⟩
  nil := hnil

/-! ### Window operators -/

theorem sched_window {K S P : Nat} (hP : P + 1 ≤ K) (fill : X → X) (f : List X → Y) :
    Sched (streamOut K S P fill f) (K - 1 - P) S := by
  intro xs
  rw [streamOut, slide_length]
  cases xs with
  | nil => simp [padStart, windowCount]; omega
  | cons a t =>
    rw [padStart_length _ _ _ (by simp)]
    unfold windowCount
    generalize (a :: t).length = n
    by_cases h : n ≤ K - 1 - P
    · rw [if_pos h, if_pos (by omega)]
    · rw [if_neg h, if_neg (by omega)]
      congr 2; omega

theorem clipOut_length (K S P : Nat) (fill : X → X) (f : List X → Y) {xs : List X} (hx : xs ≠ []) :
    (clipOut K S P fill f xs).length = windowCount K S (xs.length + 2 * P) := by
  rw [clipOut_eq _ _ _ _ _ hx, streamOut, slide_length, padStart_length _ _ _ (by simp [hx])]
  simp
  congr 1; omega

/-! ### Pointwise modules -/

namespace Pointwise
variable (f : X → Y)

theorem simRel : SimRel (mod f) (List.map f) (fun _ _ => True) where
  phi_nil := rfl
  init := trivial
  clean := fun _ => trivial
  step := fun {h i} u x _ => ⟨some (f x), i, rfl, by simp, trivial⟩
  steps := fun {h i} u xs hx _ => ⟨xs.map f, i, by
    cases xs with
    | nil => exact absurd rfl hx
    | cons a l => rfl, by simp, trivial⟩
  fwd_state := fun _ _ => trivial
  fwd_indep := fun _ _ => rfl

theorem padRel : PadRel (mod f) (List.map f) (fun _ _ => True) where
  finish := by
    intro h i xs ys i0 _ hx hf
    cases hf
    refine ⟨xs.map f, i, by simp, ?_⟩
    cases xs with
    | nil => exact absurd rfl hx
    | cons a l => rfl
  clean_probe := by
    intro i xs ys i0 _ hx hf
    cases hf
    refine ⟨i, ?_⟩
    cases xs with
    | nil => exact absurd rfl hx
    | cons a l => rfl

theorem flow : Flow (mod f) (List.map f) := by
  intro h xs ys i0 hx hf
  cases hf
  have := List.length_pos_of_ne_nil hx
  simpa using this

theorem pImplements : PImplements (mod f) (List.map f) :=
  ⟨fun _ _ => True, trivial, fun {h s} x _ => ⟨some (f x), s, rfl, by simp, trivial⟩⟩

theorem sched : Sched (List.map f) 0 1 := by
  intro xs
  cases xs <;> simp

end Pointwise

namespace Lambda
variable (c : Cfg X Y) (f : X → Y)

/-- All entry points of the closure apply `f` to each frame. -/
structure Lawful : Prop where
  fwd : ∀ xs, xs ≠ [] → forward c xs = .ok (xs.map f)
  steps : ∀ xs, xs ≠ [] → forwardSteps c xs = .ok (xs.map f)
  step : ∀ x, stepFn c x = .ok (f x)
  nil : ∀ ys, forward c [] = .ok ys → ys = []

/-- `Lambda(fn)` (`takes_time=False`). -/
theorem lawful_frame : Lawful { fn := some (.frame f) } f where
  fwd := fun xs h => by simp [forward, applyClip, h]
  steps := fun xs h => by simp [forwardSteps, applyClip, h]
  step := fun x => rfl
  nil := fun ys h => by simp [forward, applyClip] at h

/-- `Add`, `Multiply`, `Identity`, ... -/
theorem lawful_elementwise : Lawful (elementwise f) f where
  fwd := fun xs h => rfl
  steps := fun xs h => rfl
  step := fun x => rfl
  nil := fun ys h => by cases h; rfl

variable {c f}

theorem simRel (H : Lawful c f) : SimRel (mod c) (List.map f) (fun _ _ => True) where
  phi_nil := rfl
  init := trivial
  clean := fun _ => trivial
  step := fun {h i} u x _ => ⟨some (f x), i, by simp [H.step, Except.map], by simp, trivial⟩
  steps := fun {h i} u xs hx _ => ⟨xs.map f, i, by
    simp only [H.steps xs hx, Except.map]
    cases xs with
    | nil => exact absurd rfl hx
    | cons a l => rfl, by simp, trivial⟩
  fwd_state := fun _ _ => trivial
  fwd_indep := fun _ _ => rfl

theorem padRel (H : Lawful c f) : PadRel (mod c) (List.map f) (fun _ _ => True) where
  finish := by
    intro h i xs ys i0 _ hx hf
    simp only [H.fwd (h ++ xs) (by simp [hx]), Except.map] at hf
    cases hf
    refine ⟨xs.map f, i, by simp, ?_⟩
    simp only [H.steps xs hx, Except.map]
    cases xs with
    | nil => exact absurd rfl hx
    | cons a l => rfl
  clean_probe := by
    intro i xs ys i0 _ hx hf
    simp only [H.fwd xs hx, Except.map] at hf
    cases hf
    refine ⟨i, ?_⟩
    simp only [H.steps xs hx, Except.map]
    cases xs with
    | nil => exact absurd rfl hx
    | cons a l => rfl

theorem fwd_nil (H : Lawful c f) {ys i0} (h : (mod c).fwd (mod c).init [] = .ok (ys, i0)) :
    ys = [] := by
  simp only [Except.map] at h
  split at h
  · cases h
  · rename_i y hy
    cases h
    exact H.nil _ hy

theorem flow (H : Lawful c f) : Flow (mod c) (List.map f) := by
  intro h xs ys i0 hx hf
  simp only [H.fwd (h ++ xs) (by simp [hx]), Except.map] at hf
  cases hf
  have := List.length_pos_of_ne_nil hx
  simpa using this

theorem pImplements (H : Lawful c f) : PImplements (mod c) (List.map f) :=
  ⟨fun _ _ => True, trivial, fun {h s} x _ => ⟨some (f x), s, by simp [H.step, Except.map], by simp, trivial⟩⟩

end Lambda

/-! ### Delay and Skip -/

namespace Delay
variable (c : Cfg X)

/-- Relation covering `d = 0` as well. -/
def Rel (h : List X) (i : St X) : Prop := c.d = 0 ∨ Inv c h ((leaf c).get i)

theorem simRel' : SimRel (mod c) (delayed c.d (lead c)) (Rel c) := by
  rcases Nat.eq_zero_or_pos c.d with hd | hd
  · have e : delayed c.d (lead c) = (id : List X → List X) := by
      funext xs; simp [delayed, lead, hd]
    rw [e]
    have H := simRel_zero c hd
    exact {
      phi_nil := rfl
      init := Or.inl hd
      clean := fun _ => Or.inl hd
      step := fun u x _ => by
        obtain ⟨o, i', h1, h2, _⟩ := H.step u x trivial
        exact ⟨o, i', h1, h2, Or.inl hd⟩
      steps := fun u xs hx _ => by
        obtain ⟨o, i', h1, h2, _⟩ := H.steps u xs hx trivial
        exact ⟨o, i', h1, h2, Or.inl hd⟩
      fwd_state := fun _ _ => Or.inl hd
      fwd_indep := fun _ _ => rfl }
  · have H := simRel c hd
    have hr : ∀ {h i}, Rel c h i → Inv c h ((leaf c).get i) := fun {h i} r => by
      rcases r with r | r
      · omega
      · exact r
    exact {
      phi_nil := H.phi_nil
      init := Or.inr H.init
      clean := fun r => Or.inr (H.clean (hr r))
      step := fun u x r => by
        obtain ⟨o, i', h1, h2, h3⟩ := H.step u x (hr r)
        exact ⟨o, i', h1, h2, Or.inr h3⟩
      steps := fun u xs hx r => by
        obtain ⟨o, i', h1, h2, h3⟩ := H.steps u xs hx (hr r)
        exact ⟨o, i', h1, h2, Or.inr h3⟩
      fwd_state := fun r hf => Or.inr (H.fwd_state (hr r) hf)
      fwd_indep := fun _ _ => rfl }

theorem delayed_pad (d : Nat) (h xs : List X) (p : X) :
    delayed d 0 (h ++ xs ++ List.replicate d p) = h ++ xs := by
  have : (h ++ xs ++ List.replicate d p).length - d = (h ++ xs).length := by simp; omega
  rw [delayed, this, List.take_left, List.drop_zero]

/-- A `Delay` without shrinking finishes a stream exactly like `forward` (the identity). -/
theorem padRel (hs : c.shrink = .off) : PadRel (mod c) (delayed c.d (lead c)) (Rel c) := by
  have hl : lead c = 0 := by simp [lead, hs]
  have hfw : ∀ xs, forward c xs = xs := fun xs => by simp [forward, hs]
  rcases Nat.eq_zero_or_pos c.d with hd | hd
  · have e : delayed c.d (lead c) = (id : List X → List X) := by
      funext xs; simp [delayed, lead, hd]
    rw [e]
    exact {
      finish := by
        intro h i xs ys i0 _ hx hf
        simp only [hfw] at hf
        cases hf
        refine ⟨xs, i, rfl, ?_⟩
        simp only [hd, if_true]
        cases xs with
        | nil => exact absurd rfl hx
        | cons a l => rfl
      clean_probe := by
        intro i xs ys i0 _ hx hf
        simp only [hfw] at hf
        cases hf
        refine ⟨i, ?_⟩
        simp only [hd, if_true]
        cases xs with
        | nil => exact absurd rfl hx
        | cons a l => rfl }
  · have hd0 : c.d ≠ 0 := by omega
    have hr : ∀ {h i}, Rel c h i → Inv c h ((leaf c).get i) := fun {h i} r => by
      rcases r with r | r
      · omega
      · exact r
    rw [hl]
    have L := leafRel c hd
    rw [hl] at L
    exact {
      finish := by
        intro h i xs ys i0 r hx hf
        simp only [hfw] at hf
        cases hf
        obtain ⟨zs, i', h1, h2, h3⟩ := L.forwardSteps_pad true xs hx (hr r) (Or.inl rfl)
        have e : (leaf c).padding = c.d := rfl
        rw [e, delayed_pad] at h2
        refine ⟨zs, i', h2, ?_⟩
        simp only [hd0, if_false]
        exact h1
      clean_probe := by
        intro i xs ys i0 r hx hf
        simp only [hfw] at hf
        cases hf
        have hn : (leaf c).get i = none := by
          rcases hr r with ⟨_, h⟩ | ⟨b, idx, pad, h, _⟩
          · exact h
          · exact absurd rfl h
        obtain ⟨zs, i', h1, h2, h3⟩ := L.forwardSteps_pad false xs hx (hr r) (Or.inr (Or.inl hn))
        have e : (leaf c).padding = c.d := rfl
        rw [e, delayed_pad, L.phi_nil, List.nil_append, List.nil_append] at h2
        subst h2
        refine ⟨i', ?_⟩
        simp only [hd0, if_false]
        exact h1 }

theorem fwd_nil {ys i0} (h : (mod c).fwd (mod c).init [] = .ok (ys, i0)) : ys = [] := by
  have : forward c [] = ys := by cases h; rfl
  rw [← this]
  unfold forward
  split
  · rfl
  · split <;> simp

theorem flow (hs : c.shrink = .off) : Flow (mod c) (delayed c.d (lead c)) := by
  intro h xs ys i0 hx hf
  have : ys = h ++ xs := by cases hf; simp [forward, hs]
  subst this
  have := List.length_pos_of_ne_nil hx
  simp [delayed]; omega

theorem sched : Sched (delayed (X := X) c.d (lead c)) (c.d + lead c) 1 := by
  intro xs
  simp only [delayed, List.length_drop, List.length_take]
  split <;> omega

end Delay

namespace Skip
variable (n : Nat)

theorem padRel : PadRel (mod n X) (List.drop n) (fun h i => Inv n h ((leaf n X).get i)) where
  finish := by
    intro h i xs ys i0 r hx hf
    obtain ⟨zs, i', h1, h2, h3⟩ := (leafRel n).forwardSteps_pad true xs hx r (Or.inl rfl)
    cases hf
    have e : (leaf n X).padding = 0 := rfl
    rw [e, List.replicate_zero, List.append_nil] at h2
    exact ⟨zs, i', h2, h1⟩
  clean_probe := by
    intro i xs ys i0 r hx hf
    obtain ⟨zs, i', h1, h2, h3⟩ := (leafRel n).forwardSteps_pad false xs hx r (Or.inr (Or.inr rfl))
    cases hf
    have e : (leaf n X).padding = 0 := rfl
    rw [e, List.replicate_zero, List.append_nil, List.drop_nil, List.nil_append, List.nil_append] at h2
    subst h2
    exact ⟨i', h1⟩

theorem fwd_nil {ys i0} (h : (mod n X).fwd (mod n X).init [] = .ok (ys, i0)) : ys = [] := by
  cases h; simp

theorem sched : Sched (List.drop n : List X → List X) n 1 := by
  intro xs
  rw [List.length_drop]
  split <;> omega

end Skip

/-! ### Convolution and pooling -/

namespace Conv
variable [Zero X] [AddCommMonoid Y] (c : Cfg X Y)

theorem fwd_nil {ys i0} (h : (mod c).fwd (mod c).init [] = .ok (ys, i0)) : ys = [] := by
  simp [forward, Except.map] at h

theorem sched (hc : Ok c) : Sched (phi c) (c.K - 1 - c.P) c.S := sched_window hc.hP _ _

theorem fwd_length (hm : c.padMode = c.fill) {xs ys i i'} (h : (mod c).fwd i xs = .ok (ys, i')) :
    xs ≠ [] ∧ c.K ≤ xs.length + 2 * c.P ∧ ys.length = (xs.length + 2 * c.P - c.K) / c.S + 1 := by
  simp only [Except.map] at h
  split at h
  · cases h
  · rename_i ys' hf
    cases h
    obtain ⟨hne, he⟩ := forward_eq c hm hf
    have hlen := clipOut_length c.K c.S c.P (c.fill.make 0) (corr c.w c.bias) hne
    rw [← he] at hlen
    have hk : c.K ≤ xs.length + 2 * c.P := by
      cases xs with
      | nil => exact absurd rfl hne
      | cons a t =>
        have hl : (a :: t).getLast? = some ((a :: t).getLast (by simp)) :=
          List.getLast?_eq_some_getLast _
        unfold forward at hf
        rw [hl] at hf
        simp only [List.head?_cons] at hf
        unfold torchConv at hf
        split at hf
        · cases hf
        · rename_i hh
          simp at hh ⊢
          omega
    refine ⟨hne, hk, ?_⟩
    rw [hlen, windowCount, if_neg (by omega)]

theorem flow (hc : Ok c) (hS : c.S = 1) (hm : c.padMode = c.fill) : Flow (mod c) (phi c) := by
  intro h xs ys i0 hx hf
  obtain ⟨_, hk, hl⟩ := fwd_length c hm hf
  have hp := List.length_pos_of_ne_nil hx
  have := hc.hP
  rw [sched c hc h, hl, hS]
  simp only [List.length_append, Nat.div_one] at *
  split <;> omega

end Conv

namespace Pool
variable (c : Cfg X Y)

theorem fwd_nil {ys i0} (h : (mod c).fwd (mod c).init [] = .ok (ys, i0)) : ys = [] := by
  simp [forward, Except.map] at h

theorem sched (hc : Ok c) : Sched (phi c) (c.K - 1 - c.P) c.S := sched_window hc.hP _ _

theorem fwd_length (hc : Ok c) {xs ys i i'}
    (h : (mod c).fwd i xs = .ok (ys, i')) :
    xs ≠ [] ∧ c.K ≤ xs.length + 2 * c.P ∧ ys.length = (xs.length + 2 * c.P - c.K) / c.S + 1 := by
  have hb := bufLen_eq c hc
  simp only [Except.map] at h
  split at h
  · cases h
  · rename_i ys' hf
    cases h
    unfold forward at hf
    split at hf
    · cases hf
    · rename_i hne
      simp only [hb] at hf
      split at hf
      · cases hf
      · rename_i hk
        cases hf
        simp at hk ⊢
        refine ⟨hne, by omega, ?_⟩
        congr 1; omega

theorem flow (hc : Ok c) (hS : c.S = 1) : Flow (mod c) (phi c) := by
  intro h xs ys i0 hx hf
  obtain ⟨_, hk, hl⟩ := fwd_length c hc hf
  have hp := List.length_pos_of_ne_nil hx
  have := hc.hP
  rw [sched c hc h, hl, hS]
  simp only [List.length_append, Nat.div_one] at *
  split <;> omega

end Pool

end CoInf
