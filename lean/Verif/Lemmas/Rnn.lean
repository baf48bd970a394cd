import Verif.Model.Rnn
import Verif.Spec.Rnn
import Verif.Spec.Stream
import Verif.Lemmas.Refine

set_option autoImplicit false

namespace CoInf.Rnn
open Spec
variable {V S : Type}

theorem layer_cons (f : Cell V S) (s : S) (x : V) (xs : List V) :
    layer f s (x :: xs) = ((f x s).1 :: (layer f (f x s).2 xs).1, (layer f (f x s).2 xs).2) := rfl

theorem stack_cons (f : Cell V S) (fs : List (Cell V S)) (s : S) (ss : List S) (xs : List V) :
    stack (f :: fs) (s :: ss) xs =
      ((stack fs ss (layer f s xs).1).1, (layer f s xs).2 :: (stack fs ss (layer f s xs).1).2) := rfl

theorem stack_nil_frames (fs : List (Cell V S)) : ∀ ss : List S, ss.length = fs.length → stack fs ss [] = ([], ss) := by
  induction fs with
  | nil => intro ss h; simp only [List.length_nil, List.length_eq_zero_iff] at h; subst h; rfl
  | cons f fs ih =>
    intro ss h
    cases ss with
    | nil => simp at h
    | cons s ss =>
      rw [stack_cons]
      simp only [layer]
      rw [ih ss (by simpa using h)]

theorem tick_length (fs : List (Cell V S)) : ∀ (ss : List S) (x : V), ss.length = fs.length → (tick fs ss x).2.length = fs.length := by
  induction fs with
  | nil => intro ss x h; cases ss <;> rfl
  | cons f fs ih =>
    intro ss x h
    cases ss with
    | nil => simp at h
    | cons s ss => simp only [tick, List.length_cons]; rw [ih ss _ (by simpa using h)]

/-- Layers outside, time inside = time outside, layers inside. -/
theorem stack_frame (fs : List (Cell V S)) : ∀ (ss : List S) (x : V) (xs : List V), ss.length = fs.length →
    stack fs ss (x :: xs) = ((tick fs ss x).1 :: (stack fs (tick fs ss x).2 xs).1, (stack fs (tick fs ss x).2 xs).2) := by
  induction fs with
  | nil => intro ss x xs h; cases ss with
    | nil => rfl
    | cons s ss => simp at h
  | cons f fs ih =>
    intro ss x xs h
    cases ss with
    | nil => simp at h
    | cons s ss =>
      rw [stack_cons, layer_cons]
      simp only [tick]
      rw [ih ss _ _ (by simpa using h), stack_cons]

theorem stack_eq (fs : List (Cell V S)) (xs : List V) : ∀ ss : List S, ss.length = fs.length →
    stack fs ss xs = (recur fs ss xs, stateAfter fs ss xs) := by
  induction xs with
  | nil => intro ss h; rw [stack_nil_frames fs ss h]; rfl
  | cons x xs ih =>
    intro ss h
    rw [stack_frame fs ss x xs h, ih _ (tick_length fs ss x h)]
    rfl

theorem stateAfter_length (fs : List (Cell V S)) (xs : List V) : ∀ ss : List S, ss.length = fs.length →
    (stateAfter fs ss xs).length = fs.length := by
  induction xs with
  | nil => intro ss h; exact h
  | cons x xs ih => intro ss h; exact ih _ (tick_length fs ss x h)

theorem stateAfter_append (fs : List (Cell V S)) (ss : List S) (xs ys : List V) :
    stateAfter fs ss (xs ++ ys) = stateAfter fs (stateAfter fs ss xs) ys := by
  simp [stateAfter, List.foldl_append]

theorem recur_append (fs : List (Cell V S)) (xs ys : List V) : ∀ ss : List S,
    recur fs ss (xs ++ ys) = recur fs ss xs ++ recur fs (stateAfter fs ss xs) ys := by
  induction xs with
  | nil => intro ss; rfl
  | cons x xs ih => intro ss; simp only [List.cons_append, recur]; rw [ih]; rfl

theorem recur_length (fs : List (Cell V S)) (xs : List V) : ∀ ss : List S, (recur fs ss xs).length = xs.length := by
  induction xs with
  | nil => intro ss; rfl
  | cons x xs ih => intro ss; simp [recur, ih]

/-- The hidden state used when none is stored. -/
def start (c : Cfg V S) (i : Option (List S)) : List S := i.getD (c.layers.map fun _ => c.zero)

theorem torchForward_eq (c : Cfg V S) (xs : List V) (hx : Option (List S)) (hx' : xs ≠ [])
    (hl : (start c hx).length = c.layers.length) :
    torchForward c xs hx = .ok (recur c.layers (start c hx) xs, stateAfter c.layers (start c hx) xs) := by
  unfold torchForward
  simp only
  rw [if_neg hx', if_neg (by simpa [start] using hl)]
  exact congrArg Except.ok (stack_eq _ _ _ hl)

/-- Objects that have consumed `h` since the hidden state was `i0`. -/
def Rel (c : Cfg V S) (ss : List S) (h : List V) (i : Option (List S)) : Prop :=
  start c i = stateAfter c.layers ss h ∧ (start c i).length = c.layers.length ∧ (h ≠ [] → i = some (stateAfter c.layers ss h))

theorem pstep_rel (c : Cfg V S) {ss : List S} {h : List V} {i : Option (List S)} (x : V) (r : Rel c ss h i) :
    pstep c x i = .ok (some (tick c.layers (stateAfter c.layers ss h) x).1, some (stateAfter c.layers ss (h ++ [x]))) := by
  unfold pstep
  rw [torchForward_eq c [x] i (by simp) r.2.1, r.1, stateAfter_append]
  rfl

theorem rel_next (c : Cfg V S) {ss : List S} {h : List V} {i : Option (List S)} (xs : List V) (hx : xs ≠ []) (r : Rel c ss h i) :
    Rel c ss (h ++ xs) (some (stateAfter c.layers ss (h ++ xs))) := by
  refine ⟨rfl, ?_, fun _ => rfl⟩
  show (stateAfter c.layers ss (h ++ xs)).length = _
  rw [stateAfter_append, ← r.1]
  exact stateAfter_length _ _ _ r.2.1

theorem step_rel (c : Cfg V S) {ss : List S} {h : List V} {i : Option (List S)} (u : Bool) (x : V) (r : Rel c ss h i) :
    ∃ i', forwardStep c i u x = .ok (some (tick c.layers (stateAfter c.layers ss h) x).1, i') ∧
      Rel c ss (if u then h ++ [x] else h) i' := by
  unfold forwardStep
  rw [pstep_rel c x r]
  cases u with
  | false => exact ⟨i, rfl, r⟩
  | true => exact ⟨_, rfl, rel_next c [x] (by simp) r⟩

theorem steps_rel (c : Cfg V S) {ss : List S} {h : List V} {i : Option (List S)} (p u : Bool) (xs : List V) (hx : xs ≠ [])
    (r : Rel c ss h i) :
    ∃ i', forwardSteps c i p u xs = .ok (some (recur c.layers (stateAfter c.layers ss h) xs), i') ∧
      Rel c ss (if u then h ++ xs else h) i' := by
  unfold forwardSteps forward
  rw [torchForward_eq c xs i hx r.2.1, r.1]
  cases u with
  | false => exact ⟨i, rfl, r⟩
  | true =>
    refine ⟨_, rfl, ?_⟩
    simp only [if_true]
    rw [← stateAfter_append]
    exact rel_next c xs hx r

/-- The zero state of all layers. -/
def zeros (c : Cfg V S) : List S := c.layers.map fun _ => c.zero

theorem rel_none (c : Cfg V S) : Rel c (zeros c) [] none := ⟨rfl, by simp [start], fun h => absurd rfl h⟩

theorem optList_recur (fs : List (Cell V S)) (ss : List S) {xs : List V} (hx : xs ≠ []) :
    some (recur fs ss xs) = optList (recur fs ss xs) := by
  have := recur_length fs xs ss
  cases hr : recur fs ss xs with
  | nil => rw [hr] at this; cases xs with
    | nil => exact absurd rfl hx
    | cons x xs => simp at this
  | cons y ys => rfl

theorem simRel (c : Cfg V S) : SimRel (mod c) (recur c.layers (zeros c)) (Rel c (zeros c)) where
  phi_nil := rfl
  init := rel_none c
  clean := fun _ => rel_none c
  step := by
    intro h i u x r
    obtain ⟨i', h1, h2⟩ := step_rel c u x r
    exact ⟨_, i', h1, by rw [recur_append]; rfl, h2⟩
  steps := by
    intro h i u xs hx r
    obtain ⟨i', h1, h2⟩ := steps_rel c false u xs hx r
    exact ⟨_, i', by rw [← optList_recur _ _ hx]; exact h1, recur_append _ _ _ _, h2⟩
  fwd_state := by
    intro h i xs ys i' r hf
    have hf : (forward c xs none).map (fun p => (p.1, i)) = .ok (ys, i') := hf
    cases hfc : forward c xs none with
    | error e => rw [hfc] at hf; cases hf
    | ok p => rw [hfc] at hf; cases hf; exact r
  fwd_indep := by
    intro h i xs _
    show ((forward c xs none).map (fun p => (p.1, i))).map Prod.fst = ((forward c xs none).map (fun p => (p.1, none))).map Prod.fst
    cases forward c xs none <;> rfl

theorem pImplements (c : Cfg V S) : PImplements (mod c) (recur c.layers (zeros c)) := by
  refine ⟨fun h s => Rel c (zeros c) h s, rel_none c, ?_⟩
  intro h s x r
  exact ⟨_, _, pstep_rel c x r, by rw [recur_append]; rfl, rel_next c [x] (by simp) r⟩

theorem fwd_eq (c : Cfg V S) {i : Option (List S)} {xs ys : List V} {i' : Option (List S)} (h : (mod c).fwd i xs = .ok (ys, i')) :
    xs ≠ [] ∧ ys = recur c.layers (zeros c) xs ∧ i' = i := by
  have h : (forward c xs none).map (fun p => (p.1, i)) = .ok (ys, i') := h
  by_cases hx : xs = []
  · subst hx; simp [forward, torchForward, Except.map] at h
  · unfold forward at h
    rw [torchForward_eq c xs none hx (by simp [start])] at h
    cases h
    exact ⟨hx, rfl, rfl⟩

theorem padRel (c : Cfg V S) : PadRel (mod c) (recur c.layers (zeros c)) (Rel c (zeros c)) where
  finish := by
    intro h i xs ys i0 r hx hf
    obtain ⟨_, rfl, _⟩ := fwd_eq c hf
    obtain ⟨i', h1, _⟩ := steps_rel c true true xs hx r
    exact ⟨_, i', recur_append _ _ _ _, by rw [← optList_recur _ _ hx]; exact h1⟩
  clean_probe := by
    intro i xs ys i0 r hx hf
    obtain ⟨_, rfl, _⟩ := fwd_eq c hf
    obtain ⟨i', h1, _⟩ := steps_rel c true false xs hx r
    exact ⟨i', by rw [← optList_recur _ _ hx]; exact h1⟩

theorem fwd_nil (c : Cfg V S) {ys : List V} {i0} (h : (mod c).fwd (mod c).init [] = .ok (ys, i0)) : ys = [] :=
  absurd rfl (fwd_eq c h).1

theorem flow (c : Cfg V S) : Flow (mod c) (recur c.layers (zeros c)) := by
  intro h xs ys i0 hx hf
  obtain ⟨_, rfl, _⟩ := fwd_eq c hf
  rw [recur_length, recur_length, List.length_append]
  have := List.length_pos_iff.2 hx
  omega

end CoInf.Rnn
