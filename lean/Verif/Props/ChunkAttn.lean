/-
C08 for attention modules with any frames, weights and arithmetic (in particular rounded numbers): handing a stream to
`forward_steps` in non-empty chunks of any sizes is handing its frames to `forward_step` one by one.  Outputs, the
resulting attributes of the object and exceptions are the same.
-/
import Verif.Model.AttnAny
import Verif.Spec.Stream

set_option autoImplicit false

namespace CoInf
open CoInf.Spec CoInf.Attn

variable {X O : Type}

/-- Hand the chunks to `forward_steps` in turn and concatenate what it returns (`None` contributes nothing). -/
def callChunks {Y : Type} (M : CoMod (.stream X) (.stream Y)) (i : M.Inst) : List (List X) → Except Err (List Y × M.Inst)
  | [] => .ok ([], i)
  | xs :: css =>
    match M.steps i false true xs with
    | .error e => .error e
    | .ok (o, i') =>
      match callChunks M i' css with
      | .error e => .error e
      | .ok (ys, i'') => .ok (o.getD [] ++ ys, i'')

/-- The frames returned by a series of `forward_step` calls. -/
def framesOnly {Y I : Type} : Except Err (List (Option Y) × I) → Except Err (List Y × I)
  | .error e => .error e
  | .ok (os, i) => .ok (os.filterMap id, i)

theorem pstep_some (b : Base X O) {x : X} {s o s'} (h : pstep b x s = .ok (o, s')) : ∃ st, s' = some st := by
  unfold pstep at h
  split at h
  · cases h
  · split at h
    · cases h
    · cases h
      exact ⟨_, rfl⟩

theorem attn_loop_eq (b : Base X O) : ∀ (xs : List X) (i : b.mod.Inst), loop b i xs = framesOnly (callSteps b.mod i xs)
  | [], i => rfl
  | x :: xs, i => by
    have ih := attn_loop_eq b xs
    simp only [loop, callSteps, step]
    cases h : pstep b x i with
    | error e => rfl
    | ok r =>
      obtain ⟨o, s'⟩ := r
      simp only [ih s', if_true, bind, Except.bind]
      cases callSteps b.mod s' xs with
      | error e => rfl
      | ok r => cases o <;> rfl

theorem attn_loop_some (b : Base X O) : ∀ (xs : List X) (i : b.mod.Inst) {ys j}, xs ≠ [] → loop b i xs = .ok (ys, j) → ∃ st, j = some st
  | [], _, _, _, h, _ => absurd rfl h
  | [x], i, ys, j, _, hl => by
    simp only [loop] at hl
    split at hl
    · cases hl
    · rename_i h
      cases hl
      exact pstep_some b h
  | x :: x' :: xs, i, ys, j, _, hl => by
    rw [loop] at hl
    split at hl
    · cases hl
    · split at hl
      · cases hl
      · rename_i h
        cases hl
        exact attn_loop_some b (x' :: xs) _ (by simp) h

theorem getD_optList {Y : Type} (l : List Y) : (optList l).getD [] = l := by
  cases l <;> rfl

theorem attn_steps_eq (b : Base X O) (xs : List X) (hx : xs ≠ []) (i : b.mod.Inst) :
    b.mod.steps i false true xs = match loop b i xs with
      | .error e => .error e
      | .ok (os, j) => .ok (optList os, j) := by
  show steps b i false true xs = _
  unfold steps
  cases h : loop b i xs with
  | error e => rfl
  | ok r =>
    obtain ⟨os, j⟩ := r
    obtain ⟨st, rfl⟩ := attn_loop_some b xs i hx h
    cases xs with
    | nil => exact absurd rfl hx
    | cons x xs => rfl

theorem loop_append (b : Base X O) (ys : List X) : ∀ (xs : List X) (i : b.mod.Inst),
    loop b i (xs ++ ys) = match loop b i xs with
      | .error e => .error e
      | .ok (os, j) => match loop b j ys with
        | .error e => .error e
        | .ok (os', j') => .ok (os ++ os', j')
  | [], i => by
    simp only [List.nil_append, loop]
    cases loop b i ys with
    | error e => rfl
    | ok r => rfl
  | x :: xs, i => by
    simp only [List.cons_append, loop]
    cases pstep b x i with
    | error e => rfl
    | ok r =>
      simp only [loop_append b ys xs]
      cases loop b r.2 xs with
      | error e => rfl
      | ok r' =>
        simp only
        cases loop b r'.2 ys with
        | error e => rfl
        | ok r'' => simp

/-- C08, attention: from any state of any attention module, any division of a stream into non-empty chunks gives the
outputs, the attributes and the exception of frame-by-frame stepping. -/
theorem C08_attention (b : Base X O) : ∀ (css : List (List X)), [] ∉ css → ∀ (i : b.mod.Inst),
    callChunks b.mod i css = framesOnly (callSteps b.mod i css.flatten) := by
  intro css
  induction css with
  | nil => intro _ i; rfl
  | cons xs css ih =>
    intro h i
    have hx : xs ≠ [] := fun e => h (by simp [e])
    rw [callChunks, attn_steps_eq b xs hx, ← attn_loop_eq, List.flatten_cons, loop_append]
    cases loop b i xs with
    | error e => rfl
    | ok r =>
      have ih' := ih (fun e => h (List.mem_cons_of_mem _ e)) r.2
      rw [← attn_loop_eq] at ih'
      simp only [ih', getD_optList]
      cases loop b r.2 css.flatten with
      | error e => rfl
      | ok r' => rfl

/-- Two divisions of one stream cannot be told apart. -/
theorem C08_attention_chunkings (b : Base X O) (css dss : List (List X)) (hc : [] ∉ css) (hd : [] ∉ dss)
    (h : css.flatten = dss.flatten) (i : b.mod.Inst) : callChunks b.mod i css = callChunks b.mod i dss := by
  rw [C08_attention b css hc, C08_attention b dss hd, h]

/-- A retroactive attention of three tokens over integers. -/
def exChunkAttn (o : AttnAny.Ops Int Int) : Base Int (List Int) := AttnAny.retroBase ⟨3, o, id, id, id, id⟩ fun _ => .ok []

/-- The hypotheses are met by two different divisions of a stream of four frames. -/
example (o : AttnAny.Ops Int Int) : callChunks (exChunkAttn o).mod none [[1, 2], [3, 4]] =
    callChunks (exChunkAttn o).mod none [[1], [2, 3], [4]] :=
  C08_attention_chunkings (exChunkAttn o) [[1, 2], [3, 4]] [[1], [2, 3], [4]] (by simp) (by simp) (by simp) none

end CoInf
