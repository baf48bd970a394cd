/-
Property C69: `Reshape` on clips and on frames.
-/
import Verif.Lemmas.LinearNd
import Verif.Lemmas.Reshape
import Verif.Model.ReshapeNd
import Mathlib.Algebra.Ring.Int.Defs

set_option autoImplicit false

namespace CoInf.ReshapeNd
open Tensor
variable {F : Type} [Zero F]

theorem sizes_cons (shape : List (Option Nat)) {T n : Nat} (hT : 0 < T) :
    sizes (some T :: shape) (T * n) = (sizes shape n).map (T :: ·) := by
  unfold sizes
  have hc : (some T :: shape).count none = shape.count none := by simp
  have hk : known (some T :: shape) = T * known shape := by simp [known]
  rw [hc, hk]
  split
  · rfl
  · rw [Nat.mul_div_mul_left _ _ hT, Nat.mul_mod_mul_left]
    by_cases h : known shape ≠ 0 ∧ n % known shape = 0
    · rw [if_pos h, if_pos ⟨Nat.mul_ne_zero (by omega) h.1, by rw [h.2, Nat.mul_zero]⟩]
      rfl
    · rw [if_neg h, if_neg]
      · rfl
      · rintro ⟨h1, h2⟩
        refine h ⟨fun h0 => h1 (by rw [h0, Nat.mul_zero]), ?_⟩
        rcases Nat.mul_eq_zero.1 h2 with h3 | h3
        · omega
        · exact h3
  · rfl

theorem sizes_length {shape : List (Option Nat)} {n : Nat} {s : List Nat} (h : sizes shape n = .ok s) :
    s.length = shape.length := by
  unfold sizes at h
  split at h
  · cases h; simp
  · split at h
    · cases h; simp
    · cases h
  · cases h

theorem sizes_error {shape : List (Option Nat)} {n : Nat} {e : Err} (h : sizes shape n = .error e) : e = .runtime := by
  unfold sizes at h
  split at h
  · cases h
  · split at h
    · cases h
    · cases h; rfl
  · cases h; rfl

theorem prod_erase {s : List Nat} {i n : Nat} (h : s[i]? = some n) : s.prod = n * (s.eraseIdx i).prod := by
  induction s generalizing i with
  | nil => simp at h
  | cons a s ih =>
    cases i with
    | zero => simp at h; subst h; simp
    | succ i =>
      simp only [List.getElem?_cons_succ] at h
      simp only [List.prod_cons, List.eraseIdx_cons_succ, ih h]
      rw [Nat.mul_left_comm]

theorem unflat_length (s : List Nat) (k : Nat) : (unflat s k).length = s.length := by
  induction s generalizing k with
  | nil => rfl
  | cons n s ih => simp [unflat, ih]

theorem unflat_within {s : List Nat} {k : Nat} (h : k < s.prod) : within (unflat s k) s = true := by
  induction s generalizing k with
  | nil => simp [unflat, within]
  | cons n s ih =>
    rw [List.prod_cons] at h
    have hp : 0 < s.prod := Nat.pos_of_ne_zero fun h0 => by rw [h0] at h; omega
    simp only [unflat, within, Bool.and_eq_true, decide_eq_true_eq]
    exact ⟨Nat.div_lt_of_lt_mul (by rw [Nat.mul_comm]; exact h), ih (Nat.mod_lt _ hp)⟩

theorem insert_get {α : Type} (l : List α) (a : α) {i : Nat} (h : i ≤ l.length) : (l.insertIdx i a)[i]? = some a := by
  rw [List.getElem?_insertIdx]; simp [h]

/-- `forward` on a clip of `T` frames: every frame is reshaped by itself. -/
theorem forward_eq (shape : List (Option Nat)) (hs2 : 2 ≤ shape.length) (x : Tensor F) {T : Nat} (hT : 0 < T)
    (hx : x.shape[2]? = some T) :
    match sizes shape (x.shape.eraseIdx 2).prod with
    | .error e => forward shape x = .error e
    | .ok s => if s.prod = (x.shape.eraseIdx 2).prod then
        forward shape x = .ok (of (s.insertIdx 2 T) fun idx =>
          x.get ((unflat (x.shape.eraseIdx 2) (flat s (idx.eraseIdx 2))).insertIdx 2 (idx.getD 2 0)))
      else forward shape x = .error .runtime := by
  have h2 : 2 < x.shape.length := by
    by_contra hh
    rw [List.getElem?_eq_none (by omega)] at hx
    cases hx
  unfold forward
  rw [hx]
  simp only [moveaxis, hx, show 0 < x.shape.length by omega, if_true, bind, Except.bind, reshape, of_shape,
    List.insertIdx_zero, List.prod_cons, sizes_cons shape hT]
  cases hsz : sizes shape (x.shape.eraseIdx 2).prod with
  | error e => rfl
  | ok s =>
    have hslen : s.length = shape.length := by
      exact sizes_length hsz
    simp only [Except.map, Tensor.reshape, List.prod_cons, of_shape]
    by_cases hp : s.prod = (x.shape.eraseIdx 2).prod
    · simp only [hp, if_true, of_shape, List.getElem?_cons_zero, List.length_cons, show 2 < s.length + 1 by omega,
        List.eraseIdx_cons_zero]
      congr 1
      refine of_congr rfl fun idx hi => ?_
      have hl : idx.length = s.length + 1 := by
        rw [within_length hi, List.length_insertIdx, if_pos (by omega)]
      have h2i : 2 < idx.length := by omega
      obtain ⟨_, hw⟩ := (within_iff _ _).1 hi
      have ht : idx.getD 2 0 < T := by
        refine hw 2 _ T ?_ (insert_get _ _ (by omega))
        rw [List.getD_eq_getElem?_getD, List.getElem?_eq_getElem h2i]
        rfl
      have hrest : within (idx.eraseIdx 2) s = true := by
        refine (within_iff _ _).2 ⟨by rw [List.length_eraseIdx, if_pos h2i]; omega, fun m a n ha hn => ?_⟩
        rw [List.getElem?_eraseIdx] at ha
        split at ha
        · exact hw m a n ha (by rw [List.getElem?_insertIdx, if_pos (by omega)]; exact hn)
        · refine hw (m + 1) a n ha ?_
          rw [List.getElem?_insertIdx, if_neg (by omega), if_neg (by omega), Nat.add_sub_cancel]; exact hn
      have hfl := flat_lt hrest
      rw [of_get, if_pos (by simp only [within, hrest, ht, decide_true, Bool.and_self])]
      have hpos : 0 < (x.shape.eraseIdx 2).prod := by omega
      have hun : unflat (T :: x.shape.eraseIdx 2) (flat (T :: s) (idx.getD 2 0 :: idx.eraseIdx 2)) =
          idx.getD 2 0 :: unflat (x.shape.eraseIdx 2) (flat s (idx.eraseIdx 2)) := by
        simp only [flat, unflat, hp]
        rw [Nat.mul_comm, Nat.mul_add_div hpos, Nat.mul_add_mod, Nat.div_eq_of_lt (by omega), Nat.mod_eq_of_lt (by omega), Nat.add_zero]
      rw [hun, of_get, if_pos]
      · rfl
      · simp only [within, ht, decide_true, Bool.true_and]
        exact unflat_within (by omega)
    · have hne : ¬ T * s.prod = T * (x.shape.eraseIdx 2).prod := fun h => hp (Nat.eq_of_mul_eq_mul_left hT h)
      simp only [hp, hne, if_false]

/-- **C69**: a clip of any rank with at least one frame, any target shape of at least two axes (one may be `-1`): cutting
the result of `forward` or `forward_steps` at any time gives what `forward_step` gives for the frame of that time; and if
the frame does not fit the shape, all three raise. -/
theorem C69_frames_partial (shape : List (Option Nat)) (hs2 : 2 ≤ shape.length) (x : Tensor F) {T : Nat} (hT : 0 < T)
    (hx : x.shape[2]? = some T) :
    forwardSteps shape x = forward shape x ∧
    ((∃ y, forward shape x = .ok y ∧ y.shape[2]? = some T ∧
        ∀ t < T, ∃ f g, x.select 2 t = .ok f ∧ forwardStep shape f = .ok g ∧ y.select 2 t = .ok g) ∨
     (forward shape x = .error .runtime ∧ ∀ t < T, ∃ f, x.select 2 t = .ok f ∧ forwardStep shape f = .error .runtime)) := by
  refine ⟨rfl, ?_⟩
  have hf := forward_eq shape hs2 x hT hx
  have hsel : ∀ t < T, x.select 2 t = .ok (of (x.shape.eraseIdx 2) fun idx => x.get (idx.insertIdx 2 t)) := by
    intro t ht
    unfold select; rw [hx]; simp only [ht, if_true]
  cases hsz : sizes shape (x.shape.eraseIdx 2).prod with
  | error e =>
    rw [hsz] at hf
    simp only at hf
    have he : e = .runtime := by
      exact sizes_error hsz
    subst he
    refine .inr ⟨hf, fun t ht => ⟨_, hsel t ht, ?_⟩⟩
    simp only [forwardStep, reshape, of_shape, hsz]
  | ok s =>
    have hslen : s.length = shape.length := by
      exact sizes_length hsz
    rw [hsz] at hf
    simp only at hf
    by_cases hp : s.prod = (x.shape.eraseIdx 2).prod
    · rw [if_pos hp] at hf
      refine .inl ⟨_, hf, insert_get _ _ (by omega), fun t ht => ⟨_,
        of s fun idx => x.get ((unflat (x.shape.eraseIdx 2) (flat s idx)).insertIdx 2 t), hsel t ht, ?_, ?_⟩⟩
      · simp only [forwardStep, reshape, of_shape, hsz, Tensor.reshape, hp, if_true]
        congr 1
        refine of_congr rfl fun idx hi => ?_
        rw [of_get, if_pos (unflat_within (by have := flat_lt hi; omega))]
      · unfold select
        rw [of_shape, insert_get _ _ (by omega)]
        simp only [ht, if_true]
        congr 1
        have hes : (s.insertIdx 2 T).eraseIdx 2 = s := (List.eraseIdx_insertIdx_self _)
        refine of_congr hes fun idx hi => ?_
        rw [hes] at hi
        have hil := within_length hi
        have e1 : (idx.insertIdx 2 t).eraseIdx 2 = idx := (List.eraseIdx_insertIdx_self _)
        have e2 : (idx.insertIdx 2 t).getD 2 0 = t := by
          rw [List.getD_eq_getElem?_getD, insert_get _ _ (by omega)]; rfl
        have hw : within (idx.insertIdx 2 t) (s.insertIdx 2 T) = true :=
          LinearNd.within_insert (insert_get _ _ (by omega)) ht (by rw [hes]; exact hi)
        rw [of_get, if_pos hw, e1, e2]
    · rw [if_neg hp] at hf
      refine .inr ⟨hf, fun t ht => ⟨_, hsel t ht, ?_⟩⟩
      simp only [forwardStep, reshape, of_shape, hsz, Tensor.reshape, hp, if_false]

/-- **C69** fails for a target shape with one axis: `forward_step` returns the flattened frames, but `forward` and
`forward_steps` raise on every clip (moving time behind the second axis of a result that has only two). -/
theorem C69_one_axis_refuted (n : Nat) (x : Tensor F) {T : Nat} (hT : 0 < T) (hx : x.shape[2]? = some T)
    (hn : (x.shape.eraseIdx 2).prod = n) :
    forward [some n] x = .error .index ∧ forwardSteps [some n] x = .error .index ∧
    ∀ t < T, ∃ f g, x.select 2 t = .ok f ∧ forwardStep [some n] f = .ok g ∧ g.shape = [n] := by
  have h2 : 2 < x.shape.length := by
    by_contra hh
    rw [List.getElem?_eq_none (by omega)] at hx
    cases hx
  have key : forward [some n] x = .error .index := by
    unfold forward
    rw [hx]
    simp only [moveaxis, hx, show 0 < x.shape.length by omega, if_true, bind, Except.bind, reshape, of_shape,
      List.insertIdx_zero, List.prod_cons, hn]
    simp [sizes, Tensor.reshape, hn]
  refine ⟨key, key, fun t ht => ⟨of (x.shape.eraseIdx 2) fun idx => x.get (idx.insertIdx 2 t),
    of [n] fun idx => (of (x.shape.eraseIdx 2) fun idx => x.get (idx.insertIdx 2 t)).get (unflat (x.shape.eraseIdx 2) (flat [n] idx)),
    ?_, ?_, ?_⟩⟩
  · unfold select; rw [hx]; simp only [ht, if_true]
  · simp [forwardStep, reshape, sizes, Tensor.reshape, hn]
  · rfl

/-! ### Examples -/

/-- The clip of /repo/tests/continual/test_shape.py. -/
def exShapeClip : Tensor Int := Tensor.of [1, 2, 3, 4, 5] fun idx =>
  idx.getD 1 0 * 1000 + idx.getD 2 0 * 100 + idx.getD 3 0 * 10 + idx.getD 4 0

example : (forward [some 2, some 20] exShapeClip).toOption.map (fun y => (y.shape, y.get [1, 13, 2])) =
    some ([2, 20, 3], 1223) := by decide +kernel

example : (forward [some 2, none] exShapeClip).toOption.map (fun y => (y.shape, y.get [1, 13, 2])) =
    some ([2, 20, 3], 1223) := by decide +kernel

example : exShapeClip.shape[2]? = some 3 ∧ (exShapeClip.shape.eraseIdx 2).prod = 40 := ⟨rfl, rfl⟩

end CoInf.ReshapeNd
