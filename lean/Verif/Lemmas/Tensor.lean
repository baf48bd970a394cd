import Verif.Model.Tensor

set_option autoImplicit false

namespace CoInf.Tensor
variable {F : Type} [Zero F]

theorem ext {a b : Tensor F} (hs : a.shape = b.shape) (hg : ∀ idx, within idx a.shape = true → a.get idx = b.get idx) :
    a = b := by
  obtain ⟨s, g, o⟩ := a
  obtain ⟨s', g', o'⟩ := b
  simp only at hs hg
  subst hs
  have : g = g' := by
    funext idx
    cases h : within idx s with
    | true => exact hg idx h
    | false => rw [o idx h, o' idx h]
  subst this
  rfl

@[simp] theorem of_shape (s : List Nat) (g : List Nat → F) : (of s g).shape = s := rfl

theorem of_get (s : List Nat) (g : List Nat → F) (idx : List Nat) :
    (of s g).get idx = if within idx s then g idx else 0 := rfl

theorem of_congr {s s' : List Nat} {g g' : List Nat → F} (hs : s = s') (h : ∀ idx, within idx s = true → g idx = g' idx) :
    of s g = of s' g' := by
  subst hs
  refine ext rfl fun idx hi => ?_
  have hi' : within idx s = true := hi
  rw [of_get, of_get, hi', if_pos rfl, if_pos rfl]
  exact h idx hi'

theorem within_nil (idx : List Nat) : within idx [] = true ↔ idx = [] := by
  cases idx <;> simp [within]

theorem within_cons (idx : List Nat) (n : Nat) (ns : List Nat) :
    within idx (n :: ns) = true ↔ ∃ i is, idx = i :: is ∧ i < n ∧ within is ns = true := by
  cases idx with
  | nil => simp [within]
  | cons i is =>
    simp only [within, Bool.and_eq_true, decide_eq_true_eq]
    constructor
    · intro h; exact ⟨i, is, rfl, h.1, h.2⟩
    · rintro ⟨j, js, h, h1, h2⟩
      cases h
      exact ⟨h1, h2⟩

/-! ### Small ranks -/

/-- A matrix. -/
def of2 (a b : Nat) (g : Nat → Nat → F) : Tensor F := of [a, b] fun idx => g (idx.getD 0 0) (idx.getD 1 0)

/-- Rank three. -/
def of3 (a b c : Nat) (g : Nat → Nat → Nat → F) : Tensor F :=
  of [a, b, c] fun idx => g (idx.getD 0 0) (idx.getD 1 0) (idx.getD 2 0)

/-- Rank four. -/
def of4 (a b c d : Nat) (g : Nat → Nat → Nat → Nat → F) : Tensor F :=
  of [a, b, c, d] fun idx => g (idx.getD 0 0) (idx.getD 1 0) (idx.getD 2 0) (idx.getD 3 0)

/-- Rank five. -/
def of5 (a b c d e : Nat) (g : Nat → Nat → Nat → Nat → Nat → F) : Tensor F :=
  of [a, b, c, d, e] fun idx => g (idx.getD 0 0) (idx.getD 1 0) (idx.getD 2 0) (idx.getD 3 0) (idx.getD 4 0)

variable {a b c d e : Nat}

@[simp] theorem of2_shape (g : Nat → Nat → F) : (of2 a b g).shape = [a, b] := rfl
@[simp] theorem of3_shape (g : Nat → Nat → Nat → F) : (of3 a b c g).shape = [a, b, c] := rfl
@[simp] theorem of4_shape (g : Nat → Nat → Nat → Nat → F) : (of4 a b c d g).shape = [a, b, c, d] := rfl
@[simp] theorem of5_shape (g : Nat → Nat → Nat → Nat → Nat → F) : (of5 a b c d e g).shape = [a, b, c, d, e] := rfl

theorem of2_get (g : Nat → Nat → F) {i j : Nat} (hi : i < a) (hj : j < b) : (of2 a b g).get [i, j] = g i j := by
  simp [of2, of_get, within, *]

theorem of3_get (g : Nat → Nat → Nat → F) {i j k : Nat} (hi : i < a) (hj : j < b) (hk : k < c) :
    (of3 a b c g).get [i, j, k] = g i j k := by
  simp [of3, of_get, within, *]

theorem of4_get (g : Nat → Nat → Nat → Nat → F) {i j k m : Nat} (hi : i < a) (hj : j < b) (hk : k < c) (hm : m < d) :
    (of4 a b c d g).get [i, j, k, m] = g i j k m := by
  simp [of4, of_get, within, *]

theorem of5_get (g : Nat → Nat → Nat → Nat → Nat → F) {i j k m n : Nat} (hi : i < a) (hj : j < b) (hk : k < c) (hm : m < d)
    (hn : n < e) : (of5 a b c d e g).get [i, j, k, m, n] = g i j k m n := by
  simp [of5, of_get, within, *]

/-- A tensor of rank two is a matrix, entry by entry. -/
theorem eq_of2 (x : Tensor F) (g : Nat → Nat → F) (hs : x.shape = [a, b])
    (hg : ∀ i < a, ∀ j < b, x.get [i, j] = g i j) : x = of2 a b g := by
  refine ext hs fun idx hi => ?_
  rw [hs] at hi
  simp only [within_cons, within_nil] at hi
  obtain ⟨i, _, rfl, h1, j, _, rfl, h2, rfl⟩ := hi
  rw [hg i h1 j h2, of2_get g h1 h2]

theorem eq_of3 (x : Tensor F) (g : Nat → Nat → Nat → F) (hs : x.shape = [a, b, c])
    (hg : ∀ i < a, ∀ j < b, ∀ k < c, x.get [i, j, k] = g i j k) : x = of3 a b c g := by
  refine ext hs fun idx hi => ?_
  rw [hs] at hi
  simp only [within_cons, within_nil] at hi
  obtain ⟨i, _, rfl, h1, j, _, rfl, h2, k, _, rfl, h3, rfl⟩ := hi
  rw [hg i h1 j h2 k h3, of3_get g h1 h2 h3]

theorem eq_of4 (x : Tensor F) (g : Nat → Nat → Nat → Nat → F) (hs : x.shape = [a, b, c, d])
    (hg : ∀ i < a, ∀ j < b, ∀ k < c, ∀ m < d, x.get [i, j, k, m] = g i j k m) : x = of4 a b c d g := by
  refine ext hs fun idx hi => ?_
  rw [hs] at hi
  simp only [within_cons, within_nil] at hi
  obtain ⟨i, _, rfl, h1, j, _, rfl, h2, k, _, rfl, h3, m, _, rfl, h4, rfl⟩ := hi
  rw [hg i h1 j h2 k h3 m h4, of4_get g h1 h2 h3 h4]

theorem eq_of5 (x : Tensor F) (g : Nat → Nat → Nat → Nat → Nat → F) (hs : x.shape = [a, b, c, d, e])
    (hg : ∀ i < a, ∀ j < b, ∀ k < c, ∀ m < d, ∀ n < e, x.get [i, j, k, m, n] = g i j k m n) : x = of5 a b c d e g := by
  refine ext hs fun idx hi => ?_
  rw [hs] at hi
  simp only [within_cons, within_nil] at hi
  obtain ⟨i, _, rfl, h1, j, _, rfl, h2, k, _, rfl, h3, m, _, rfl, h4, n, _, rfl, h5, rfl⟩ := hi
  rw [hg i h1 j h2 k h3 m h4 n h5, of5_get g h1 h2 h3 h4 h5]

/-! ### Operations on small ranks -/

theorem transpose3_10 (g : Nat → Nat → Nat → F) :
    (of3 a b c g).transpose 1 0 = .ok (of3 b a c fun i j k => g j i k) := by
  simp only [transpose, axis, of3_shape]
  simp
  refine eq_of3 _ _ (by simp [swap]) fun i hi j hj k hk => ?_
  simp [of_get, within, swap, *, of3_get]

theorem transpose3_01 (g : Nat → Nat → Nat → F) :
    (of3 a b c g).transpose 0 1 = .ok (of3 b a c fun i j k => g j i k) := by
  simp only [transpose, axis, of3_shape]
  simp
  refine eq_of3 _ _ (by simp [swap]) fun i hi j hj k hk => ?_
  simp [of_get, within, swap, *, of3_get]

theorem transpose3_12 (g : Nat → Nat → Nat → F) :
    (of3 a b c g).transpose 1 2 = .ok (of3 a c b fun i j k => g i k j) := by
  simp only [transpose, axis, of3_shape]
  simp
  refine eq_of3 _ _ (by simp [swap]) fun i hi j hj k hk => ?_
  simp [of_get, within, swap, *, of3_get]

theorem permute3_021 (g : Nat → Nat → Nat → F) :
    (of3 a b c g).permute [0, 2, 1] = .ok (of3 a c b fun i j k => g i k j) := by
  simp only [permute, of3_shape]
  simp
  refine eq_of3 _ _ (by simp) fun i hi j hj k hk => ?_
  simp [of_get, within, *, of3_get, List.range_succ, List.idxOf_cons]

theorem permute4_0312 (g : Nat → Nat → Nat → Nat → F) :
    (of4 a b c d g).permute [0, 3, 1, 2] = .ok (of4 a d b c fun i j k m => g i k m j) := by
  simp only [permute, of4_shape]
  simp
  refine eq_of4 _ _ (by simp) fun i hi j hj k hk m hm => ?_
  simp [of_get, within, *, of4_get, List.range_succ, List.idxOf_cons]

theorem select3_0 (g : Nat → Nat → Nat → F) {t : Nat} (ht : t < a) :
    (of3 a b c g).select 0 t = .ok (of2 b c fun i j => g t i j) := by
  simp only [select, of3_shape, List.getElem?_cons_zero, if_pos ht]
  congr 1
  refine eq_of2 _ _ (by simp) fun i hi j hj => ?_
  simp [of_get, within, *, of3_get]

theorem select3_1 (g : Nat → Nat → Nat → F) {t : Nat} (ht : t < b) :
    (of3 a b c g).select 1 t = .ok (of2 a c fun i j => g i t j) := by
  simp only [select, of3_shape, List.getElem?_cons_succ, List.getElem?_cons_zero, if_pos ht]
  congr 1
  refine eq_of2 _ _ (by simp) fun i hi j hj => ?_
  simp [of_get, within, *, of3_get]

theorem select3_2 (g : Nat → Nat → Nat → F) {t : Nat} (ht : t < c) :
    (of3 a b c g).select 2 t = .ok (of2 a b fun i j => g i j t) := by
  simp only [select, of3_shape, List.getElem?_cons_succ, List.getElem?_cons_zero, if_pos ht]
  congr 1
  refine eq_of2 _ _ (by simp) fun i hi j hj => ?_
  simp [of_get, within, *, of3_get]

theorem select4_0 (g : Nat → Nat → Nat → Nat → F) {t : Nat} (ht : t < a) :
    (of4 a b c d g).select 0 t = .ok (of3 b c d fun i j k => g t i j k) := by
  simp only [select, of4_shape, List.getElem?_cons_zero, if_pos ht]
  congr 1
  refine eq_of3 _ _ (by simp) fun i hi j hj k hk => ?_
  simp [of_get, within, *, of4_get]

theorem select4_1 (g : Nat → Nat → Nat → Nat → F) {t : Nat} (ht : t < b) :
    (of4 a b c d g).select 1 t = .ok (of3 a c d fun i j k => g i t j k) := by
  simp only [select, of4_shape, List.getElem?_cons_succ, List.getElem?_cons_zero, if_pos ht]
  congr 1
  refine eq_of3 _ _ (by simp) fun i hi j hj k hk => ?_
  simp [of_get, within, *, of4_get]

theorem select4_2 (g : Nat → Nat → Nat → Nat → F) {t : Nat} (ht : t < c) :
    (of4 a b c d g).select 2 t = .ok (of3 a b d fun i j k => g i j t k) := by
  simp only [select, of4_shape, List.getElem?_cons_succ, List.getElem?_cons_zero, if_pos ht]
  congr 1
  refine eq_of3 _ _ (by simp) fun i hi j hj k hk => ?_
  simp [of_get, within, *, of4_get]

theorem squeeze3_0 (g : Nat → Nat → Nat → F) : (of3 1 b c g).squeeze 0 = .ok (of2 b c fun i j => g 0 i j) := by
  simp only [squeeze, axis, of3_shape]
  simp
  refine eq_of2 _ _ (by simp) fun i hi j hj => ?_
  simp [of_get, within, *, of3_get]

theorem squeeze3_1 (g : Nat → Nat → Nat → F) : (of3 a 1 c g).squeeze 1 = .ok (of2 a c fun i j => g i 0 j) := by
  simp only [squeeze, axis, of3_shape]
  simp
  refine eq_of2 _ _ (by simp) fun i hi j hj => ?_
  simp [of_get, within, *, of3_get]

theorem squeeze4_2 (g : Nat → Nat → Nat → Nat → F) :
    (of4 a b 1 d g).squeeze 2 = .ok (of3 a b d fun i j k => g i j 0 k) := by
  simp only [squeeze, axis, of4_shape]
  simp
  refine eq_of3 _ _ (by simp) fun i hi j hj k hk => ?_
  simp [of_get, within, *, of4_get]

theorem squeeze4_2_id (g : Nat → Nat → Nat → Nat → F) (hc : c ≠ 1) :
    (of4 a b c d g).squeeze 2 = .ok (of4 a b c d g) := by
  simp only [squeeze, axis, of4_shape]
  simp [hc]

theorem unsqueeze2_0 (g : Nat → Nat → F) : (of2 a b g).unsqueeze 0 = .ok (of3 1 a b fun _ i j => g i j) := by
  simp only [unsqueeze, axis, of2_shape]
  simp
  refine eq_of3 _ _ (by simp) fun i hi j hj k hk => ?_
  simp [of_get, within, *, of2_get]

theorem unsqueeze2_1 (g : Nat → Nat → F) : (of2 a b g).unsqueeze 1 = .ok (of3 a 1 b fun i _ j => g i j) := by
  simp only [unsqueeze, axis, of2_shape]
  simp
  refine eq_of3 _ _ (by simp) fun i hi j hj k hk => ?_
  simp [of_get, within, *, of2_get]

theorem unsqueeze2_2 (g : Nat → Nat → F) : (of2 a b g).unsqueeze 2 = .ok (of3 a b 1 fun i j _ => g i j) := by
  simp only [unsqueeze, axis, of2_shape]
  simp
  refine eq_of3 _ _ (by simp) fun i hi j hj k hk => ?_
  simp [of_get, within, *, of2_get]

/-- Stacking tensors `(a, b, c)` along a new first axis. -/
theorem stack3_0 (gs : List (Nat → Nat → Nat → F)) (h : gs ≠ []) :
    stack (gs.map (of3 a b c)) 0 = .ok (of4 gs.length a b c fun t i j k => (gs.getD t fun _ _ _ => 0) i j k) := by
  obtain ⟨g, gs, rfl⟩ := List.exists_cons_of_ne_nil h
  simp only [stack, List.map_cons]
  rw [if_pos (by simp), if_pos (by simp)]
  congr 1
  refine eq_of4 _ _ (by simp) fun t ht i hi j hj k hk => ?_
  have e : (of3 a b c g :: gs.map (of3 a b c))[t]? = some (of3 a b c ((g :: gs).getD t fun _ _ _ => 0)) := by
    rw [← List.map_cons, List.getElem?_map, List.getD_eq_getElem?_getD, List.getElem?_eq_getElem ht]
    rfl
  simp only [of_get]
  rw [if_pos (by simpa [within, *] using ht)]
  simp only [List.getD_cons_zero, e]
  simp [of3_get, *]

/-- Stacking tensors `(a, b, c)` along a new second axis. -/
theorem stack3_1 (gs : List (Nat → Nat → Nat → F)) (h : gs ≠ []) :
    stack (gs.map (of3 a b c)) 1 = .ok (of4 a gs.length b c fun i t j k => (gs.getD t fun _ _ _ => 0) i j k) := by
  obtain ⟨g, gs, rfl⟩ := List.exists_cons_of_ne_nil h
  simp only [stack, List.map_cons]
  rw [if_pos (by simp), if_pos (by simp)]
  congr 1
  refine eq_of4 _ _ (by simp) fun i hi t ht j hj k hk => ?_
  have e : (of3 a b c g :: gs.map (of3 a b c))[t]? = some (of3 a b c ((g :: gs).getD t fun _ _ _ => 0)) := by
    rw [← List.map_cons, List.getElem?_map, List.getD_eq_getElem?_getD, List.getElem?_eq_getElem ht]
    rfl
  simp only [of_get]
  rw [if_pos (by simpa [within, *] using ht)]
  simp only [List.getD_cons_zero, List.getD_cons_succ, e]
  simp [of3_get, *]

end CoInf.Tensor
