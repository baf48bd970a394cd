import Verif.Lemmas.Tensor
import Verif.Spec.LinearNd

set_option autoImplicit false

namespace CoInf.Tensor

theorem within_iff (idx s : List Nat) :
    within idx s = true ↔ idx.length = s.length ∧ ∀ m i n : Nat, idx[m]? = some i → s[m]? = some n → i < n := by
  induction s generalizing idx with
  | nil => rw [within_nil]; constructor
           · rintro rfl; simp
           · intro h; exact List.length_eq_zero_iff.1 h.1
  | cons n ns ih =>
    rw [within_cons]
    constructor
    · rintro ⟨i, is, rfl, h1, h2⟩
      obtain ⟨h3, h4⟩ := (ih is).1 h2
      refine ⟨by simp [h3], fun m a b ha hb => ?_⟩
      cases m with
      | zero => simp at ha hb; omega
      | succ m => exact h4 m a b (by simpa using ha) (by simpa using hb)
    · rintro ⟨h1, h2⟩
      cases idx with
      | nil => simp at h1
      | cons i is =>
        refine ⟨i, is, rfl, h2 0 i n rfl rfl, (ih is).2 ⟨by simpa using h1, fun m a b ha hb => ?_⟩⟩
        exact h2 (m + 1) a b (by simpa using ha) (by simpa using hb)

theorem within_length {idx s : List Nat} (h : within idx s = true) : idx.length = s.length := ((within_iff _ _).1 h).1

theorem swap_length {α : Type} (l : List α) (i j : Nat) : (swap l i j).length = l.length := by
  unfold swap; split <;> simp

theorem swap_get {α : Type} (l : List α) {i j : Nat} (hi : i < l.length) (hj : j < l.length) (m : Nat) :
    (swap l i j)[m]? = if m = j then l[i]? else if m = i then l[j]? else l[m]? := by
  unfold swap
  rw [List.getElem?_eq_getElem hi, List.getElem?_eq_getElem hj]
  simp only [List.getElem?_set, List.length_set]
  by_cases h1 : m = j
  · subst h1; simp [hj]
  · by_cases h2 : m = i
    · subst h2; simp [h1, hi, Ne.symm h1]
    · simp [h1, h2, Ne.symm h1, Ne.symm h2]

/-- Replacing the entry at `j` of the exchanged list is replacing the entry at `i`. -/
theorem swap_set_swap {α : Type} (l : List α) {i j : Nat} (hi : i < l.length) (hj : j < l.length) (a : α) :
    swap ((swap l i j).set j a) i j = l.set i a := by
  apply List.ext_getElem?
  intro m
  rw [swap_get _ (by simpa [swap_length] using hi) (by simpa [swap_length] using hj)]
  simp only [List.getElem?_set, swap_get _ hi hj, swap_length]
  by_cases h1 : m = j <;> by_cases h2 : m = i <;> by_cases h3 : i = j <;> simp_all [eq_comm]

theorem set_swap {α : Type} (l : List α) {i j : Nat} (hi : i < l.length) (hj : j < l.length) (a : α) :
    swap (l.set i a) i j = (swap l i j).set j a := by
  apply List.ext_getElem?
  intro m
  rw [swap_get _ (by simpa using hi) (by simpa using hj)]
  simp only [List.getElem?_set, swap_get _ hi hj, swap_length]
  by_cases h1 : m = j <;> by_cases h2 : m = i <;> by_cases h3 : i = j <;> simp_all [eq_comm]

theorem swap_getD (l : List Nat) {i j : Nat} (hi : i < l.length) (hj : j < l.length) :
    (swap l i j).getD j 0 = l.getD i 0 := by
  rw [List.getD_eq_getElem?_getD, swap_get _ hi hj, if_pos rfl, ← List.getD_eq_getElem?_getD]

theorem within_swap {idx s : List Nat} {i j : Nat} (hi : i < s.length) (hj : j < s.length) (h : within idx s = true) :
    within (swap idx i j) (swap s i j) = true := by
  obtain ⟨h1, h2⟩ := (within_iff _ _).1 h
  refine (within_iff _ _).2 ⟨by simp [swap_length, h1], fun m a n => ?_⟩
  rw [swap_get _ (h1 ▸ hi) (h1 ▸ hj), swap_get _ hi hj]
  split
  · exact h2 i a n
  · split
    · exact h2 j a n
    · exact h2 m a n

end CoInf.Tensor

namespace CoInf.LinearNd
open Tensor
variable {F : Type} [Semiring F]

/-- The affine map along axis `k`. -/
def along (c : Cfg F) (k : Nat) (x : Tensor F) : Tensor F :=
  Tensor.of (x.shape.set k c.nout) fun idx =>
    let s := ((List.range c.nin).map fun i => x.get (idx.set k i) * c.weight (idx.getD k 0) i).sum
    match c.bias with
    | some b => s + b (idx.getD k 0)
    | none => s

theorem axis_last {n : Nat} (h : 0 < n) : axis n (-1) = .ok (n - 1) := by
  unfold axis; rw [if_neg (by omega), if_pos (by omega)]; congr 1; omega

theorem axis_lt {n k : Nat} {d : Int} (h : axis n d = .ok k) : k < n := by
  unfold axis at h
  split at h
  · split at h
    · cases h; omega
    · cases h
  · split at h
    · cases h; omega
    · cases h

theorem linear_last (c : Cfg F) (x : Tensor F) (h : x.shape[x.shape.length - 1]? = some c.nin) :
    linear c x = .ok (along c (x.shape.length - 1) x) := by
  unfold linear
  rw [if_pos (by rw [List.getLast?_eq_getElem?]; exact h)]
  rfl

theorem forward_along (c : Cfg F) (x : Tensor F) (k : Nat) (hk : axis x.shape.length c.channelDim = .ok k)
    (hn : x.shape[k]? = some c.nin) : forward c x = .ok (along c k x) := by
  have hkn : k < x.shape.length := axis_lt hk
  have hl : x.shape.length - 1 < x.shape.length := by omega
  unfold forward
  by_cases hd : c.channelDim = -1
  · rw [hd, axis_last (by omega)] at hk
    cases hk
    simp only [hd, ne_eq, not_true_eq_false, if_false, bind, Except.bind, pure, Except.pure, linear_last c x hn]
  · simp only [hd, ne_eq, not_false_eq_true, if_true, transpose, hk, axis_last (show 0 < x.shape.length by omega), bind, Except.bind]
    rw [linear_last]
    · simp only [along, of_shape, List.length_set, swap_length, hk, axis_last (show 0 < x.shape.length by omega)]
      congr 1
      refine of_congr (swap_set_swap _ hkn hl _) fun idx hi => ?_
      have hi' := hi
      rw [swap_set_swap _ hkn hl] at hi'
      have hlen : idx.length = x.shape.length := by simpa using within_length hi'
      have hw : within (swap idx k (x.shape.length - 1)) ((swap x.shape k (x.shape.length - 1)).set (x.shape.length - 1) c.nout) = true := by
        have := within_swap (i := k) (j := x.shape.length - 1) (by simpa using hkn) (by simp; omega) hi'
        rw [← this]
        congr 1
        exact (set_swap _ hkn hl _).symm
      have hg : (swap idx k (x.shape.length - 1)).getD (x.shape.length - 1) 0 = idx.getD k 0 :=
        swap_getD _ (hlen ▸ hkn) (hlen ▸ hl)
      have hx : ∀ i, i < c.nin → (of (swap x.shape k (x.shape.length - 1)) fun idx => x.get (swap idx k (x.shape.length - 1))).get
          ((swap idx k (x.shape.length - 1)).set (x.shape.length - 1) i) = x.get (idx.set k i) := by
        intro i hin
        have e := swap_set_swap idx (i := k) (j := x.shape.length - 1) (by omega) (by omega) i
        rw [of_get, e, if_pos]
        obtain ⟨h1, h2⟩ := (within_iff _ _).1 hw
        refine (within_iff _ _).2 ⟨by simp [swap_length, hlen], fun m a n ha hb => ?_⟩
        by_cases hm : m = x.shape.length - 1
        · subst hm
          rw [List.getElem?_set, if_pos rfl, if_pos (by rw [swap_length]; omega)] at ha
          rw [swap_get _ hkn hl, if_pos rfl, hn] at hb
          cases ha; cases hb; exact hin
        · rw [List.getElem?_set, if_neg (Ne.symm hm)] at ha
          exact h2 m a n ha (by rw [List.getElem?_set, if_neg (Ne.symm hm)]; exact hb)
      have hs : ((List.range c.nin).map fun i => (of (swap x.shape k (x.shape.length - 1)) fun idx => x.get (swap idx k (x.shape.length - 1))).get
          ((swap idx k (x.shape.length - 1)).set (x.shape.length - 1) i) * c.weight (idx.getD k 0) i)
          = (List.range c.nin).map fun i => x.get (idx.set k i) * c.weight (idx.getD k 0) i :=
        List.map_congr_left fun i hi => by rw [hx i (List.mem_range.1 hi)]
      rw [of_get, if_pos hw]
      simp only [hg]
      rw [hs]
    · simp only [of_shape, swap_length]
      rw [swap_get _ hkn hl, if_pos rfl, hn]

theorem erase_set_before {α : Type} (s : List α) (a : α) {k τ : Nat} (h : k < τ) :
    (s.set k a).eraseIdx τ = (s.eraseIdx τ).set k a := by
  apply List.ext_getElem?
  intro m
  simp only [List.getElem?_eraseIdx, List.getElem?_set, List.length_set, List.length_eraseIdx]
  repeat' split <;> try omega
  all_goals first | rfl | skip
  all_goals simp_all
  all_goals omega

theorem erase_set_after {α : Type} (s : List α) (a : α) {k τ : Nat} (h : τ < k) :
    (s.set k a).eraseIdx τ = (s.eraseIdx τ).set (k - 1) a := by
  apply List.ext_getElem?
  intro m
  simp only [List.getElem?_eraseIdx, List.getElem?_set, List.length_set, List.length_eraseIdx]
  repeat' split <;> try omega
  all_goals first | rfl | skip
  all_goals simp_all
  all_goals omega

theorem insert_set_before {α : Type} (s : List α) (a t : α) {k τ : Nat} (h : k < τ) :
    (s.insertIdx τ t).set k a = (s.set k a).insertIdx τ t := by
  apply List.ext_getElem?
  intro m
  simp only [List.getElem?_insertIdx, List.getElem?_set, List.length_set, List.length_insertIdx]
  repeat' split <;> try omega
  all_goals first | rfl | skip
  all_goals simp_all
  all_goals omega

theorem insert_set_after {α : Type} (s : List α) (a t : α) {k τ : Nat} (h : τ < k) :
    (s.insertIdx τ t).set k a = (s.set (k - 1) a).insertIdx τ t := by
  apply List.ext_getElem?
  intro m
  simp only [List.getElem?_insertIdx, List.getElem?_set, List.length_set, List.length_insertIdx]
  repeat' split <;> try omega
  all_goals first | rfl | skip
  all_goals simp_all
  all_goals omega

theorem within_insert {idx s : List Nat} {τ t T : Nat} (hT : s[τ]? = some T) (ht : t < T)
    (h : within idx (s.eraseIdx τ) = true) : within (idx.insertIdx τ t) s = true := by
  have hτ : τ < s.length := by
    by_contra hh
    rw [List.getElem?_eq_none (by omega)] at hT
    cases hT
  obtain ⟨h1, h2⟩ := (within_iff _ _).1 h
  rw [List.length_eraseIdx, if_pos hτ] at h1
  refine (within_iff _ _).2 ⟨by rw [List.length_insertIdx, if_pos (by omega)]; omega, fun m a n ha hn => ?_⟩
  rw [List.getElem?_insertIdx] at ha
  split at ha
  · exact h2 m a n ha (by rw [List.getElem?_eraseIdx, if_pos (by omega)]; exact hn)
  · split at ha
    · rw [if_pos (by omega)] at ha
      subst_vars
      rw [hT] at hn
      cases ha; cases hn; exact ht
    · exact h2 (m - 1) a n ha (by
        rw [List.getElem?_eraseIdx, if_neg (by omega), Nat.sub_add_cancel (by omega)]; exact hn)

end CoInf.LinearNd
