import Verif.Lemmas.Tensor
import Verif.Model.PoolReshape
import Mathlib.Tactic.Ring

set_option autoImplicit false

namespace CoInf
variable {F : Type} [Zero F]

theorem pair_lt {a b i j : Nat} (hi : i < a) (hj : j < b) : i * b + j < a * b := by
  have := Nat.mul_le_mul_right b (Nat.succ_le_of_lt hi)
  rw [Nat.succ_mul] at this
  omega

namespace Tensor

theorem flat_lt {s idx : List Nat} (h : within idx s = true) : flat s idx < s.prod := by
  induction s generalizing idx with
  | nil =>
    rw [within_nil] at h
    subst h
    simp [flat]
  | cons n ns ih =>
    rw [within_cons] at h
    obtain ⟨i, is, rfl, hi, hs⟩ := h
    have := ih hs
    have h2 := Nat.mul_le_mul_right ns.prod (Nat.succ_le_of_lt hi)
    simp only [flat, List.prod_cons]
    rw [Nat.succ_mul] at h2
    omega

/-- Positions in memory determine indices. -/
theorem unflat_flat {s idx : List Nat} (h : within idx s = true) : unflat s (flat s idx) = idx := by
  induction s generalizing idx with
  | nil =>
    rw [within_nil] at h
    subst h
    rfl
  | cons n ns ih =>
    rw [within_cons] at h
    obtain ⟨i, is, rfl, hi, hs⟩ := h
    have hlt := flat_lt hs
    have hpos : 0 < ns.prod := by omega
    simp only [flat, unflat]
    rw [Nat.mul_comm i, Nat.mul_add_div hpos, Nat.div_eq_of_lt hlt, Nat.add_zero, Nat.mul_add_mod, Nat.mod_eq_of_lt hlt,
      ih hs]

/-- An entry of a reshaped tensor is the entry at the same position in memory. -/
theorem reshape_get {x y : Tensor F} {s : List Nat} (h : x.reshape s = .ok y) {idx idx' : List Nat}
    (hi : within idx s = true) (hi' : within idx' x.shape = true) (e : flat s idx = flat x.shape idx') :
    y.get idx = x.get idx' := by
  unfold reshape at h
  split at h
  · cases h
    rw [of_get, if_pos hi, e, unflat_flat hi']
  · cases h

/-- The same, for the whole tensor. -/
theorem reshape_eq {x : Tensor F} {s : List Nat} (hs : s.prod = x.shape.prod) (φ : List Nat → List Nat)
    (h : ∀ idx, within idx s = true → within (φ idx) x.shape = true ∧ flat s idx = flat x.shape (φ idx)) :
    x.reshape s = .ok (of s fun idx => x.get (φ idx)) := by
  unfold reshape
  rw [if_pos hs]
  congr 1
  refine of_congr rfl fun idx hi => ?_
  obtain ⟨h1, h2⟩ := h idx hi
  rw [h2, unflat_flat h1]

variable {a b c d e : Nat}

theorem reshape3_drop (g : Nat → Nat → Nat → F) : (of3 a b 1 g).reshape [a, b] = .ok (of2 a b fun i j => g i j 0) := by
  rw [reshape_eq (by simp) fun idx => [idx.getD 0 0, idx.getD 1 0, 0]]
  · congr 1
    refine eq_of2 _ _ rfl fun i hi j hj => ?_
    simp [of_get, within, *, of3_get]
  · intro idx hi
    simp only [within_cons, within_nil] at hi
    obtain ⟨i, _, rfl, h1, j, _, rfl, h2, rfl⟩ := hi
    simp [within, flat, *]

theorem reshape4_merge (g : Nat → Nat → Nat → Nat → F) :
    (of4 a b c d g).reshape [a * b, c, d] = .ok (of3 (a * b) c d fun r i j => g (r / b) (r % b) i j) := by
  have key : ∀ r, r < a * b → r / b < a ∧ r % b < b := fun r hr => by
    have hb : 0 < b := Nat.pos_of_ne_zero fun h => by simp [h] at hr
    exact ⟨Nat.div_lt_of_lt_mul (Nat.mul_comm a b ▸ hr), Nat.mod_lt _ hb⟩
  rw [reshape_eq (by simp [Nat.mul_assoc]) fun idx => [idx.getD 0 0 / b, idx.getD 0 0 % b, idx.getD 1 0, idx.getD 2 0]]
  · congr 1
    refine eq_of3 _ _ rfl fun r hr i hi j hj => ?_
    obtain ⟨h1, h2⟩ := key r hr
    simp [of_get, within, *, of4_get]
  · intro idx hi
    simp only [within_cons, within_nil] at hi
    obtain ⟨r, _, rfl, hr, i, _, rfl, h1, j, _, rfl, h2, rfl⟩ := hi
    obtain ⟨h3, h4⟩ := key r hr
    refine ⟨by simp [within, *], ?_⟩
    have e : r = b * (r / b) + r % b := (Nat.div_add_mod r b).symm
    simp only [flat, of4_shape, List.prod_cons, List.prod_nil, List.getD_cons_zero, List.getD_cons_succ]
    conv_lhs => rw [e]
    ring

theorem reshape3_split (g : Nat → Nat → Nat → F) :
    (of3 (a * b) c 1 g).reshape [a, b, c] = .ok (of3 a b c fun i j k => g (i * b + j) k 0) := by
  rw [reshape_eq (by simp [Nat.mul_assoc]) fun idx => [idx.getD 0 0 * b + idx.getD 1 0, idx.getD 2 0, 0]]
  · congr 1
    refine eq_of3 _ _ rfl fun i hi j hj k hk => ?_
    have := pair_lt hi hj
    simp [of_get, within, *, of3_get]
  · intro idx hi
    simp only [within_cons, within_nil] at hi
    obtain ⟨i, _, rfl, h1, j, _, rfl, h2, k, _, rfl, h3, rfl⟩ := hi
    have := pair_lt h1 h2
    refine ⟨by simp [within, *], ?_⟩
    simp only [flat, of3_shape, List.prod_cons, List.prod_nil, List.getD_cons_zero, List.getD_cons_succ]
    ring

theorem reshape5_merge (g : Nat → Nat → Nat → Nat → Nat → F) :
    (of5 a b c d e g).reshape [a * b * c, d, e] =
      .ok (of3 (a * b * c) d e fun r i j => g (r / c / b) (r / c % b) (r % c) i j) := by
  have key : ∀ r, r < a * b * c → r / c / b < a ∧ r / c % b < b ∧ r % c < c := fun r hr => by
    have hc : 0 < c := Nat.pos_of_ne_zero fun h => by simp [h] at hr
    have h1 : r / c < a * b := Nat.div_lt_of_lt_mul (Nat.mul_comm (a * b) c ▸ hr)
    have hb : 0 < b := Nat.pos_of_ne_zero fun h => by simp [h] at h1
    exact ⟨Nat.div_lt_of_lt_mul (Nat.mul_comm a b ▸ h1), Nat.mod_lt _ hb, Nat.mod_lt _ hc⟩
  rw [reshape_eq (by simp [Nat.mul_assoc]) fun idx =>
    [idx.getD 0 0 / c / b, idx.getD 0 0 / c % b, idx.getD 0 0 % c, idx.getD 1 0, idx.getD 2 0]]
  · congr 1
    refine eq_of3 _ _ rfl fun r hr i hi j hj => ?_
    obtain ⟨h1, h2, h3⟩ := key r hr
    simp [of_get, within, *, of5_get]
  · intro idx hi
    simp only [within_cons, within_nil] at hi
    obtain ⟨r, _, rfl, hr, i, _, rfl, h1, j, _, rfl, h2, rfl⟩ := hi
    obtain ⟨h3, h4, h5⟩ := key r hr
    refine ⟨by simp [within, *], ?_⟩
    have e1 : r = c * (r / c) + r % c := (Nat.div_add_mod r c).symm
    have e2 : r / c = b * (r / c / b) + r / c % b := (Nat.div_add_mod (r / c) b).symm
    simp only [flat, of5_shape, List.prod_cons, List.prod_nil, List.getD_cons_zero, List.getD_cons_succ]
    generalize r / c / b = x at *
    generalize r / c % b = y at *
    generalize r % c = z at *
    rw [e2] at e1
    rw [e1]
    ring

theorem reshape3_split2 (g : Nat → Nat → Nat → F) :
    (of3 (a * b * c) d 1 g).reshape [a, b, c, d] = .ok (of4 a b c d fun i j k m => g ((i * b + j) * c + k) m 0) := by
  rw [reshape_eq (by simp [Nat.mul_assoc]) fun idx =>
    [(idx.getD 0 0 * b + idx.getD 1 0) * c + idx.getD 2 0, idx.getD 3 0, 0]]
  · congr 1
    refine eq_of4 _ _ rfl fun i hi j hj k hk m hm => ?_
    have := pair_lt (pair_lt hi hj) hk
    simp [of_get, within, *, of3_get]
  · intro idx hi
    simp only [within_cons, within_nil] at hi
    obtain ⟨i, _, rfl, h1, j, _, rfl, h2, k, _, rfl, h3, m, _, rfl, h4, rfl⟩ := hi
    have := pair_lt (pair_lt h1 h2) h3
    refine ⟨by simp [within, *], ?_⟩
    simp only [flat, of3_shape, List.prod_cons, List.prod_nil, List.getD_cons_zero, List.getD_cons_succ]
    ring

theorem permute3_120 (g : Nat → Nat → Nat → F) :
    (of3 a b c g).permute [1, 2, 0] = .ok (of3 b c a fun i j k => g k i j) := by
  simp only [permute, of3_shape]
  simp
  refine eq_of3 _ _ (by simp) fun i hi j hj k hk => ?_
  simp [of_get, within, *, of3_get, List.range_succ, List.idxOf_cons]

theorem permute4_1320 (g : Nat → Nat → Nat → Nat → F) :
    (of4 a b c d g).permute [1, 3, 2, 0] = .ok (of4 b d c a fun i j k m => g m i k j) := by
  simp only [permute, of4_shape]
  simp
  refine eq_of4 _ _ (by simp) fun i hi j hj k hk m hm => ?_
  simp [of_get, within, *, of4_get, List.range_succ, List.idxOf_cons]

theorem permute5_13420 (g : Nat → Nat → Nat → Nat → Nat → F) :
    (of5 a b c d e g).permute [1, 3, 4, 2, 0] = .ok (of5 b d e c a fun i j k m n => g n i m j k) := by
  simp only [permute, of5_shape]
  simp
  refine eq_of5 _ _ (by simp) fun i hi j hj k hk m hm n hn => ?_
  simp [of_get, within, *, of5_get, List.range_succ, List.idxOf_cons]

theorem temporalPool_of3 (pool : List F → F) (g : Nat → Nat → Nat → F) :
    PoolReshape.temporalPool pool (of3 a b c g) = .ok (of3 a b 1 fun i j _ => pool ((List.range c).map (g i j))) := by
  simp only [PoolReshape.temporalPool, of3_shape]
  congr 1
  refine eq_of3 _ _ rfl fun i hi j hj k hk => ?_
  simp only [of_get]
  rw [if_pos (by simp [within, *])]
  congr 1
  apply List.map_congr_left
  intro t ht
  simp [of3_get, hi, hj, List.mem_range.1 ht]

end Tensor

end CoInf
