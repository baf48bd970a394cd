import Verif.Spec.Window
import Mathlib.Data.List.Induction

namespace CoInf.Spec
variable {X Y : Type}

theorem lastN_length (K : Nat) (l : List X) (h : K ≤ l.length) : (lastN K l).length = K := by
  simp [lastN]; omega

theorem windowCount_succ (K S n : Nat) :
    windowCount K S (n + 1) =
      windowCount K S n + if K ≤ n + 1 ∧ (n + 1 - K) % S = 0 then 1 else 0 := by
  unfold windowCount
  by_cases h1 : n + 1 < K
  · have : n < K := by omega
    have h3 : ¬ K ≤ n + 1 := by omega
    simp [h1, this, h3]
  · by_cases h2 : n < K
    · have : n + 1 = K := by omega
      subst this
      simp
    · have h3 : K ≤ n + 1 := by omega
      have h4 : n + 1 - K = (n - K) + 1 := by omega
      simp only [h1, h2, h3, if_false, true_and, h4]
      rw [Nat.succ_div]
      simp only [Nat.dvd_iff_mod_eq_zero]
      split <;> omega

theorem slide_nil (K S : Nat) (hK : 0 < K) (f : List X → Y) : slide K S f [] = [] := by
  simp [slide, windowCount, hK]

theorem slide_length (K S : Nat) (f : List X → Y) (zs : List X) :
    (slide K S f zs).length = windowCount K S zs.length := by
  simp [slide]

theorem windowCount_bound {K S L j : Nat} (h : j < windowCount K S L) : j * S + K ≤ L := by
  unfold windowCount at h
  split at h
  · omega
  · rename_i h1
    have : j ≤ (L - K) / S := by omega
    have h2 : j * S ≤ (L - K) / S * S := Nat.mul_le_mul_right _ this
    have h3 : (L - K) / S * S ≤ L - K := Nat.div_mul_le_self _ _
    omega

/-- Windows that fit into a prefix do not change when the stream is extended. -/
theorem drop_take_append {K a : Nat} (zs ws : List X) (h : a + K ≤ zs.length) :
    ((zs ++ ws).drop a).take K = (zs.drop a).take K := by
  rw [List.drop_append_of_le_length (by omega), List.take_append_of_le_length]
  simp; omega

theorem slide_snoc (K S : Nat) (f : List X → Y) (zs : List X) (z : X) :
    slide K S f (zs ++ [z]) = slide K S f zs ++
      (if K ≤ zs.length + 1 ∧ (zs.length + 1 - K) % S = 0 then [f (lastN K (zs ++ [z]))] else []) := by
  have hpre : ∀ j ∈ List.range (windowCount K S zs.length),
      f (((zs ++ [z]).drop (j * S)).take K) = f ((zs.drop (j * S)).take K) := by
    intro j hj
    rw [drop_take_append]
    exact windowCount_bound (by simpa using hj)
  unfold slide
  rw [List.length_append, List.length_singleton, windowCount_succ K S _]
  split
  · rename_i h
    rw [List.range_succ, List.map_append, List.map_congr_left hpre]
    congr 1
    simp only [List.map_cons, List.map_nil, List.cons.injEq, and_true]
    congr 1
    have hw : windowCount K S zs.length * S = zs.length + 1 - K := by
      obtain ⟨h1, h2⟩ := h
      unfold windowCount
      split
      · simp; omega
      · have h4 : zs.length + 1 - K = (zs.length - K) + 1 := by omega
        have hd : S ∣ zs.length - K + 1 := by
          rw [← h4]; exact Nat.dvd_of_mod_eq_zero h2
        have : (zs.length - K + 1) / S = (zs.length - K) / S + 1 := by
          rw [Nat.succ_div, if_pos hd]
        rw [← this, h4]
        exact Nat.div_mul_cancel hd
    rw [hw]
    unfold lastN
    have : (zs ++ [z]).length - K = zs.length + 1 - K := by simp
    rw [this, List.take_of_length_le]
    simp; omega
  · rw [Nat.add_zero, List.map_congr_left hpre, List.append_nil]

/-- Outputs of a prefix are a prefix of the outputs. -/
theorem slide_append_prefix (K S : Nat) (f : List X → Y) (zs ws : List X) :
    ∃ r, slide K S f (zs ++ ws) = slide K S f zs ++ r := by
  induction ws using List.reverseRecOn generalizing zs with
  | nil => exact ⟨[], by simp⟩
  | append_singleton ws w ih =>
    obtain ⟨r, hr⟩ := ih zs
    rw [← List.append_assoc, slide_snoc K S, hr, List.append_assoc]
    exact ⟨_, rfl⟩

theorem padStart_snoc (P : Nat) (fill : X → X) (xs : List X) (x : X) (h : xs ≠ []) :
    padStart P fill (xs ++ [x]) = padStart P fill xs ++ [x] := by
  cases xs with
  | nil => exact absurd rfl h
  | cons a as => simp [padStart]

theorem padStart_append (P : Nat) (fill : X → X) (xs ys : List X) (h : xs ≠ []) :
    padStart P fill (xs ++ ys) = padStart P fill xs ++ ys := by
  cases xs with
  | nil => exact absurd rfl h
  | cons a as => simp [padStart]

theorem padStart_length (P : Nat) (fill : X → X) (xs : List X) (h : xs ≠ []) :
    (padStart P fill xs).length = P + xs.length := by
  cases xs with
  | nil => exact absurd rfl h
  | cons a as => simp [padStart]

end CoInf.Spec
