/-
Property C79: static positional encodings tell the positions apart.
-/
import Verif.Model.Cyclic
import Verif.Props.PosEnc
import Mathlib.Tactic.LinearCombination
import Mathlib.Tactic.FieldSimp
import Mathlib.Tactic.NormNum
import Mathlib.Tactic.Linarith
import Mathlib.Tactic.NormNum.Prime
import Mathlib.Analysis.SpecialFunctions.Trigonometric.Complex

set_option autoImplicit false

namespace CoInf
open Spec

namespace Cyclic
open Real

theorem skipSet_last {N dim : Nat} (hd : half dim ≠ 0) : skipSet N dim (half dim - 1) = N := by
  unfold skipSet
  simp only
  split
  · rename_i h
    rw [h]
    simp
  · rename_i h
    have h1 : ((half dim - 1 : Nat) : ℝ) = (half dim : ℝ) - 1 := by
      rw [Nat.cast_sub (by omega)]; simp
    have h2 : (half dim : ℝ) - 1 ≠ 0 := by
      intro h0
      have : (half dim : ℝ) = ((1 : Nat) : ℝ) := by push_cast; linarith
      exact h (Nat.cast_injective this)
    rw [h1, mul_div_cancel₀ _ h2, add_sub_cancel]
    exact Nat.floor_natCast N

theorem skip₀_last {N dim i : Nat} (hd : half dim ≠ 0) (hi : half dim ≤ i / 3 * 3 + 2) : skip₀ N dim i = N := by
  unfold skip₀
  split
  · rename_i h
    rw [show i / 3 * 3 + 1 = half dim - 1 by omega]
    exact skipSet_last hd
  · exact skipSet_last hd

/-- Columns with the longest period: they are exact waves. -/
theorem entry_last {N dim k i : Nat} (hN : N ≠ 0) (hd : half dim ≠ 0) (hi : half dim ≤ i / 3 * 3 + 2) (hk : k < N) :
    entry N dim k i = if i % 2 = 1 then cos (fai dim i - 2 * π / N * k) else sin (fai dim i - 2 * π / N * k) := by
  have hs : skip N dim i = N := by unfold skip; rw [skip₀_last hd hi]; simp
  have hn : num N dim i = 100 * N := by unfold num longer; rw [skip₀_last hd hi]; simp
  have hNr : (N : ℝ) ≠ 0 := Nat.cast_ne_zero.mpr hN
  have hx : (0.01 : ℝ) * ((k * (100 * N) / N : Nat) : ℝ) = k := by
    rw [show k * (100 * N) = (k * 100) * N by ring, Nat.mul_div_cancel _ (Nat.pos_of_ne_zero hN)]
    push_cast; ring
  have hT : 2 * π / (2 * π / N) = (N : ℝ) := by field_simp
  have ha : angle k (2 * π / N) (fai dim i) = fai dim i - 2 * π / N * k + 2 * π := by
    unfold angle
    simp only
    rw [hT]
    have hkN : (k : ℝ) < N := by exact_mod_cast hk
    have hk0 : (0 : ℝ) ≤ k := Nat.cast_nonneg k
    have hm : npMod k (2 * N) = k := by
      unfold npMod
      have : ⌊(k : ℝ) / (2 * N)⌋ = 0 := by
        rw [Int.floor_eq_zero_iff]
        constructor
        · positivity
        · rw [div_lt_one (by linarith)]; linarith
      rw [this]; simp
    rw [hm, abs_of_nonpos (by linarith)]
    field_simp
    ring
  unfold entry
  simp only
  rw [hs, hn, hx, ha, sin_add_two_pi, cos_add_two_pi]

/-- A wave over the circle takes its usual value at a wrapped position. -/
theorem wave_wrap {N : Nat} (hN : N ≠ 0) (φ : ℝ) (k : Nat) (d : Int) :
    sin (φ - 2 * π / N * ((((k : Int) + d + N) % N).toNat : ℝ)) = sin (φ - 2 * π / N * (k + d)) := by
  have hNr : (N : ℝ) ≠ 0 := Nat.cast_ne_zero.mpr hN
  have h0 : 0 ≤ ((k : Int) + d + N) % N := Int.emod_nonneg _ (by omega)
  have h1 : ((((k : Int) + d + N) % N).toNat : ℝ) = (((((k : Int) + d + N) % N) : Int) : ℝ) := by
    conv_rhs => rw [← Int.toNat_of_nonneg h0]
    rfl
  have h2 := Int.emod_add_mul_ediv ((k : Int) + d + N) N
  have h3 : (((((k : Int) + d + N) % N) : Int) : ℝ) = (k + d + N) - N * ((((k : Int) + d + N) / N : Int) : ℝ) := by
    have := congrArg (fun z : Int => (z : ℝ)) h2
    push_cast at this
    push_cast
    linarith
  rw [h1, h3]
  have : φ - 2 * π / N * ((k + d + N) - N * ((((k : Int) + d + N) / N : Int) : ℝ)) =
      φ - 2 * π / N * (k + d) + ((((k : Int) + d + N) / N - 1 : Int) : ℝ) * (2 * π) := by
    push_cast
    field_simp
    ring
  rw [this, sin_add_int_mul_two_pi]

/-- The factor by which pooling multiplies a wave of period `N`. -/
noncomputable def gain (mean : Bool) (N : Nat) : ℝ :=
  if mean then (1 + 2 * cos (2 * π / N) + 2 * cos (2 * (2 * π / N))) / 5 else 1

theorem pooled_wave (mean : Bool) {N : Nat} (hN : N ≠ 0) (φ : ℝ) (x : Nat → ℝ)
    (hx : ∀ k < N, x k = sin (φ - 2 * π / N * k)) {k : Nat} (hk : k < N) :
    pooled mean N x k = gain mean N * sin (φ - 2 * π / N * k) - ((List.range N).map x).sum / N := by
  have hw : ∀ d : Int, x (((k : Int) + d + N) % N).toNat = sin (φ - 2 * π / N * (k + d)) := by
    intro d
    rw [hx _ (by
      have := Int.emod_lt_of_pos ((k : Int) + d + N) (by omega : (0 : Int) < N)
      have := Int.emod_nonneg ((k : Int) + d + N) (by omega : (N : Int) ≠ 0)
      omega)]
    exact wave_wrap hN φ k d
  unfold pooled
  congr 1
  cases mean with
  | false =>
    have h0 := hw 0
    simp only [pooling, gain, Bool.false_eq_true, if_false, List.map_cons, List.map_nil, List.sum_cons, List.sum_nil, h0]
    push_cast
    norm_num
  | true =>
    simp only [pooling, gain, if_true, List.map_cons, List.map_nil, List.sum_cons, List.sum_nil, hw]
    have e : ∀ d : ℝ, φ - 2 * π / N * (k + d) = (φ - 2 * π / N * k) - 2 * π / N * d := fun d => by ring
    simp only [e]
    generalize φ - 2 * π / N * k = y
    generalize 2 * π / (N : ℝ) = t
    push_cast
    rw [show y - t * -2 = y + 2 * t by ring, show y - t * -1 = y + t by ring, show y - t * 0 = y by ring,
      show y - t * 1 = y - t by ring, show y - t * 2 = y - 2 * t by ring]
    rw [sin_add, sin_add, sin_sub, sin_sub]
    norm_num
    ring

theorem gain_ne {mean : Bool} {N : Nat} (h1 : N ≠ 0) (h2 : N ≠ 1) (h5 : mean = true → N ≠ 5) : gain mean N ≠ 0 := by
  cases mean with
  | false => simp [gain]
  | true =>
    have h5 := h5 rfl
    intro h
    simp only [gain, if_true] at h
    have hNr : (N : ℝ) ≠ 0 := Nat.cast_ne_zero.mpr h1
    have key : sin (5 * (π / N)) = (1 + 2 * cos (2 * π / N) + 2 * cos (2 * (2 * π / N))) * sin (π / N) := by
      rw [show 2 * π / (N : ℝ) = 2 * (π / N) by ring]
      generalize π / (N : ℝ) = u
      rw [show 5 * u = 2 * (2 * u) + u by ring, sin_add, sin_two_mul (2 * u), sin_two_mul u, cos_two_mul (2 * u)]
      have hs := sin_sq u
      rw [cos_two_mul u]
      linear_combination (0 : ℝ) * hs
    have h0 : sin (5 * (π / N)) = 0 := by
      rw [key]
      have : 1 + 2 * cos (2 * π / N) + 2 * cos (2 * (2 * π / N)) = 0 := by
        field_simp at h ⊢
        linarith
      rw [this, zero_mul]
    obtain ⟨n, hn⟩ := sin_eq_zero_iff.mp h0
    have h6 : (n : ℝ) * N = 5 := by
      have hp := pi_ne_zero
      field_simp at hn
      nlinarith [hn, pi_pos]
    have h7 : n * (N : Int) = 5 := by exact_mod_cast h6
    have h8 : (N : Int) ∣ 5 := ⟨n, by linarith⟩
    have h9 : N ∣ 5 := by exact_mod_cast h8
    rcases (Nat.dvd_prime (by norm_num)).mp h9 with h | h
    · exact h2 h
    · exact h5 h

/-- The phase of column `i`, written as a sine. -/
noncomputable def phase (dim i : Nat) : ℝ := fai dim i + if i % 2 = 1 then π / 2 else 0

theorem entry_sin {N dim k i : Nat} (hN : N ≠ 0) (hd : half dim ≠ 0) (hi : half dim ≤ i / 3 * 3 + 2) (hk : k < N) :
    entry N dim k i = sin (phase dim i - 2 * π / N * k) := by
  rw [entry_last hN hd hi hk]
  unfold phase
  split
  · rw [← sin_add_pi_div_two]; congr 1; ring
  · rw [add_zero]

/-- There are two columns of the longest period that are not multiples of each other. -/
theorem columns {dim : Nat} (hd : half dim ≠ 0) : ∃ a b, a < dim ∧ b < dim ∧ half dim ≤ a / 3 * 3 + 2 ∧
    half dim ≤ b / 3 * 3 + 2 ∧ sin (phase dim a - phase dim b) ≠ 0 := by
  have h2 : 2 * half dim ≤ dim := by unfold half; omega
  by_cases h3 : half dim % 3 = 0
  · refine ⟨half dim, half dim + 1, by omega, by omega, by omega, by omega, ?_⟩
    have hf : fai dim (half dim) = 0 := by simp [fai]
    have hh : (half dim : ℝ) ≠ 0 := Nat.cast_ne_zero.mpr hd
    have hf' : fai dim (half dim + 1) = - (2 * π / half dim) := by
      simp only [fai]
      rw [if_neg (by omega)]
      push_cast
      field_simp
      ring
    have hc : cos (2 * π / half dim) ≠ 0 := by
      intro h
      obtain ⟨n, hn⟩ := cos_eq_zero_iff.mp h
      have hp := pi_pos
      have h4 : (4 : ℝ) = (2 * n + 1) * half dim := by
        field_simp at hn
        nlinarith [hn]
      have h5 : (4 : Int) = (2 * n + 1) * (half dim : Int) := by exact_mod_cast h4
      have h6 : (half dim : Int) ∣ 4 := ⟨2 * n + 1, by linarith⟩
      have h7 : half dim ∣ 4 := by exact_mod_cast h6
      have := Nat.le_of_dvd (by norm_num) h7
      have : half dim = 3 := by omega
      rw [this] at h7
      omega
    unfold phase
    rw [hf, hf']
    by_cases ho : half dim % 2 = 1
    · rw [if_pos ho, if_neg (by omega)]
      rw [show 0 + π / 2 - (-(2 * π / (half dim : ℝ)) + 0) = 2 * π / half dim + π / 2 by ring, sin_add_pi_div_two]
      exact hc
    · rw [if_neg ho, if_pos (by omega)]
      rw [show 0 + 0 - (-(2 * π / (half dim : ℝ)) + π / 2) = 2 * π / half dim - π / 2 by ring, sin_sub_pi_div_two]
      exact neg_ne_zero.mpr hc
  · refine ⟨half dim - 1, half dim, by omega, by omega, by omega, by omega, ?_⟩
    have hf : fai dim (half dim) = 0 := by simp [fai]
    have hf' : fai dim (half dim - 1) = 0 := by simp [fai]
    unfold phase
    rw [hf, hf']
    by_cases ho : half dim % 2 = 1
    · rw [if_neg (by omega), if_pos ho]; simp
    · rw [if_pos (by omega), if_neg ho]; simp

/-- Two waves that are not multiples of each other determine the angle. -/
theorem determined {a b u v : ℝ} (h : sin (a - b) ≠ 0) (h1 : sin (a - u) = sin (a - v)) (h2 : sin (b - u) = sin (b - v)) :
    sin u = sin v ∧ cos u = cos v := by
  rw [sin_sub] at h
  rw [sin_sub, sin_sub] at h1 h2
  constructor
  · apply mul_left_cancel₀ h
    linear_combination sin b * h1 - sin a * h2
  · apply mul_left_cancel₀ h
    linear_combination cos b * h1 - cos a * h2

theorem position {N k k' : Nat} (hk : k < N) (hk' : k' < N) (hs : sin (2 * π / N * k) = sin (2 * π / N * k'))
    (hc : cos (2 * π / N * k) = cos (2 * π / N * k')) : k = k' := by
  have hN : N ≠ 0 := by omega
  have hNr : (N : ℝ) ≠ 0 := Nat.cast_ne_zero.mpr hN
  have h1 : cos (2 * π / N * k - 2 * π / N * k') = 1 := by
    rw [cos_sub, hs, hc]
    have := sin_sq_add_cos_sq (2 * π / N * k')
    linarith
  obtain ⟨n, hn⟩ := (cos_eq_one_iff _).mp h1
  have h2 : (n : ℝ) * N = k - k' := by
    have hp := pi_pos
    field_simp at hn
    nlinarith [hn]
  have h3 : n * (N : Int) = k - k' := by exact_mod_cast h2
  have h4 : n = 0 := by
    by_contra h
    rcases lt_or_gt_of_ne h with h | h <;> nlinarith
  subst h4
  omega

/-- Row `k` of the table. -/
noncomputable def row (mean : Bool) (N dim k : Nat) : List ℝ :=
  (List.range dim).map fun i => pooled mean N (fun k => entry N dim k i) k

theorem row_inj {mean : Bool} {N dim : Nat} (hd : half dim ≠ 0) (h5 : mean = true → N ≠ 5) {k k' : Nat} (hk : k < N)
    (hk' : k' < N) (h : row mean N dim k = row mean N dim k') : k = k' := by
  by_cases h1 : N = 1
  · omega
  have hN : N ≠ 0 := by omega
  obtain ⟨a, b, ha, hb, ha', hb', hab⟩ := columns hd
  have hcol : ∀ i < dim, pooled mean N (fun k => entry N dim k i) k = pooled mean N (fun k => entry N dim k i) k' := by
    intro i hi
    have := congrArg (fun l : List ℝ => l[i]?) h
    simpa [row, hi] using this
  have hwave : ∀ i < dim, half dim ≤ i / 3 * 3 + 2 →
      sin (phase dim i - 2 * π / N * k) = sin (phase dim i - 2 * π / N * k') := by
    intro i hi hl
    have := hcol i hi
    rw [pooled_wave mean hN (phase dim i) _ (fun k hk => entry_sin hN hd hl hk) hk,
      pooled_wave mean hN (phase dim i) _ (fun k hk => entry_sin hN hd hl hk) hk'] at this
    exact mul_left_cancel₀ (gain_ne hN h1 h5) (by linarith)
  obtain ⟨hs, hc⟩ := determined hab (hwave a ha ha') (hwave b hb hb')
  exact position hk hk' hs hc

theorem pattern_some {mean : Bool} {N dim : Nat} {rows : List (List ℝ)} (h : pattern mean N dim = some rows) :
    half dim ≠ 0 ∧ N ≠ 0 ∧ rows = (List.range N).map (row mean N dim) := by
  unfold pattern at h
  split at h
  · cases h
  · rename_i h0
    cases h
    exact ⟨fun h => h0 (.inl h), fun h => h0 (.inr h), rfl⟩

theorem add_cancel : ∀ x a b : List ℝ, a.length = x.length → b.length = x.length →
    List.zipWith (· + ·) x a = List.zipWith (· + ·) x b → a = b
  | [], a, b, ha, hb, _ => by rw [List.length_eq_zero_iff.mp ha, List.length_eq_zero_iff.mp hb]
  | x :: xs, [], _, ha, _, _ => by cases ha
  | x :: xs, _, [], _, hb, _ => by cases hb
  | x :: xs, a :: as, b :: bs, ha, hb, h => by
    simp only [List.zipWith_cons_cons, List.cons.injEq, add_right_inj] at h
    rw [h.1, add_cancel xs as bs (by simpa using ha) (by simpa using hb) h.2]

/-! ### Averages -/

theorem sum_shift {N : Nat} (hN : N ≠ 0) (x : Nat → ℝ) (d : Int) :
    ((List.range N).map fun (k : Nat) => x (((k : Int) + d + N) % N).toNat).sum = ((List.range N).map x).sum := by
  have hp : ((List.range N).map fun (k : Nat) => (((k : Int) + d + N) % N).toNat).Perm (List.range N) := by
    refine (List.perm_ext_iff_of_nodup ?_ List.nodup_range).mpr ?_
    · refine List.Nodup.map_on ?_ List.nodup_range
      intro a ha b hb hab
      have ha := List.mem_range.mp ha
      have hb := List.mem_range.mp hb
      have h1 := Int.emod_nonneg ((a : Int) + d + N) (by omega : (N : Int) ≠ 0)
      have h2 := Int.emod_nonneg ((b : Int) + d + N) (by omega : (N : Int) ≠ 0)
      have h3 : ((a : Int) + d + N) % N = ((b : Int) + d + N) % N := by omega
      have h4 := (Int.emod_emod_of_dvd ((a : Int) + d + N) (dvd_refl (N : Int)))
      have h5 : (N : Int) ∣ (a : Int) - b := by
        have := Int.emod_emod_of_dvd
        have h6 := Int.ModEq.dvd (show ((b : Int) + d + N) ≡ (a : Int) + d + N [ZMOD N] from h3.symm)
        have e : (a : Int) + d + N - (b + d + N) = a - b := by ring
        rwa [e] at h6
      obtain ⟨c, hc⟩ := h5
      have : c = 0 := by
        by_contra h
        rcases lt_or_gt_of_ne h with h | h <;> nlinarith
      subst this
      omega
    · intro j
      simp only [List.mem_map, List.mem_range]
      constructor
      · rintro ⟨k, hk, rfl⟩
        have := Int.emod_lt_of_pos ((k : Int) + d + N) (by omega : (0 : Int) < N)
        have := Int.emod_nonneg ((k : Int) + d + N) (by omega : (N : Int) ≠ 0)
        omega
      · intro hj
        have h1 := Int.emod_lt_of_pos ((j : Int) - d) (by omega : (0 : Int) < N)
        have h2 := Int.emod_nonneg ((j : Int) - d) (by omega : (N : Int) ≠ 0)
        refine ⟨(((j : Int) - d) % N).toNat, by omega, ?_⟩
        rw [Int.toNat_of_nonneg h2, Int.add_emod_right, Int.emod_add_emod, sub_add_cancel,
          Int.emod_eq_of_lt (by omega) (by omega)]
        rfl
  have := (hp.map x).sum_eq
  rw [← this, List.map_map]
  rfl

end Cyclic

/-- **C79**: the static encodings of different positions are different, except in tables of five positions. -/
theorem C79_distinct_partial (mean : Bool) (N dim : Nat) (h5 : mean = true → N ≠ 5) (rows : List (List ℝ))
    (h : Cyclic.pattern mean N dim = some rows) : rows.length = N ∧ rows.Nodup := by
  obtain ⟨hd, _, rfl⟩ := Cyclic.pattern_some h
  refine ⟨by simp, List.Nodup.map_on ?_ List.nodup_range⟩
  intro a ha b hb hab
  exact Cyclic.row_inj hd h5 (List.mem_range.mp ha) (List.mem_range.mp hb) hab

/-- **C79 refuted** for tables of five positions: averaging over five neighbours on the circle makes all rows equal, and
subtracting the mean makes them 0. -/
theorem C79_five_refuted (dim : Nat) (rows : List (List ℝ)) (h : Cyclic.pattern true 5 dim = some rows) :
    rows = List.replicate 5 (List.replicate dim 0) := by
  obtain ⟨hd, _, rfl⟩ := Cyclic.pattern_some h
  have h0 : ∀ (x : Nat → ℝ) (k : Nat), k < 5 → Cyclic.pooled true 5 x k = 0 := by
    intro x k hk
    have hr : List.range 5 = [0, 1, 2, 3, 4] := rfl
    have : k = 0 ∨ k = 1 ∨ k = 2 ∨ k = 3 ∨ k = 4 := by omega
    rcases this with rfl | rfl | rfl | rfl | rfl <;>
      (simp only [Cyclic.pooled, Cyclic.pooling, hr, if_true, List.map_cons, List.map_nil, List.sum_cons, List.sum_nil,
        List.length_cons, List.length_nil]
       norm_num [show Int.toNat 2 = 2 from rfl, show Int.toNat 3 = 3 from rfl, show Int.toNat 4 = 4 from rfl]
       ring)
  have hrow : ∀ k, k < 5 → Cyclic.row true 5 dim k = List.replicate dim 0 := by
    intro k hk
    simp only [Cyclic.row, h0 _ k hk]
    simp
  apply List.ext_getElem
  · simp
  · intro k h1 h2
    simp only [List.getElem_map, List.getElem_range, List.getElem_replicate]
    exact hrow k (by simpa using h1)

/-- **C79**: the encodings are centred, each channel has mean 0 over the positions. -/
theorem C79_centred (mean : Bool) (N dim : Nat) (rows : List (List ℝ)) (h : Cyclic.pattern mean N dim = some rows)
    (i : Nat) (hi : i < dim) : (rows.map fun r => r.getD i 0).sum = 0 := by
  obtain ⟨hd, hN, rfl⟩ := Cyclic.pattern_some h
  have hNr : (N : ℝ) ≠ 0 := Nat.cast_ne_zero.mpr hN
  have hr : (List.map (fun r : List ℝ => r.getD i 0) ((List.range N).map (Cyclic.row mean N dim))) =
      (List.range N).map (Cyclic.pooled mean N fun k => Cyclic.entry N dim k i) := by
    rw [List.map_map]
    apply List.map_congr_left
    intro k _
    simp [Cyclic.row, hi]
  rw [hr]
  generalize (fun k => Cyclic.entry N dim k i) = x
  unfold Cyclic.pooled
  have hsub : ∀ (f : Nat → ℝ) (c : ℝ), (List.map (fun k => f k - c) (List.range N)).sum =
      (List.map f (List.range N)).sum - N * c := by
    intro f c
    have : (fun k => f k - c) = fun k => f k + (-c) := by funext k; ring
    rw [this, List.sum_map_add]
    simp
    ring
  rw [hsub, List.sum_map_mul_left]
  rw [mul_div_cancel₀ _ hNr]
  have key : ∀ l : List Int, (List.map (fun k : Nat => (l.map fun i => x (((k : Int) + i + N) % N).toNat).sum) (List.range N)).sum =
      l.length * (List.map x (List.range N)).sum := by
    intro l
    induction l with
    | nil => simp
    | cons d l ih =>
      simp only [List.map_cons, List.sum_cons, List.length_cons]
      rw [List.sum_map_add, ih, Cyclic.sum_shift hN x d]
      push_cast
      ring
  have hl : ((Cyclic.pooling mean).length : ℝ) ≠ 0 := by cases mean <;> simp [Cyclic.pooling]
  rw [key, ← mul_assoc, div_mul_cancel₀ _ hl]
  norm_num

/-- **C79**: tables are refused (`ZeroDivisionError`) exactly for less than two channels or no positions. -/
theorem C79_rejects (mean : Bool) (N dim : Nat) : Cyclic.pattern mean N dim = none ↔ dim < 2 ∨ N = 0 := by
  unfold Cyclic.pattern Cyclic.half
  split
  · rename_i h
    simp only [true_iff]
    omega
  · rename_i h
    simp only [reduceCtorEq, false_iff]
    omega

/-- **C79**, streams: in a stream with static encodings (cut into calls in any way), equal input frames at times `n` and `m`
give equal output frames exactly if the times are congruent modulo the number of positions, which is not five. -/
theorem C79_stream_partial (dim N : Nat) (u : Int) (h5 : N ≠ 5) (c : PosEnc.Cfg (List ℝ)) (hc : Cyclic.recycling dim N u = some c)
    (s : Int) (ops : List (Op (List ℝ))) (hf : ∀ op ∈ ops, op.feeds) (hops : ∀ op ∈ ops, op.upTo N)
    (n m : Nat) (x : List ℝ) (hx : x.length = dim) (hn : (framesOf ops)[n]? = some x) (hm : (framesOf ops)[m]? = some x) :
    ∃ rs s' y z, run (PosEnc.mod c) ((PosEnc.mod c).clean s) ops = .ok (rs, s') ∧ (outsOf rs)[n]? = some y ∧
      (outsOf rs)[m]? = some z ∧ (y = z ↔ n % N = m % N) := by
  unfold Cyclic.recycling at hc
  cases hp : Cyclic.pattern true N dim with
  | none => rw [hp] at hc; cases hc
  | some rows =>
    rw [hp] at hc
    cases hc
    obtain ⟨hd, hN, rfl⟩ := Cyclic.pattern_some hp
    have hl : ((List.range N).map (Cyclic.row true N dim)).length = N := by simp
    obtain ⟨rs, s', hr, _, hg⟩ := C31_recycling ⟨(List.range N).map (Cyclic.row true N dim), List.zipWith (· + ·), u⟩
      (by
        intro h
        have h : (List.range N).map (Cyclic.row true N dim) = [] := h
        rw [h] at hl
        exact hN hl.symm) s ops hf (by simpa using hops)
    have hget : ∀ j, ((List.range N).map (Cyclic.row true N dim))[j % ((List.range N).map (Cyclic.row true N dim)).length]? =
        some (Cyclic.row true N dim (j % N)) := by
      intro j
      rw [hl]
      have : j % N < N := Nat.mod_lt _ (by omega)
      simp [this]
    refine ⟨rs, s', List.zipWith (· + ·) x (Cyclic.row true N dim (n % N)), List.zipWith (· + ·) x (Cyclic.row true N dim (m % N)),
      hr, ?_, ?_, ?_⟩
    · rw [hg, hn]; show Option.map _ _ = _; rw [hget]; rfl
    · rw [hg, hm]; show Option.map _ _ = _; rw [hget]; rfl
    · constructor
      · intro h
        refine Cyclic.row_inj (mean := true) hd (fun _ => h5) (Nat.mod_lt _ (by omega)) (Nat.mod_lt _ (by omega)) ?_
        refine Cyclic.add_cancel x _ _ ?_ ?_ h
        · simp [Cyclic.row, hx]
        · simp [Cyclic.row, hx]
      · intro h; rw [h]

/-- **C79 refuted**, streams: with five positions the module returns its input. -/
theorem C79_stream_refuted (dim : Nat) (u : Int) (c : PosEnc.Cfg (List ℝ)) (hc : Cyclic.recycling dim 5 u = some c)
    (s : Int) (ops : List (Op (List ℝ))) (hf : ∀ op ∈ ops, op.feeds) (hops : ∀ op ∈ ops, op.upTo 5)
    (hx : ∀ x ∈ framesOf ops, x.length = dim) :
    ∃ rs s', run (PosEnc.mod c) ((PosEnc.mod c).clean s) ops = .ok (rs, s') ∧ outsOf rs = framesOf ops := by
  unfold Cyclic.recycling at hc
  cases hp : Cyclic.pattern true 5 dim with
  | none => rw [hp] at hc; cases hc
  | some rows =>
    rw [hp] at hc
    cases hc
    obtain rfl := C79_five_refuted dim rows hp
    obtain ⟨rs, s', hr, hl, hg⟩ := C31_recycling ⟨List.replicate 5 (List.replicate dim (0 : ℝ)), List.zipWith (· + ·), u⟩
      (by simp) s ops hf (by simpa using hops)
    refine ⟨rs, s', hr, List.ext_getElem? fun n => ?_⟩
    rw [hg n]
    cases hn : (framesOf ops)[n]? with
    | none => rfl
    | some x =>
      have hxl := hx x (List.mem_of_getElem? hn)
      have h5 : n % 5 < 5 := Nat.mod_lt _ (by omega)
      have hz : ∀ (x : List ℝ) (d : Nat), x.length = d → List.zipWith (· + ·) x (List.replicate d 0) = x := by
        intro x
        induction x with
        | nil => intro d _; simp
        | cons a x ih =>
          intro d hd
          cases d with
          | zero => cases hd
          | succ d => simp [List.replicate_succ, ih d (by simpa using hd)]
      show Option.map _ ((List.replicate 5 (List.replicate dim (0 : ℝ)))[n % (List.replicate 5 (List.replicate dim (0 : ℝ))).length]?) = _
      rw [List.length_replicate, List.getElem?_replicate, if_pos h5]
      exact congrArg some (hz x dim hxl)

namespace Cyclic
open Real

theorem skip₀_pos {N dim i : Nat} (hN : N ≠ 0) (hd : half dim ≠ 0) : 1 ≤ skip₀ N dim i := by
  have h1N : (1 : ℝ) ≤ N := by exact_mod_cast Nat.one_le_iff_ne_zero.mpr hN
  have hh : (1 : ℝ) ≤ half dim := by exact_mod_cast Nat.one_le_iff_ne_zero.mpr hd
  have hb : (1 : ℝ) ≤ (N : ℝ) ^ (1 / (half dim : ℝ)) := one_le_rpow h1N (by positivity)
  have hb' : (N : ℝ) ^ (1 / (half dim : ℝ)) ≤ N := by
    conv_rhs => rw [← rpow_one (N : ℝ)]
    exact rpow_le_rpow_of_exponent_le h1N (by rw [div_le_one (by linarith)]; exact hh)
  have key : ∀ j, 1 ≤ skipSet N dim j := by
    intro j
    unfold skipSet
    simp only
    split
    · exact Nat.le_floor (by simpa using hb)
    · refine Nat.le_floor ?_
      have : 0 ≤ (j : ℝ) * ((N - (N : ℝ) ^ (1 / (half dim : ℝ))) / ((half dim : ℝ) - 1)) :=
        mul_nonneg (Nat.cast_nonneg j) (div_nonneg (by linarith) (by linarith))
      push_cast
      linarith
  unfold skip₀
  split
  · exact key _
  · exact key _

/-- Every multiple of the period is a turning point. -/
theorem turning {s : ℝ} (hs : 0 < s) (m : Nat) : npMod (m * s) (2 * s) = 0 ∨ npMod (m * s) (2 * s) = s := by
  have he : (m : ℝ) * s / (2 * s) = (m : ℝ) / 2 := by field_simp
  unfold npMod
  rw [he]
  rcases Nat.even_or_odd m with ⟨j, rfl⟩ | ⟨j, rfl⟩
  · left
    have : (((j + j : Nat) : ℝ)) / 2 = ((j : Int) : ℝ) := by push_cast; ring
    rw [this, Int.floor_intCast]
    push_cast
    ring
  · right
    have : ⌊(((2 * j + 1 : Nat) : ℝ)) / 2⌋ = (j : Int) := by
      rw [Int.floor_eq_iff]
      push_cast
      constructor <;> linarith
    rw [this]
    push_cast
    ring

end Cyclic

/-- **C79**: each channel is a closed curve, the position after the last one would get the entry of position 0. -/
theorem C79_closed (N dim i : Nat) (hN : N ≠ 0) (hd : 2 ≤ dim) : Cyclic.entry N dim N i = Cyclic.entry N dim 0 i := by
  have hd : Cyclic.half dim ≠ 0 := by unfold Cyclic.half; omega
  have hsp : 0 < (Cyclic.skip N dim i : ℝ) := by
    have h1 := Cyclic.skip₀_pos (i := i) hN hd
    have : 0 < Cyclic.skip N dim i := by
      unfold Cyclic.skip; split <;> omega
    exact_mod_cast this
  obtain ⟨m, hm⟩ : ∃ m : Nat, Cyclic.longer N dim i = m * Cyclic.skip N dim i := by
    unfold Cyclic.longer Cyclic.skip
    split
    · exact ⟨_, rfl⟩
    · exact ⟨1, by simp⟩
  have hx : (0.01 : ℝ) * ((N * Cyclic.num N dim i / N : Nat) : ℝ) = m * Cyclic.skip N dim i := by
    rw [Nat.mul_div_cancel_left _ (Nat.pos_of_ne_zero hN), Cyclic.num, hm]
    push_cast
    ring
  have hx0 : (0.01 : ℝ) * ((0 * Cyclic.num N dim i / N : Nat) : ℝ) = 0 := by simp
  have hT : 2 * Real.pi / (2 * Real.pi / Cyclic.skip N dim i) = (Cyclic.skip N dim i : ℝ) := by
    have := Real.pi_ne_zero
    field_simp
  have ha0 : Cyclic.angle 0 (2 * Real.pi / Cyclic.skip N dim i) (Cyclic.fai dim i) = Cyclic.fai dim i + 2 * Real.pi := by
    unfold Cyclic.angle
    simp only
    rw [hT]
    have : Cyclic.npMod 0 (2 * Cyclic.skip N dim i) = 0 := by simp [Cyclic.npMod]
    rw [this, zero_sub, abs_neg, abs_of_pos hsp]
    field_simp
    ring
  have ha : Cyclic.angle (m * Cyclic.skip N dim i) (2 * Real.pi / Cyclic.skip N dim i) (Cyclic.fai dim i) =
        Cyclic.fai dim i + 2 * Real.pi ∨
      Cyclic.angle (m * Cyclic.skip N dim i) (2 * Real.pi / Cyclic.skip N dim i) (Cyclic.fai dim i) = Cyclic.fai dim i := by
    unfold Cyclic.angle
    simp only
    rw [hT]
    rcases Cyclic.turning hsp m with h | h
    · left
      rw [h, zero_sub, abs_neg, abs_of_pos hsp]
      field_simp
      ring
    · right
      rw [h]
      simp
  unfold Cyclic.entry
  simp only
  rw [hx, hx0, ha0]
  rcases ha with h | h
  · rw [h]
  · rw [h, Real.sin_add_two_pi, Real.cos_add_two_pi]

/-! ### Examples -/

/-- The table of the example in the documentation of `RecyclingPositionalEncoding`. -/
example : ∃ rows, Cyclic.pattern true (16 * 2 - 1) 10 = some rows ∧ rows.Nodup := by
  cases h : Cyclic.pattern true (16 * 2 - 1) 10 with
  | none => rw [C79_rejects] at h; omega
  | some rows => exact ⟨rows, rfl, (C79_distinct_partial true _ _ (fun _ => by omega) rows h).2⟩

/-- Five positions. -/
example : Cyclic.pattern true 5 10 = some (List.replicate 5 (List.replicate 10 0)) := by
  cases h : Cyclic.pattern true 5 10 with
  | none => rw [C79_rejects] at h; omega
  | some rows => rw [C79_five_refuted 10 rows h]

/-- A stream of three equal frames in two calls, two channels, three positions. -/
example : ∃ c, Cyclic.recycling 2 3 1 = some c ∧
    ∃ rs s' y z, run (PosEnc.mod c) ((PosEnc.mod c).clean 7) [.steps true [[1, 2], [1, 2]], .step true [1, 2]] = .ok (rs, s') ∧
      (outsOf rs)[0]? = some y ∧ (outsOf rs)[2]? = some z ∧ y ≠ z := by
  cases h : Cyclic.recycling 2 3 1 with
  | none =>
    exfalso
    unfold Cyclic.recycling at h
    cases hp : Cyclic.pattern true 3 2 with
    | none => rw [C79_rejects] at hp; omega
    | some rows => rw [hp] at h; cases h
  | some c =>
    obtain ⟨rs, s', y, z, h1, h2, h3, h4⟩ := C79_stream_partial 2 3 1 (by omega) c h 7
      [.steps true [[1, 2], [1, 2]], .step true [1, 2]] (by simp [Op.feeds]) (by simp [Op.upTo]) 0 2 [1, 2] rfl rfl rfl
    exact ⟨c, rfl, rs, s', y, z, h1, h2, h3, fun e => by have := h4.mp e; omega⟩

end CoInf
