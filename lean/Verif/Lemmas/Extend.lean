/-
Padded sequences as sequences over all integers.
-/
import Verif.Model.Conv
import Verif.Spec.ConvNd
import Verif.Lemmas.Window

set_option autoImplicit false

namespace CoInf
open Spec

/-- The two padding modes as continuations of a signal. -/
def Fill.extend : Fill → Extend
  | .zeros => .zeros
  | .replicate => .replicate

theorem get_padded (f : Fill) {α : Type} (zero : α) (P : Nat) {xs : List α} (hx : xs ≠ []) (i : Nat)
    (hi : i < xs.length + 2 * P) :
    (padEnd P (f.make zero) (padStart P (f.make zero) xs))[i]? =
      some (extend1 f.extend zero xs ((i : Int) - P)) := by
  obtain ⟨a, t, rfl⟩ : ∃ a t, xs = a :: t := by
    cases xs with
    | nil => exact absurd rfl hx
    | cons a t => exact ⟨a, t, rfl⟩
  have hl : (padStart P (f.make zero) (a :: t)).getLast? = some ((a :: t).getLast (by simp)) := by
    simp only [padStart]
    rw [List.getLast?_append, List.getLast?_eq_some_getLast (by simp : a :: t ≠ [])]
    rfl
  unfold padEnd
  rw [hl]
  simp only [padStart]
  have hn : ((i : Int) - P).toNat = i - P := by omega
  have hmk : ∀ y, f.make zero y = match f with
    | .zeros => zero
    | .replicate => y := by intro y; cases f <;> rfl
  by_cases h1 : i < P
  · rw [List.append_assoc, List.getElem?_append_left (by simpa using h1), List.getElem?_replicate, if_pos h1]
    cases f with
    | zeros =>
      simp only [Fill.make, Fill.extend, extend1]
      rw [if_neg (by omega)]
    | replicate =>
      simp only [Fill.make, Fill.extend, extend1, hn]
      rw [show i - P = 0 by omega]
      simp
  · by_cases h2 : i - P < (a :: t).length
    · rw [List.append_assoc, List.getElem?_append_right (by simpa using h1), List.length_replicate,
        List.getElem?_append_left h2]
      cases f with
      | zeros =>
        simp only [Fill.extend, extend1, hn]
        rw [if_pos (by omega), List.getD_eq_getElem?_getD, List.getElem?_eq_getElem h2]
        rfl
      | replicate =>
        simp only [Fill.extend, extend1, hn]
        rw [Nat.min_eq_left (by omega), List.getD_eq_getElem?_getD, List.getElem?_eq_getElem h2]
        rfl
    · rw [List.getElem?_append_right (by simp at h2 ⊢; omega), List.getElem?_replicate,
        if_pos (by simp at hi h2 ⊢; omega)]
      cases f with
      | zeros =>
        simp only [Fill.make, Fill.extend, extend1, hn]
        rw [if_pos (by omega), List.getD_eq_getElem?_getD, List.getElem?_eq_none (by omega)]
        rfl
      | replicate =>
        simp only [Fill.make, Fill.extend, extend1, hn]
        rw [Nat.min_eq_right (by omega), List.getD_eq_getElem?_getD, ← List.getLast?_eq_getElem?,
          List.getLast?_eq_some_getLast (by simp : a :: t ≠ [])]
        rfl

theorem length_padStart {α : Type} (P : Nat) (f : α → α) {xs : List α} (hx : xs ≠ []) :
    (padStart P f xs).length = xs.length + P := by
  cases xs with
  | nil => exact absurd rfl hx
  | cons a t => simp [padStart]; omega

theorem lt_of_window {K S L m : Nat} (hm : m < windowCount K S L) (k : Fin K) : m * S + k < L := by
  have := windowCount_bound hm
  omega

/-- The window of `K` entries starting at `a`. -/
theorem window_ofFn {α : Type} (K a : Nat) (zs : List α) (g : Nat → α) (h : ∀ k, k < K → zs[a + k]? = some (g k)) :
    (zs.drop a).take K = List.ofFn fun k : Fin K => g k := by
  apply List.ext_getElem?
  intro k
  rw [List.getElem?_take, List.getElem?_drop, List.getElem?_ofFn]
  by_cases hk : k < K
  · rw [if_pos hk, dif_pos hk, h k hk]
  · rw [if_neg hk, dif_neg hk]

theorem length_padEnd {α : Type} (P : Nat) (f : α → α) {xs : List α} (hx : xs ≠ []) :
    (padEnd P f xs).length = xs.length + P := by
  unfold padEnd
  rw [List.getLast?_eq_some_getLast hx]
  simp

/-- Windows over a clip padded on both sides. -/
theorem clipOut_ofFn {X Y : Type} (f : Fill) (zero : X) (K S P : Nat) (g : List X → Y) {xs : List X} (hx : xs ≠ []) :
    clipOut K S P (f.make zero) g xs = (List.range (windowCount K S (xs.length + 2 * P))).map fun (m : Nat) =>
      g (List.ofFn fun k : Fin K => extend1 f.extend zero xs ((m : Int) * S + k - P)) := by
  unfold clipOut slide
  have hs : padStart P (f.make zero) xs ≠ [] := by
    cases xs with
    | nil => exact absurd rfl hx
    | cons a t => simp [padStart]
  rw [length_padEnd _ _ hs, length_padStart _ _ hx, show xs.length + P + P = xs.length + 2 * P by omega]
  apply List.map_congr_left
  intro m hm
  congr 1
  rw [window_ofFn K (m * S) _ (fun k => extend1 f.extend zero xs ((m : Int) * S + k - P))]
  intro k hk
  have hlt := lt_of_window (by simpa using hm) ⟨k, hk⟩
  have h := get_padded f zero P hx (m * S + k) hlt
  push_cast at h
  exact h

/-- Windows over a stream padded in front. -/
theorem streamOut_ofFn {X Y : Type} (f : Fill) (zero : X) (K S P : Nat) (g : List X → Y) (hK : P + 1 ≤ K) (xs : List X) :
    streamOut K S P (f.make zero) g xs = (List.range (windowCount K S (xs.length + P))).map fun (m : Nat) =>
      g (List.ofFn fun k : Fin K => extend1 f.extend zero xs ((m : Int) * S + k - P)) := by
  by_cases hx : xs = []
  · subst hx
    have : windowCount K S (([] : List X).length + P) = 0 := by
      unfold windowCount
      rw [if_pos (by simp; omega)]
    rw [this]
    unfold streamOut
    show slide K S g [] = _
    rw [slide_nil K S (by omega)]
    rfl
  · unfold streamOut slide
    rw [length_padStart _ _ hx]
    apply List.map_congr_left
    intro m hm
    congr 1
    rw [window_ofFn K (m * S) _ (fun k => extend1 f.extend zero xs ((m : Int) * S + k - P))]
    intro k hk
    have hlt := lt_of_window (by simpa using hm) ⟨k, hk⟩
    have h := get_padded f zero P hx (m * S + k) (by simp at hlt ⊢; omega)
    push_cast at h
    rw [← h]
    have : ∀ (l : List X) (i : Nat), i < l.length → (padEnd P (f.make zero) l)[i]? = l[i]? := by
      intro l i hi
      unfold padEnd
      cases l.getLast? with
      | none => rfl
      | some a => exact List.getElem?_append_left hi
    exact (this _ _ (by rw [length_padStart _ _ hx]; simpa using hlt)).symm

end CoInf
