import Verif.Props.Leaf
import Mathlib.Order.WithBot
import Mathlib.Order.MinMax
import Mathlib.Order.Lattice
import Mathlib.Algebra.Order.Monoid.Unbundled.WithTop

namespace CoInf
open Spec

namespace Pool
variable {X : Type} [Zero X] [LinearOrder X] [OrderBot X]

theorem foldr_max_perm {l l' : List X} (h : l.Perm l') : l.foldr max ⊥ = l'.foldr max ⊥ := by
  induction h with
  | nil => rfl
  | cons a _ ih => simp only [List.foldr_cons, ih]
  | swap a b l => simp only [List.foldr_cons]; exact max_left_comm _ _ _
  | trans _ _ h1 h2 => exact h1.trans h2

theorem le_foldr_max {l : List X} {a : X} (h : a ∈ l) : a ≤ l.foldr max ⊥ := by
  induction l with
  | nil => cases h
  | cons b l ih =>
    rcases List.mem_cons.1 h with rfl | h
    · exact le_max_left _ _
    · exact (ih h).trans (le_max_right _ _)

theorem foldr_max_le {l : List X} {b : X} (h : ∀ a ∈ l, a ≤ b) : l.foldr max ⊥ ≤ b := by
  induction l with
  | nil => exact bot_le
  | cons c l ih =>
    exact max_le (h c (by simp)) (ih fun a ha => h a (by simp [ha]))

theorem maxPool_ok (fill : TFill) (K S P : Nat) (hK : 1 ≤ K) (hS : 1 ≤ S) (hP : P ≤ K - 1) :
    Ok (maxPool (X := X) fill K S P) where
  hK := hK
  hS := hS
  hP := by show P + 1 ≤ K; omega
  hd := rfl
  hfill := fun _ => rfl
  hpool := fun _ _ h => foldr_max_perm h

end Pool

theorem clipOut_replicate_head {X Y : Type} (K S P : Nat) (hK : 1 ≤ K) (hP : P ≤ K) (fill : X → X)
    (f : List X → Y) (a : X) : (clipOut K S P fill f (List.replicate K a)).head? =
      some (f (List.replicate P (fill a) ++ List.replicate (K - P) a)) := by
  obtain ⟨k, rfl⟩ : ∃ k, K = k + 1 := ⟨K - 1, by omega⟩
  have hx : List.replicate (k + 1) a ≠ [] := by simp
  have hlast : (List.replicate (k + 1) a).getLast hx = a := by simp
  rw [clipOut_eq _ _ _ _ _ hx, hlast]
  unfold streamOut slide
  have hpad : padStart P fill (List.replicate (k + 1) a ++ List.replicate P (fill a)) =
      List.replicate P (fill a) ++ (List.replicate (k + 1) a ++ List.replicate P (fill a)) := rfl
  rw [hpad]
  have hpos : 0 < windowCount (k + 1) S
      (List.replicate P (fill a) ++ (List.replicate (k + 1) a ++ List.replicate P (fill a))).length := by
    unfold windowCount
    rw [if_neg (by simp; omega)]
    exact Nat.succ_pos _
  obtain ⟨n, hn⟩ : ∃ n, windowCount (k + 1) S
      (List.replicate P (fill a) ++ (List.replicate (k + 1) a ++ List.replicate P (fill a))).length = n + 1 :=
    ⟨_, (Nat.succ_pred_eq_of_pos hpos).symm⟩
  rw [hn, List.range_succ_eq_map]
  simp only [List.map_cons, List.head?_cons, Nat.zero_mul, List.drop_zero]
  congr 2
  rw [List.take_append, List.take_of_length_le (by simpa using hP), List.length_replicate,
    List.take_append_of_le_length (by simp), List.take_replicate]
  congr 2
  omega

end CoInf
