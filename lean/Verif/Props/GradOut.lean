/-
C86: when the outputs appear that the gradients are computed from.
-/
import Verif.Props.Grad
import Mathlib.Logic.Function.Iterate
import Mathlib.Algebra.Ring.Int.Defs
import Mathlib.Data.Nat.Cast.Basic
import Mathlib.Tactic.Ring

set_option autoImplicit false

namespace CoInf

open Grad Spec

/-! ### When there are outputs -/

namespace Grad

theorem wrap_iterate {s : Nat} (hs : 1 ≤ s) {c : Int} (hc : c ≤ (s : Int) - 1) (t : Nat) :
    (wrap s)^[t] c = if c + t ≤ 0 then c + t else (c + t) % s := by
  induction t with
  | zero =>
    simp only [Function.iterate_zero, id_eq, Nat.cast_zero, add_zero]
    split
    · rfl
    · exact (Int.emod_eq_of_lt (by omega) (by omega)).symm
  | succ t ih =>
    rw [Function.iterate_succ_apply', ih]
    have hpos : (0 : Int) < s := by omega
    unfold wrap
    by_cases h : c + t ≤ 0
    · rw [if_pos h]
      by_cases h' : c + t + 1 > 0
      · rw [if_pos h', if_neg (by push_cast; omega)]; congr 1; push_cast; ring
      · rw [if_neg h', if_pos (by push_cast; omega)]; push_cast; ring
    · rw [if_neg h]
      have h0 := Int.emod_nonneg (c + t) (show (s : Int) ≠ 0 by omega)
      rw [if_pos (show (c + t) % (s : Int) + 1 > 0 by omega), if_neg (show ¬ c + ((t + 1 : Nat) : Int) ≤ 0 by push_cast; omega),
        Int.emod_add_emod]
      congr 1; push_cast; ring

/-- The counter of convolutions and pooling whose delay is `D`. -/
theorem wrap_emits {s : Nat} (hs : 1 ≤ s) {D : Int} (hD : 0 ≤ D) (t : Nat) :
    (wrap s)^[t] ((s : Int) - 1 - D) = (s : Int) - 1 ↔ D ≤ t ∧ ((t : Int) - D) % s = 0 := by
  rw [wrap_iterate hs (by omega)]
  by_cases h : (s : Int) - 1 - D + t ≤ 0
  · rw [if_pos h]
    constructor
    · intro e
      have : (t : Int) = D := by omega
      exact ⟨by omega, by rw [this, sub_self, Int.zero_emod]⟩
    · rintro ⟨e, -⟩; omega
  · rw [if_neg h]
    have e1 : (s : Int) - 1 - D + t = ((t : Int) - D) + (s - 1) := by ring
    rw [e1]
    constructor
    · intro e
      have hd : (s : Int) ∣ (t : Int) - D := by
        have : (((t : Int) - D) + (s - 1) - (s - 1)) % s = 0 := by
          rw [Int.sub_emod, e]
          have : ((s : Int) - 1) % s = s - 1 := Int.emod_eq_of_lt (by omega) (by omega)
          rw [this, sub_self, Int.zero_emod]
        rw [add_sub_cancel_right] at this
        exact Int.dvd_of_emod_eq_zero this
      refine ⟨?_, Int.emod_eq_zero_of_dvd hd⟩
      by_contra hlt
      have h1 : (0 : Int) < D - t := by omega
      have h2 : (s : Int) ∣ D - t := by rw [← neg_sub]; exact (Int.dvd_neg).2 hd
      have := Int.le_of_dvd h1 h2
      omega
    · rintro ⟨-, e⟩
      rw [Int.add_emod, e, zero_add, Int.emod_emod]
      exact Int.emod_eq_of_lt (by omega) (by omega)

theorem fill_iterate (N t : Nat) : fill^[t] (-(N : Int)) = if t ≤ N then (t : Int) - N else 0 := by
  induction t with
  | zero => simp
  | succ t ih =>
    rw [Function.iterate_succ_apply', ih]
    unfold fill
    split_ifs <;> push_cast <;> omega

/-- The counter after `t` frames. -/
theorem stream_counter (k : Kind) (t : Nat) (ps : List Ten) (g : Graph) :
    ∃ st, ((Net.one k).stream t (.one ps none) g).2.1 = .one ps st ∧
      (st.map Prod.snd).getD k.leaf.start = k.leaf.next^[t] k.leaf.start := by
  induction t with
  | zero => exact ⟨none, rfl, rfl⟩
  | succ t ih =>
    obtain ⟨st, h1, h2⟩ := ih
    simp only [Net.stream]
    rw [h1]
    refine ⟨_, rfl, ?_⟩
    rw [Function.iterate_succ_apply', ← h2]; rfl

theorem stream_outputs (k : Kind) (t : Nat) (ps : List Ten) (g : Graph) :
    ((Net.one k).stream (t + 1) (.one ps none) g).1.length = ((Net.one k).stream t (.one ps none) g).1.length +
      if k.leaf.emits (k.leaf.next^[t] k.leaf.start) then 1 else 0 := by
  obtain ⟨st, h1, h2⟩ := stream_counter k t ps g
  simp only [Net.stream]
  rw [h1]
  simp only [Net.step, Leaf.step, h2, List.length_append]
  split <;> rfl

end Grad

/-- When a module of this kind gives an output: at frame `t`, counted from 0. -/
def Spec.EmitsAt : Kind → Nat → Prop
  | .layer _ _, _ => True
  | .conv K s p _ _, t => (K : Int) - 1 - p ≤ t ∧ ((t : Int) - ((K : Int) - 1 - p)) % s = 0
  | .pool K d s p _ _ _ _, t => (d : Int) * (K - 1) - p ≤ t ∧ ((t : Int) - ((d : Int) * (K - 1) - p)) % s = 0
  | .delay d shrink _, t => if shrink then 2 * d ≤ t else d ≤ t
  | .single N _, t => N ≤ t + 1
  | .retro N, t => N ≤ t + 1

/-- Usual arguments: strides and delays of at least one, padding less than the receptive field, windows of at least one. -/
def Spec.Sized : Kind → Prop
  | .layer _ _ => True
  | .conv K s p _ _ => 1 ≤ s ∧ p < K
  | .pool K d s p _ _ _ _ => 1 ≤ s ∧ (p : Int) ≤ d * (K - 1)
  | .delay d _ _ => 1 ≤ d
  | .single N _ => 1 ≤ N
  | .retro N => 1 ≤ N

/-- C86.  The outputs that the other theorems speak of: a module gives one output for the frames of its emission schedule, and
none for the others. -/
theorem C86_outputs (k : Kind) (hk : Sized k) (t : Nat) :
    let B := (Grad.Net.one k).build (.empty true)
    (EmitsAt k t → ((Grad.Net.one k).stream (t + 1) B.1 B.2).1.length = ((Grad.Net.one k).stream t B.1 B.2).1.length + 1) ∧
    (¬ EmitsAt k t → ((Grad.Net.one k).stream (t + 1) B.1 B.2).1.length = ((Grad.Net.one k).stream t B.1 B.2).1.length) := by
  intro B
  have h := stream_outputs k t (newParams k.leaf.params (.empty true)).1 B.2
  have e : k.leaf.emits (k.leaf.next^[t] k.leaf.start) = true ↔ EmitsAt k t := by
    cases k with
    | layer w o => exact ⟨fun _ => trivial, fun _ => rfl⟩
    | conv K s p r tr =>
      obtain ⟨h1, h2⟩ := hk
      show decide ((wrap s)^[t] ((s : Int) - ((K : Int) - 1) - 1 + p) = (s : Int) - 1) = true ↔ _
      rw [decide_eq_true_iff, show (s : Int) - ((K : Int) - 1) - 1 + p = (s : Int) - 1 - ((K : Int) - 1 - p) by ring]
      exact wrap_emits h1 (by omega) t
    | pool K d s p m r sp c =>
      obtain ⟨h1, h2⟩ := hk
      show decide ((wrap s)^[t] ((s : Int) - ((d : Int) * (K - 1) + 1) + p) = (s : Int) - 1) = true ↔ _
      rw [decide_eq_true_iff, show (s : Int) - ((d : Int) * (K - 1) + 1) + p = (s : Int) - 1 - ((d : Int) * (K - 1) - p) by ring]
      exact wrap_emits h1 (by omega) t
    | delay d sh r =>
      have hd : 1 ≤ d := hk
      have key : ∀ m : Nat, (0 ≤ (wrap d)^[t] (-(m : Int)) ↔ m ≤ t) := by
        intro m
        rw [wrap_iterate hd (by omega)]
        split_ifs with h
        · omega
        · have := Int.emod_nonneg (-(m : Int) + t) (show (d : Int) ≠ 0 by omega)
          omega
      show decide (0 ≤ (wrap d)^[t] (if sh then -2 * (d : Int) else -(d : Int))) = true ↔ if sh then 2 * d ≤ t else d ≤ t
      rw [decide_eq_true_iff]
      cases sh
      · exact key d
      · have := key (2 * d)
        push_cast at this
        simpa [neg_mul] using this
    | single N o =>
      have hN : 1 ≤ N := hk
      show decide (0 ≤ fill (fill^[t] (-(N : Int)))) = true ↔ N ≤ t + 1
      rw [decide_eq_true_iff, fill_iterate]
      unfold fill
      split_ifs <;> omega
    | retro N =>
      have hN : 1 ≤ N := hk
      show decide (0 ≤ fill (fill^[t] (-(N : Int)))) = true ↔ N ≤ t + 1
      rw [decide_eq_true_iff, fill_iterate]
      unfold fill
      split_ifs <;> omega
  refine ⟨fun he => ?_, fun he => ?_⟩
  · rw [if_pos (e.2 he)] at h; exact h
  · rw [if_neg (fun hh => he (e.1 hh))] at h; exact h

example : Sized (.conv 3 2 1 false true) ∧ ¬ EmitsAt (.conv 3 2 1 false true) 0 ∧ EmitsAt (.conv 3 2 1 false true) 1 ∧
    ¬ EmitsAt (.conv 3 2 1 false true) 2 ∧ EmitsAt (.retro 4) 3 := by
  simp [Sized, EmitsAt]


end CoInf
