/-
Exceptions and reported attributes: C92.
-/
import Verif.Model.Faults
import Mathlib.Tactic.Ring
import Mathlib.Tactic.Linarith
import Mathlib.Tactic.Positivity
import Mathlib.Data.List.Forall2

set_option autoImplicit false

namespace CoInf.Spec
open CoInf.Faults (Net Outcome)

mutual
/-- One `Delay`, at any depth, has its delay as attribute `padding` in the second network; otherwise the networks are the same. -/
inductive Stuck : Net → Net → Prop where
  | here {d p : Nat} : 0 < d → Stuck (.delay d p) (.delay d d)
  | seq {ms ms' : List Net} : StuckIn ms ms' → Stuck (.seq ms) (.seq ms')
  | par {r d : Nat} {ms ms' : List Net} : StuckIn ms ms' → Stuck (.par r d ms) (.par r d ms')

inductive StuckIn : List Net → List Net → Prop where
  | head {m m' : Net} {ms : List Net} : Stuck m m' → StuckIn (m :: ms) (m' :: ms)
  | tail {m : Net} {ms ms' : List Net} : StuckIn ms ms' → StuckIn (m :: ms) (m :: ms')
end

mutual
/-- The delays of a network in order, each with the current value of its attribute `padding`. -/
def delaysOf : Net → List (Nat × Nat)
  | .leaf _ _ _ => []
  | .delay d p => [(d, p)]
  | .seq ms => delaysOfAll ms
  | .par _ _ ms => delaysOfAll ms

def delaysOfAll : List Net → List (Nat × Nat)
  | [] => []
  | m :: ms => delaysOf m ++ delaysOfAll ms
end

end CoInf.Spec

namespace CoInf.Faults
open Spec

/-! ### Calls that raise -/

mutual
theorem call_cases (m : Net) (os : List Outcome) :
    ((call m os).2.1 ≠ .raised → (call m os).1 = m) ∧
    ((call m os).2.1 = .raised → (call m os).1 = m ∨ Stuck m (call m os).1) := by
  cases m with
  | leaf r s p => exact ⟨fun _ => rfl, fun _ => .inl rfl⟩
  | delay d p =>
    simp only [call]
    by_cases hd : d = 0
    · simp [hd]
    · rw [if_neg hd]
      rcases hn : next os with ⟨o, os'⟩
      cases o
      · exact ⟨fun _ => rfl, fun _ => .inl rfl⟩
      · exact ⟨fun _ => rfl, fun _ => .inl rfl⟩
      · exact ⟨fun h => absurd rfl h, fun _ => .inr (.here (Nat.pos_of_ne_zero hd))⟩
  | seq ms =>
    have h := callSeq_cases ms os
    simp only [call]
    refine ⟨fun hr => by rw [h.1 hr], fun hr => ?_⟩
    rcases h.2 hr with e | e
    · exact .inl (by rw [e])
    · exact .inr (.seq e)
  | par r d ms =>
    have h := callPar_cases ms os
    simp only [call]
    refine ⟨fun hr => by rw [h.1 hr], fun hr => ?_⟩
    rcases h.2 hr with e | e
    · exact .inl (by rw [e])
    · exact .inr (.par e)

theorem callSeq_cases (ms : List Net) (os : List Outcome) :
    ((callSeq ms os).2.1 ≠ .raised → (callSeq ms os).1 = ms) ∧
    ((callSeq ms os).2.1 = .raised → (callSeq ms os).1 = ms ∨ StuckIn ms (callSeq ms os).1) := by
  cases ms with
  | nil => exact ⟨fun _ => rfl, fun _ => .inl rfl⟩
  | cons m ms =>
    have h := call_cases m os
    have ht := callSeq_cases ms (call m os).2.2
    rw [callSeq]
    cases hm : (call m os).2.1 with
    | out =>
      have e := h.1 (by rw [hm]; simp)
      simp only [e]
      refine ⟨fun hr => by rw [ht.1 hr], fun hr => ?_⟩
      rcases ht.2 hr with e' | e'
      · exact .inl (by rw [e'])
      · exact .inr (.tail e')
    | none =>
      have e := h.1 (by rw [hm]; simp)
      simp only [e]
      simp
    | raised =>
      simp only [ne_eq, not_true_eq_false, false_implies, true_and]
      intro _
      rcases h.2 hm with e | e
      · exact .inl (by rw [e])
      · exact .inr (.head e)

theorem callPar_cases (ms : List Net) (os : List Outcome) :
    ((callPar ms os).2.1 ≠ .raised → (callPar ms os).1 = ms) ∧
    ((callPar ms os).2.1 = .raised → (callPar ms os).1 = ms ∨ StuckIn ms (callPar ms os).1) := by
  cases ms with
  | nil => exact ⟨fun _ => rfl, fun _ => .inl rfl⟩
  | cons m ms =>
    have h := call_cases m os
    have ht := callPar_cases ms (call m os).2.2
    rw [callPar]
    have go : (call m os).2.1 ≠ .raised →
        (((call m os).1 :: (callPar ms (call m os).2.2).1, (callPar ms (call m os).2.2).2).2.1 ≠ .raised →
          ((call m os).1 :: (callPar ms (call m os).2.2).1, (callPar ms (call m os).2.2).2).1 = m :: ms) ∧
        (((call m os).1 :: (callPar ms (call m os).2.2).1, (callPar ms (call m os).2.2).2).2.1 = .raised →
          ((call m os).1 :: (callPar ms (call m os).2.2).1, (callPar ms (call m os).2.2).2).1 = m :: ms ∨
          StuckIn (m :: ms) ((call m os).1 :: (callPar ms (call m os).2.2).1, (callPar ms (call m os).2.2).2).1) := by
      intro hm
      have e := h.1 hm
      simp only [e]
      refine ⟨fun hr => by rw [ht.1 hr], fun hr => ?_⟩
      rcases ht.2 hr with e' | e'
      · exact .inl (by rw [e'])
      · exact .inr (.tail e')
    cases hm : (call m os).2.1 with
    | out => exact go (by rw [hm]; simp)
    | none => exact go (by rw [hm]; simp)
    | raised =>
      simp only [ne_eq, not_true_eq_false, false_implies, true_and]
      intro _
      rcases h.2 hm with e | e
      · exact .inl (by rw [e])
      · exact .inr (.head e)
end

/-! ### Every delay can be the one -/

mutual
/-- Outcomes with which a module succeeds and that are used up. -/
theorem call_works (m : Net) : ∃ os, ∀ os', call m (os ++ os') = (m, .out, os') := by
  cases m with
  | leaf r s p => exact ⟨[.out], fun _ => rfl⟩
  | delay d p =>
    by_cases hd : d = 0
    · exact ⟨[], fun _ => by simp [call, hd]⟩
    · exact ⟨[.out], fun _ => by simp [call, hd, next]⟩
  | seq ms =>
    obtain ⟨os, h⟩ := callSeq_works ms
    exact ⟨os, fun os' => by rw [call, h]⟩
  | par r d ms =>
    obtain ⟨os, h⟩ := callPar_works ms
    exact ⟨os, fun os' => by rw [call, h]⟩

theorem callSeq_works (ms : List Net) : ∃ os, ∀ os', callSeq ms (os ++ os') = (ms, .out, os') := by
  cases ms with
  | nil => exact ⟨[], fun _ => rfl⟩
  | cons m ms =>
    obtain ⟨o1, h1⟩ := call_works m
    obtain ⟨o2, h2⟩ := callSeq_works ms
    exact ⟨o1 ++ o2, fun os' => by simp only [callSeq, List.append_assoc, h1, h2]⟩

theorem callPar_works (ms : List Net) : ∃ os, ∀ os', callPar ms (os ++ os') = (ms, .out, os') := by
  cases ms with
  | nil => exact ⟨[.out], fun _ => rfl⟩
  | cons m ms =>
    obtain ⟨o1, h1⟩ := call_works m
    obtain ⟨o2, h2⟩ := callPar_works ms
    exact ⟨o1 ++ o2, fun os' => by simp only [callPar, List.append_assoc, h1, h2]⟩
end

mutual
theorem stuck_call {m m' : Net} (h : Stuck m m') : ∃ os, call m os = (m', .raised, []) := by
  cases h with
  | here hd => exact ⟨[.raised], by simp [call, Nat.pos_iff_ne_zero.1 hd, next]⟩
  | seq h =>
    obtain ⟨os, h⟩ := stuck_callSeq h
    exact ⟨os, by rw [call, h]⟩
  | par h =>
    obtain ⟨os, h⟩ := stuck_callPar h
    exact ⟨os, by rw [call, h]⟩

theorem stuck_callSeq {ms ms' : List Net} (h : StuckIn ms ms') : ∃ os, callSeq ms os = (ms', .raised, []) := by
  cases h with
  | head h =>
    obtain ⟨os, h⟩ := stuck_call h
    exact ⟨os, by simp only [callSeq, h]⟩
  | @tail m ms ms' h =>
    obtain ⟨o1, h1⟩ := call_works m
    obtain ⟨o2, h2⟩ := stuck_callSeq h
    exact ⟨o1 ++ o2, by simp only [callSeq, h1, h2]⟩

theorem stuck_callPar {ms ms' : List Net} (h : StuckIn ms ms') : ∃ os, callPar ms os = (ms', .raised, []) := by
  cases h with
  | head h =>
    obtain ⟨os, h⟩ := stuck_call h
    exact ⟨os, by simp only [callPar, h]⟩
  | @tail m ms ms' h =>
    obtain ⟨o1, h1⟩ := call_works m
    obtain ⟨o2, h2⟩ := stuck_callPar h
    exact ⟨o1 ++ o2, by simp only [callPar, h1, h2]⟩
end

/-! ### What stays -/

mutual
theorem stuck_stride {m m' : Net} (h : Stuck m m') : stride m' = stride m := by
  cases h with
  | here _ => rfl
  | seq h => exact stuck_strideAll h
  | par h =>
    cases h with
    | head h => simp only [stride]; exact stuck_stride h
    | tail _ => rfl

theorem stuck_strideAll {ms ms' : List Net} (h : StuckIn ms ms') : strideAll ms' = strideAll ms := by
  cases h with
  | head h => simp only [strideAll, stuck_stride h]
  | tail h => simp only [strideAll, stuck_strideAll h]
end

mutual
theorem stuck_rf {m m' : Net} (h : Stuck m m') : receptiveField m' = receptiveField m := by
  cases h with
  | here _ => rfl
  | seq h => exact stuck_rfSeq h
  | par _ => rfl

theorem stuck_rfSeq {ms ms' : List Net} (h : StuckIn ms ms') : receptiveSeq ms' = receptiveSeq ms := by
  cases h with
  | head h => simp only [receptiveSeq, stuck_rf h, stuck_stride h]
  | tail h => simp only [receptiveSeq, stuck_rfSeq h]
end

theorem call_keeps (m : Net) (os : List Outcome) : (call m os).1 = m ∨ Stuck m (call m os).1 := by
  have h := call_cases m os
  by_cases hr : (call m os).2.1 = .raised
  · exact h.2 hr
  · exact .inl (h.1 hr)

mutual
theorem stuck_delays {m m' : Net} (h : Stuck m m') :
    List.Forall₂ (fun a b => b = a ∨ b = (a.1, a.1)) (delaysOf m) (delaysOf m') := by
  cases h with
  | here _ => exact .cons (.inr rfl) .nil
  | seq h => exact stuck_delaysAll h
  | par h => exact stuck_delaysAll h

theorem stuck_delaysAll {ms ms' : List Net} (h : StuckIn ms ms') :
    List.Forall₂ (fun a b => b = a ∨ b = (a.1, a.1)) (delaysOfAll ms) (delaysOfAll ms') := by
  cases h with
  | head h => exact List.rel_append (stuck_delays h) (List.forall₂_same.2 fun _ _ => .inl rfl)
  | tail h => exact List.rel_append (List.forall₂_same.2 fun _ _ => .inl rfl) (stuck_delaysAll h)
end

theorem paddingSeq_append (pre ms : List Net) : paddingSeq (pre ++ ms) = paddingSeq pre + strideAll pre * paddingSeq ms := by
  induction pre with
  | nil => simp [paddingSeq, strideAll]
  | cons m pre ih => simp only [List.cons_append, paddingSeq, strideAll, ih]; ring

end CoInf.Faults

namespace CoInf
open Spec Faults

/-- **C92**, where it holds: a call of `forward_steps` that returns leaves all attributes of the network and its members as they
were; a call that raises changes at most the attribute `padding` of one `Delay`.  So, after any calls, receptive field and stride
are those of the beginning. -/
theorem C92_attributes_partial (m : Net) :
    (∀ os, (call m os).2.1 ≠ .raised → (call m os).1 = m) ∧
    (∀ os, (call m os).1 = m ∨ Stuck m (call m os).1) ∧
    ∀ oss, receptiveField (calls m oss) = receptiveField m ∧ stride (calls m oss) = stride m := by
  refine ⟨fun os => (call_cases m os).1, call_keeps m, fun oss => ?_⟩
  induction oss generalizing m with
  | nil => exact ⟨rfl, rfl⟩
  | cons os oss ih =>
    obtain ⟨h1, h2⟩ := ih (call m os).1
    rw [calls, h1, h2]
    rcases call_keeps m os with e | e
    · rw [e]; exact ⟨rfl, rfl⟩
    · exact ⟨stuck_rf e, stuck_stride e⟩

/-- **C92 fails** for every `Delay`, at any depth of any network: if the call raises in it, its attribute `padding` keeps the
temporary value. -/
theorem C92_stuck_refuted (m m' : Net) (h : Stuck m m') : ∃ os, (call m os).1 = m' ∧ (call m os).2.1 = .raised := by
  obtain ⟨os, e⟩ := stuck_call h
  exact ⟨os, by rw [e], by rw [e]⟩

/-- **C92 fails** forever: whatever is called afterwards, the attribute of a `Delay` is either as it was or its delay, so the
wrong value is never replaced. -/
theorem C92_forever_refuted (m : Net) (oss : List (List Outcome)) :
    List.Forall₂ (fun a b => b = a ∨ b = (a.1, a.1)) (delaysOf m) (delaysOf (calls m oss)) := by
  induction oss generalizing m with
  | nil => exact List.forall₂_same.2 fun _ _ => .inl rfl
  | cons os oss ih =>
    have h := ih (call m os).1
    rcases call_keeps m os with e | e
    · rw [e] at h; rw [calls, e]; exact h
    · rw [calls]
      have hs := stuck_delays e
      clear ih e
      generalize delaysOf m = l0 at hs ⊢
      generalize delaysOf (call m os).1 = l at h hs
      generalize delaysOf (calls (call m os).1 oss) = l' at h
      induction hs generalizing l' with
      | nil => exact h
      | cons h1 _ ih =>
        cases h with
        | cons h2 ht =>
          refine .cons ?_ (ih _ ht)
          rcases h1 with rfl | rfl
          · exact h2
          · rcases h2 with rfl | rfl
            · exact .inr rfl
            · exact .inr rfl

/-- **C92 fails** for what a `Sequential` reports: after one call that raised in a `Delay(d)` among its members, its `delay`
(the number of frames that `warm_up` passes, module.py:306) is too small by `d` times the stride before that member. -/
theorem C92_delay_refuted (pre post : List Net) (d : Nat) (hd : 0 < d) (hs : 0 < strideAll pre) :
    ∃ os, (call (.seq (pre ++ .delay d 0 :: post)) os).2.1 = .raised ∧
      Faults.delay (call (.seq (pre ++ .delay d 0 :: post)) os).1 =
        Faults.delay (.seq (pre ++ .delay d 0 :: post)) - (strideAll pre : Int) * d ∧
      Faults.delay (call (.seq (pre ++ .delay d 0 :: post)) os).1 < Faults.delay (.seq (pre ++ .delay d 0 :: post)) := by
  have hst : Stuck (.seq (pre ++ .delay d 0 :: post)) (.seq (pre ++ .delay d d :: post)) := by
    refine .seq ?_
    clear hs
    induction pre with
    | nil => exact .head (.here hd)
    | cons m pre ih => exact .tail ih
  obtain ⟨os, e⟩ := stuck_call hst
  have e1 : Faults.delay (call (.seq (pre ++ .delay d 0 :: post)) os).1 =
      Faults.delay (.seq (pre ++ .delay d 0 :: post)) - (strideAll pre : Int) * d := by
    rw [e]
    have hrf := stuck_rf hst
    simp only [Faults.delay]
    rw [hrf]
    simp only [padding, paddingSeq_append, paddingSeq, stride]
    push_cast
    ring
  refine ⟨os, by rw [e], e1, ?_⟩
  rw [e1]
  have : 0 < (strideAll pre : Int) * d := by positivity
  omega

/-- A convolution with stride 2, a delay of 3 frames, a residual connection around a convolution. -/
def exFaulty : Net := .seq [.leaf 5 2 0, .delay 3 0, .par 3 2 [.delay 2 0, .leaf 3 1 0]]

example : Stuck exFaulty (.seq [.leaf 5 2 0, .delay 3 3, .par 3 2 [.delay 2 0, .leaf 3 1 0]]) ∧
    Stuck exFaulty (.seq [.leaf 5 2 0, .delay 3 0, .par 3 2 [.delay 2 2, .leaf 3 1 0]]) :=
  ⟨.seq (.tail (.head (.here (by decide)))), .seq (.tail (.tail (.head (.par (.head (.here (by decide)))))))⟩

example : Faults.delay exFaulty = 14 ∧ Faults.delay (calls exFaulty [[.out, .raised], [], []]) = 8 ∧
    Faults.delay (calls exFaulty [[.out, .out, .raised], [], [.out, .raised]]) = 4 ∧
    delaysOf (calls exFaulty [[.out, .out, .raised], [], [.out, .raised]]) = [(3, 3), (2, 2)] := ⟨rfl, rfl, rfl, rfl⟩

end CoInf
