/-
C83: the dynamic axes of the state tensors of an exported model.
-/
import Verif.Model.OnnxAxes

set_option autoImplicit false

namespace CoInf.Onnx

/-- A tensor of sizes `b` is accepted in place of one of sizes `a`, with which the model was exported, if it has as many axes and
differs from it in the dynamic axes only. -/
def Spec.Accepts (axes a b : List Nat) : Prop := a.length = b.length ∧ ∀ i < a.length, i ∉ axes → a[i]? = b[i]?

/-- The same for all state tensors. -/
def Spec.AcceptsAll : List (List Nat) → List (List Nat) → List (List Nat) → Prop
  | [], [], [] => True
  | ax :: axs, a :: as, b :: bs => Accepts ax a b ∧ AcceptsAll axs as bs
  | _, _, _ => False

/-- Attention has at least one head. -/
def Spec.Kind.Valid : Kind → Prop
  | .single _ _ H _ => 1 ≤ H
  | .retro _ _ H => 1 ≤ H
  | _ => True

/-- Sizes of the state depend on the batch size, and no tensor carries it on its first axis. -/
def Spec.Kind.batchSecond : Kind → Prop
  | .delay d _ => 1 ≤ d
  | .conv K S P _ _ => ¬ (K = 1 ∧ P = 0 ∧ S = 1)
  | .pool _ _ _ => True
  | .rnn _ _ => True
  | .lstm _ _ _ => True
  | _ => False

open Spec

theorem accepts_self (axes a : List Nat) : Accepts axes a a := ⟨rfl, fun _ _ _ => rfl⟩

theorem accepts_head (n m : Nat) (l : List Nat) : Accepts [0] (n :: l) (m :: l) := by
  refine ⟨by simp, fun i _ h => ?_⟩
  cases i with
  | zero => simp at h
  | succ i => rfl

theorem accepts_second (k n m : Nat) (l : List Nat) : Accepts [1] (k :: n :: l) (k :: m :: l) := by
  refine ⟨by simp, fun i _ h => ?_⟩
  match i, h with
  | 0, _ => rfl
  | 1, h => simp at h
  | i + 2, _ => rfl

theorem not_accepts_head {k n m : Nat} (l : List Nat) (h : n ≠ m) : ¬ Accepts [0] (k :: n :: l) (k :: m :: l) := by
  intro ⟨_, hh⟩
  have := hh 1 (by simp) (by simp)
  simp at this
  exact h this

/-- There is a flag for each state tensor, and exactly the tensors whose sizes depend on the batch size are flagged. -/
theorem C83_flags (k : Kind) (hk : Kind.Valid k) :
    (∀ B, (k.dims B).length = k.flags.length) ∧
    ∀ i : Nat, k.flags[i]? = some true ↔ ∃ B B', (k.dims B)[i]? ≠ (k.dims B')[i]? := by
  have hmul : ∀ {H : Nat}, 1 ≤ H → ∀ l : List Nat, some ((0 * H) :: l) ≠ some ((1 * H) :: l) := by
    intro H hH l h
    simp at h
    omega
  cases k with
  | delay d rest =>
    by_cases hd : d = 0
    · simp [Kind.dims, Kind.flags, hd]
    · refine ⟨fun B => by simp [Kind.dims, Kind.flags, hd], fun i => ?_⟩
      match i with
      | 0 => simp [Kind.dims, Kind.flags, hd]; exact ⟨0, 1, by simp⟩
      | 1 => simp [Kind.dims, Kind.flags, hd]
      | i + 2 => simp [Kind.dims, Kind.flags, hd]
  | skip =>
    refine ⟨fun B => by simp [Kind.dims, Kind.flags], fun i => ?_⟩
    match i with
    | 0 => simp [Kind.dims, Kind.flags]
    | i + 1 => simp [Kind.dims, Kind.flags]
  | conv K S P C space =>
    by_cases hd : K = 1 ∧ P = 0 ∧ S = 1
    · simp [Kind.dims, Kind.flags, hd]
    · refine ⟨fun B => by simp [Kind.dims, Kind.flags, hd], fun i => ?_⟩
      match i with
      | 0 => simp [Kind.dims, Kind.flags, hd]; exact ⟨0, 1, by simp⟩
      | 1 => simp [Kind.dims, Kind.flags, hd]
      | 2 => simp [Kind.dims, Kind.flags, hd]
      | i + 3 => simp [Kind.dims, Kind.flags, hd]
  | pool K dil rest =>
    refine ⟨fun B => by simp [Kind.dims, Kind.flags], fun i => ?_⟩
    match i with
    | 0 => simp [Kind.dims, Kind.flags]; exact ⟨0, 1, by simp⟩
    | 1 => simp [Kind.dims, Kind.flags]
    | 2 => simp [Kind.dims, Kind.flags]
    | i + 3 => simp [Kind.dims, Kind.flags]
  | rnn layers hidden =>
    refine ⟨fun B => by simp [Kind.dims, Kind.flags], fun i => ?_⟩
    match i with
    | 0 => simp [Kind.dims, Kind.flags]; exact ⟨0, 1, by simp⟩
    | i + 1 => simp [Kind.dims, Kind.flags]
  | lstm layers hidden proj =>
    refine ⟨fun B => by simp [Kind.dims, Kind.flags], fun i => ?_⟩
    match i with
    | 0 => simp [Kind.dims, Kind.flags]; exact ⟨0, 1, by simp⟩
    | 1 => simp [Kind.dims, Kind.flags]; exact ⟨0, 1, by simp⟩
    | i + 2 => simp [Kind.dims, Kind.flags]
  | posEnc =>
    refine ⟨fun B => by simp [Kind.dims, Kind.flags], fun i => ?_⟩
    match i with
    | 0 => simp [Kind.dims, Kind.flags]
    | i + 1 => simp [Kind.dims, Kind.flags]
  | single N E H q =>
    have hH : 1 ≤ H := hk
    refine ⟨fun B => by simp [Kind.dims, Kind.flags], fun i => ?_⟩
    match i with
    | 0 => exact ⟨fun _ => ⟨0, 1, hmul hH _⟩, fun _ => rfl⟩
    | 1 => exact ⟨fun _ => ⟨0, 1, hmul hH _⟩, fun _ => rfl⟩
    | 2 => exact ⟨fun _ => ⟨0, 1, hmul hH _⟩, fun _ => rfl⟩
    | 3 => simp [Kind.dims, Kind.flags]
    | i + 4 => simp [Kind.dims, Kind.flags]
  | retro N E H =>
    have hH : 1 ≤ H := hk
    refine ⟨fun B => by simp [Kind.dims, Kind.flags], fun i => ?_⟩
    match i with
    | 0 => exact ⟨fun _ => ⟨0, 1, hmul hH _⟩, fun _ => rfl⟩
    | 1 => exact ⟨fun _ => ⟨0, 1, hmul hH _⟩, fun _ => rfl⟩
    | 2 => exact ⟨fun _ => ⟨0, 1, hmul hH _⟩, fun _ => rfl⟩
    | 3 => exact ⟨fun _ => ⟨0, 1, hmul hH _⟩, fun _ => rfl⟩
    | 4 => exact ⟨fun _ => ⟨0, 1, hmul hH _⟩, fun _ => rfl⟩
    | 5 => simp [Kind.dims, Kind.flags]
    | i + 6 => simp [Kind.dims, Kind.flags]

/-- Attention, positional encodings, skips and modules without state, exported with one batch size, accept the states of any
batch size.  (Missing: all other modules with a state, see `C83_axes_refuted`.) -/
theorem C83_axes_partial (k : Kind) (hk : ¬ Kind.batchSecond k) (B B' : Nat) :
    AcceptsAll (dynamicAxes k) (k.dims B) (k.dims B') := by
  cases k with
  | delay d rest =>
    have hd : d = 0 := by simp only [Kind.batchSecond] at hk; omega
    simp [Kind.dims, dynamicAxes, Kind.flags, hd, AcceptsAll]
  | skip => exact ⟨accepts_self _ _, trivial⟩
  | conv K S P C space =>
    have hd : K = 1 ∧ P = 0 ∧ S = 1 := by simpa only [Kind.batchSecond, not_not] using hk
    simp [Kind.dims, dynamicAxes, Kind.flags, hd, AcceptsAll]
  | pool K dil rest => exact absurd trivial hk
  | rnn layers hidden => exact absurd trivial hk
  | lstm layers hidden proj => exact absurd trivial hk
  | posEnc => exact ⟨accepts_self _ _, trivial⟩
  | single N E H q => exact ⟨accepts_head _ _ _, accepts_head _ _ _, accepts_head _ _ _, accepts_self _ _, trivial⟩
  | retro N E H =>
    exact ⟨accepts_head _ _ _, accepts_head _ _ _, accepts_head _ _ _, accepts_head _ _ _, accepts_head _ _ _,
      accepts_self _ _, trivial⟩

/-- Delays, convolutions, poolings and recurrent modules, exported with one batch size, accept the states of no other: their
buffers carry the batch on the second axis, and the first one is declared.  With the second axis declared they would. -/
theorem C83_axes_refuted (k : Kind) (hk : Kind.batchSecond k) (B B' : Nat) (hB : B ≠ B') :
    ¬ AcceptsAll (dynamicAxes k) (k.dims B) (k.dims B') ∧
      AcceptsAll (k.flags.map fun b => if b then [1] else []) (k.dims B) (k.dims B') := by
  cases k with
  | delay d rest =>
    have hd : d ≠ 0 := by simp only [Kind.batchSecond] at hk; omega
    simp only [Kind.dims, dynamicAxes, Kind.flags, hd, if_false]
    exact ⟨fun h => not_accepts_head _ hB h.1, accepts_second _ _ _ _, accepts_self _ _, trivial⟩
  | conv K S P C space =>
    have hd : ¬ (K = 1 ∧ P = 0 ∧ S = 1) := hk
    simp only [Kind.dims, dynamicAxes, Kind.flags, hd, if_false]
    exact ⟨fun h => not_accepts_head _ hB h.1, accepts_second _ _ _ _, accepts_self _ _, accepts_self _ _, trivial⟩
  | pool K dil rest =>
    exact ⟨fun h => not_accepts_head _ hB h.1, accepts_second _ _ _ _, accepts_self _ _, accepts_self _ _, trivial⟩
  | rnn layers hidden => exact ⟨fun h => not_accepts_head _ hB h.1, accepts_second _ _ _ _, trivial⟩
  | lstm layers hidden proj =>
    exact ⟨fun h => not_accepts_head _ hB h.1, accepts_second _ _ _ _, accepts_second _ _ _ _, trivial⟩
  | skip => exact hk.elim
  | posEnc => exact hk.elim
  | single N E H q => exact hk.elim
  | retro N E H => exact hk.elim

/-- The dynamic axes of the input and of the states have one name, `batch`; the states of attention with several heads have
another size on it than the batch. -/
theorem C83_name_refuted (N E H : Nat) (q : Int) (hH : 2 ≤ H) (B : Nat) (hB : 1 ≤ B) :
    (∀ l ∈ (Kind.single N E H q).dims B, l ≠ [] → l[0]? ≠ some B) ∧
      (∀ l ∈ (Kind.retro N E H).dims B, l ≠ [] → l[0]? ≠ some B) := by
  have h : B * H ≠ B := by
    intro h
    have : B * H ≥ B * 2 := Nat.mul_le_mul_left B hH
    omega
  constructor
  · intro l hl hne
    simp only [Kind.dims, List.mem_cons, List.not_mem_nil, or_false] at hl
    rcases hl with rfl | rfl | rfl | rfl <;> simp_all
  · intro l hl hne
    simp only [Kind.dims, List.mem_cons, List.not_mem_nil, or_false] at hl
    rcases hl with rfl | rfl | rfl | rfl | rfl | rfl <;> simp_all

/-- A convolution of kernel 3 exported with batch size 1 and fed with the state of batch size 2. -/
example : Kind.batchSecond (.conv 3 1 0 8 [5]) ∧ (Kind.conv 3 1 0 8 [5]).dims 2 = [[2, 2, 8, 2, 5], [], []] ∧
    dynamicAxes (.conv 3 1 0 8 [5]) = [[0], [], []] :=
  ⟨by show ¬ _; decide, rfl, rfl⟩

example : Kind.Valid (.retro 4 16 2) ∧ ¬ Kind.batchSecond (.retro 4 16 2) ∧
    (Kind.retro 4 16 2).dims 3 = [[6, 3, 1], [6, 3, 8], [6, 3, 8], [6, 8, 4], [6, 4, 8], []] :=
  ⟨by show 1 ≤ 2; decide, id, rfl⟩

end CoInf.Onnx
