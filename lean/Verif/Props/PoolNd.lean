/-
Properties C62 and C63: average and max pooling with all their axes and options.
-/
import Verif.Lemmas.PoolNd
import Verif.Props.Leaf
import Mathlib.Algebra.Order.BigOperators.Group.Finset
import Mathlib.Algebra.Order.BigOperators.Ring.Finset
import Mathlib.Algebra.Order.Ring.Rat
import Mathlib.Algebra.Field.Rat
import Mathlib.Algebra.Order.Field.Basic
import Mathlib.Algebra.Order.Field.Rat
import Mathlib.Tactic.FieldSimp
import Mathlib.Data.Finset.Lattice.Prod
import Mathlib.Tactic.Linarith
import Mathlib.Tactic.Ring

set_option autoImplicit false

namespace CoInf
open Spec PoolNd

/-! ### C62: average pooling -/

section
variable {R β : Type} [Field R]

namespace PoolNd

/-- The frames `xs` as a signal on all integer times and positions: continued in time as `temporal_fill` says and
by zeros in space. -/
def Avg.signal (c : Avg) (xs : List (Frame R β c.shape)) (t : Int) (b : β) (q : Fin c.shape.n → Int) : R :=
  extendWith 0 (extend1 c.fill.extend (0 : Frame R β c.shape) xs t b) q

/-- The textbook output number `m` for the frames `xs`. -/
def Avg.textbook (c : Avg) (xs : List (Frame R β c.shape)) (m : Nat) : OutFrame R β c.shape := fun b p =>
  avgAt c.shape.time.k c.shape.time.s c.shape.time.p (fun j => (c.shape.sp j).k) (fun j => (c.shape.sp j).s)
    (fun j => (c.shape.sp j).p) (c.signal xs) m b fun j => p j

/-- The default options `ceil_mode=False`, `count_include_pad=True`, `divisor_override=None`. -/
def Avg.Plain (c : Avg) : Prop := c.shape.ceil = false ∧ c.includePad = true ∧ c.divisor = none

variable (c : Avg)

theorem Axis.fits {a : Axis} {h : Nat} (hok : a.ok false h) (hd : a.d = 1) : a.k ≤ h + 2 * a.p := by
  obtain ⟨hk, hs, hp, ho⟩ := hok
  unfold Axis.out at ho
  simp only [Bool.false_eq_true, if_false, false_and, add_zero] at ho
  have h1 : 0 ≤ ((h : Int) + 2 * a.p - a.d * (a.k - 1) - 1) / a.s := by omega
  rw [Int.ediv_nonneg_iff_of_pos (by omega), hd] at h1
  omega

theorem Avg.plain_spDiv (hsp : c.shape.okSpace = true) (hdj : ∀ j, (c.shape.sp j).d = 1) (hpl : c.Plain)
    (p : (j : Fin c.shape.n) → Fin (c.shape.hout j)) : (c.spDiv p : R) = ∏ j, (((c.shape.sp j).k : Nat) : R) := by
  obtain ⟨h1, h2, h3⟩ := hpl
  have hs : c.spDivisor = none := by unfold Avg.spDivisor; split <;> simp [h3]
  unfold Avg.spDiv
  rw [hs]
  simp only [h2, if_true]
  apply Finset.prod_congr rfl
  intro j _
  have hok := of_decide_eq_true hsp j
  rw [h1] at hok
  have hf := Axis.fits hok (hdj j)
  have hh : c.shape.hout j = windowCount (c.shape.sp j).k (c.shape.sp j).s (c.shape.h j + 2 * (c.shape.sp j).p) := by
    unfold Shape.hout
    rw [h1, out_eq _ _ _ hok.1 hok.2.1 (hdj j) (by have := hok.1; have := hok.2.2.1; omega) hf (.inl rfl)]
    simp
  rw [full_eq _ (lt_of_lt_of_eq (p j).2 hh)]
  push_cast; rfl

/-- A textbook window with the divisor of the code. -/
theorem Avg.textbook_eq (hsp : c.shape.okSpace = true) (hdj : ∀ j, (c.shape.sp j).d = 1) (hpl : c.Plain)
    (xs : List (Frame R β c.shape)) (m : Nat) :
    Pool.win (c.cfg (R := R) (β := β)) (List.ofFn fun k : Fin c.shape.time.k =>
      extend1 c.fill.extend 0 xs ((m : Int) * c.shape.time.s + k - c.shape.time.p)) = c.textbook xs m := by
  funext b p
  rw [c.win_eq, c.plain_spDiv hsp hdj hpl]
  unfold Avg.textbook avgAt
  congr 1
  apply Finset.sum_congr rfl
  intro k _
  rw [c.spSum_extend]
  rfl

end PoolNd

/-- **C62.** A clean `AvgPool1d`/`AvgPool2d`/`AvgPool3d` with default options (any number of spatial axes, any
kernel size, stride and padding per axis, no dilation), fed frame by frame, returns exactly the averages over the
`(n+1)`-dimensional windows of the stream. -/
theorem C62_streams (c : Avg) (hsp : c.shape.okSpace = true) (hdj : ∀ j, (c.shape.sp j).d = 1) (hpl : c.Plain)
    (hK : 1 ≤ c.shape.time.k) (hS : 1 ≤ c.shape.time.s) (hP : c.shape.time.p ≤ c.shape.time.k - 1)
    (hd : c.shape.time.d = 1) :
    StreamsAs (c.mod (R := R) (β := β)) fun xs =>
      (List.range (windowCount c.shape.time.k c.shape.time.s (xs.length + c.shape.time.p))).map (c.textbook xs) := by
  have ok := c.ok (R := R) (β := β) hK hS (by omega) hd
  have h := Implements.streamsAs ⟨_, simRel c.cfg (c.forward (R := R) (β := β)) ok⟩
  have e : (fun xs : List (Frame R β c.shape) =>
      (List.range (windowCount c.shape.time.k c.shape.time.s (xs.length + c.shape.time.p))).map (c.textbook xs)) =
      Pool.phi c.cfg := by
    funext xs
    unfold Pool.phi
    show _ = streamOut c.shape.time.k c.shape.time.s c.shape.time.p (c.fill.make 0) _ xs
    rw [streamOut_ofFn _ _ _ _ _ _ (by omega)]
    exact List.map_congr_left fun m _ => (c.textbook_eq hsp hdj hpl xs m).symm
  show StreamsAs (PoolNd.mod c.shape.okSpace _ _) _
  rw [e, hsp]
  exact h

namespace PoolNd
variable (c : Avg)

/-- The divisors of the code agree if the options do not concern the temporal axis. -/
theorem Avg.refDiv_eq {L m : Nat} (h : m < windowCount c.shape.time.k c.shape.time.s (L + 2 * c.shape.time.p))
    (hi : c.includePad = true ∨ c.shape.time.p = 0) (hdv : c.shape.n = 0 ∨ c.divisor = none)
    (p : (j : Fin c.shape.n) → Fin (c.shape.hout j)) :
    (c.refDiv L m p : R) = (c.shape.time.k : R) * c.spDiv p := by
  have h1 : c.refDivisor = none := by
    unfold Avg.refDivisor; rcases hdv with h | h <;> simp [h]
  have h2 : c.spDivisor = none := by
    unfold Avg.spDivisor; rcases hdv with h | h <;> simp [h]
  unfold Avg.refDiv Avg.spDiv
  rw [h1, h2]
  simp only
  by_cases hc : c.includePad = true
  · simp only [hc, if_true]
    rw [full_eq c.refTime h]
    push_cast; rfl
  · simp only [hc]
    rw [inside_eq c.refTime h (hi.resolve_left hc)]
    push_cast; rfl

end PoolNd

/-- **C62**, all options: `forward_steps(x, pad_end=True)` on a clean module is `forward(x)` if the options do not
concern the temporal axis, that is, if the windows fill the clip or `ceil_mode=False`, if there is no temporal
padding or `count_include_pad=True`, and if there is no `divisor_override`.  (For temporal padding the fill has to be
zero, as in C04.)  Missing: the other settings, for which the claim is false. -/
theorem C62_options_partial (c : Avg) (hsp : c.shape.okSpace = true)
    (hK : 1 ≤ c.shape.time.k) (hS : 1 ≤ c.shape.time.s) (hP : 2 * c.shape.time.p ≤ c.shape.time.k)
    (hd : c.shape.time.d = 1) (hf : c.fill = .zeros ∨ c.shape.time.p = 0)
    {i : (c.mod (R := R) (β := β)).Inst} (hi : Reach c.mod [] i) (u : Bool) (xs : List (Frame R β c.shape))
    (hx : xs ≠ []) (hL : c.shape.time.k ≤ xs.length + 2 * c.shape.time.p)
    (hceil : c.shape.ceil = false ∨ (xs.length + 2 * c.shape.time.p - c.shape.time.k) % c.shape.time.s = 0)
    (hinc : c.includePad = true ∨ c.shape.time.p = 0) (hdv : c.shape.n = 0 ∨ c.divisor = none) :
    ∃ ys i', c.mod.fwd i xs = .ok (ys, i) ∧ c.mod.steps i true u xs = .ok (some ys, i') ∧
      ys = clipOut c.shape.time.k c.shape.time.s c.shape.time.p (c.fill.make 0) (Pool.win c.cfg) xs := by
  have ok := c.ok (R := R) (β := β) hK hS (by omega) hd
  have hfw := c.forward_eq hx hsp hK hS hP (by omega) hL hceil
  have hcl : clipOut c.shape.time.k c.shape.time.s c.shape.time.p (c.fill.make 0) (Pool.win c.cfg) xs =
      (List.range (windowCount c.shape.time.k c.shape.time.s (xs.length + 2 * c.shape.time.p))).map
      fun (m : Nat) b p => (∑ k : Fin c.shape.time.k,
        c.spSum (extend1 .zeros 0 xs ((m : Int) * c.shape.time.s + k - c.shape.time.p)) b p) /
          c.refDiv xs.length m p := by
    have he : clipOut c.shape.time.k c.shape.time.s c.shape.time.p (c.fill.make 0) (Pool.win c.cfg) xs =
        clipOut c.shape.time.k c.shape.time.s c.shape.time.p (Fill.zeros.make 0) (Pool.win c.cfg) xs := by
      rcases hf with h | h
      · rw [h]
      · rw [h]
        have : ∀ f : Frame R β c.shape → Frame R β c.shape, clipOut c.shape.time.k c.shape.time.s 0 f (Pool.win c.cfg) xs =
            slide c.shape.time.k c.shape.time.s (Pool.win c.cfg) xs := by
          intro f
          unfold clipOut padEnd
          have : padStart 0 f xs = xs := by cases xs <;> simp [padStart]
          rw [this]
          cases xs.getLast? <;> simp
        rw [this, this]
    rw [he, clipOut_ofFn _ _ _ _ _ _ hx]
    apply List.map_congr_left
    intro m hm
    funext b p
    rw [c.win_eq, c.refDiv_eq (by simpa using hm) hinc hdv]
    rfl
  obtain ⟨i', h2⟩ := steps_pad c.cfg c.forward hsp ok hi u hx
  have hne : optList (clipOut c.shape.time.k c.shape.time.s c.shape.time.p (c.fill.make 0) (Pool.win c.cfg) xs) =
      some (clipOut c.shape.time.k c.shape.time.s c.shape.time.p (c.fill.make 0) (Pool.win c.cfg) xs) := by
    rw [hcl, windowCount_eq hL, List.range_succ]
    simp [optList]
  refine ⟨_, i', ?_, ?_, rfl⟩
  · show Except.map _ (c.forward xs) = _
    rw [hfw, ← hcl]; rfl
  · rw [← hne]
    exact h2

/-- **C62** for clips, default options: `forward` and end-padded `forward_steps` both are the textbook average
over the windows of the zero-padded clip. -/
theorem C62_forward (c : Avg) (hsp : c.shape.okSpace = true) (hdj : ∀ j, (c.shape.sp j).d = 1) (hpl : c.Plain)
    (hK : 1 ≤ c.shape.time.k) (hS : 1 ≤ c.shape.time.s) (hP : 2 * c.shape.time.p ≤ c.shape.time.k)
    (hd : c.shape.time.d = 1) (hf : c.fill = .zeros ∨ c.shape.time.p = 0)
    {i : (c.mod (R := R) (β := β)).Inst} (hi : Reach c.mod [] i) (u : Bool) (xs : List (Frame R β c.shape))
    (hx : xs ≠ []) (hL : c.shape.time.k ≤ xs.length + 2 * c.shape.time.p) :
    c.mod.fwd i xs = .ok ((List.range (windowCount c.shape.time.k c.shape.time.s
      (xs.length + 2 * c.shape.time.p))).map (c.textbook xs), i) ∧
    ∃ i', c.mod.steps i true u xs = .ok (some ((List.range (windowCount c.shape.time.k c.shape.time.s
      (xs.length + 2 * c.shape.time.p))).map (c.textbook xs)), i') := by
  obtain ⟨ys, i', h1, h2, h3⟩ := C62_options_partial c hsp hK hS hP hd hf hi u xs hx hL (.inl hpl.1) (.inl hpl.2.1)
    (.inr hpl.2.2)
  rw [clipOut_ofFn _ _ _ _ _ _ hx] at h3
  have e : ys = (List.range (windowCount c.shape.time.k c.shape.time.s
      (xs.length + 2 * c.shape.time.p))).map (c.textbook xs) := by
    rw [h3]
    exact List.map_congr_left fun m _ => c.textbook_eq hsp hdj hpl xs m
  rw [← e]
  exact ⟨h1, i', h2⟩

end

/-! ### C63: max pooling -/

section
variable {R β : Type} [Zero R] [LinearOrder R] [OrderBot R]

namespace PoolNd

/-- The frames `xs` as a signal on all integer times and positions, `-inf` outside. -/
def Max.signal (c : Max) (xs : List (Frame R β c.shape)) (t : Int) (b : β) (q : Fin c.shape.n → Int) : R :=
  extendWith ⊥ (extend1 .zeros (⊥ : Frame R β c.shape) xs t b) q

/-- The textbook output number `m` for the frames `xs`. -/
def Max.textbook (c : Max) (xs : List (Frame R β c.shape)) (m : Nat) : OutFrame R β c.shape := fun b p =>
  maxAt c.shape.time.k c.shape.time.s c.shape.time.p (fun j => (c.shape.sp j).k) (fun j => (c.shape.sp j).s)
    (fun j => (c.shape.sp j).d) (fun j => (c.shape.sp j).p) (c.signal xs) m b fun j => p j

variable (c : Max)

theorem Max.textbook_eq (xs : List (Frame R β c.shape)) (m : Nat) :
    (fun b p => Finset.univ.sup fun k : Fin c.shape.time.k =>
      c.spatial (extend1 .zeros ⊥ xs ((m : Int) * c.shape.time.s + k - c.shape.time.p)) b p) = c.textbook xs m := by
  funext b p
  unfold Max.textbook maxAt
  rw [← Finset.univ_product_univ, Finset.sup_product_left]
  apply Finset.sup_congr rfl
  intro k _
  rw [c.spatial_extend]
  rfl

/-- Without temporal padding the fill does not matter. -/
theorem Max.clip_fill (h : c.fill = .negInf ∨ c.shape.time.p = 0) {xs : List (Frame R β c.shape)} (hx : xs ≠ []) :
    clipOut c.shape.time.k c.shape.time.s c.shape.time.p c.fill.make (Pool.win c.cfg) xs =
      (List.range (windowCount c.shape.time.k c.shape.time.s (xs.length + 2 * c.shape.time.p))).map (c.textbook xs) := by
  have he : clipOut c.shape.time.k c.shape.time.s c.shape.time.p c.fill.make (Pool.win c.cfg) xs =
      clipOut c.shape.time.k c.shape.time.s c.shape.time.p (Fill.zeros.make ⊥) (Pool.win c.cfg) xs := by
    rcases h with h | h
    · rw [h]; rfl
    · rw [h]
      have : ∀ f : Frame R β c.shape → Frame R β c.shape, clipOut c.shape.time.k c.shape.time.s 0 f (Pool.win c.cfg) xs =
          slide c.shape.time.k c.shape.time.s (Pool.win c.cfg) xs := by
        intro f
        unfold clipOut padEnd
        have : padStart 0 f xs = xs := by cases xs <;> simp [padStart]
        rw [this]
        cases xs.getLast? <;> simp
      rw [this, this]
  rw [he, clipOut_ofFn _ _ _ _ _ _ hx]
  apply List.map_congr_left
  intro m _
  rw [← c.textbook_eq]
  funext b p
  rw [c.win_eq]
  rfl

theorem Max.stream_fill (h : c.fill = .negInf ∨ c.shape.time.p = 0) (hK : c.shape.time.p + 1 ≤ c.shape.time.k)
    (xs : List (Frame R β c.shape)) :
    streamOut c.shape.time.k c.shape.time.s c.shape.time.p c.fill.make (Pool.win c.cfg) xs =
      (List.range (windowCount c.shape.time.k c.shape.time.s (xs.length + c.shape.time.p))).map (c.textbook xs) := by
  have he : streamOut c.shape.time.k c.shape.time.s c.shape.time.p c.fill.make (Pool.win c.cfg) xs =
      streamOut c.shape.time.k c.shape.time.s c.shape.time.p (Fill.zeros.make ⊥) (Pool.win c.cfg) xs := by
    rcases h with h | h
    · rw [h]; rfl
    · rw [h]
      have : ∀ f : Frame R β c.shape → Frame R β c.shape, padStart 0 f xs = xs := by
        intro f; cases xs <;> simp [padStart]
      unfold streamOut
      rw [this, this]
  rw [he, streamOut_ofFn _ _ _ _ _ _ hK]
  apply List.map_congr_left
  intro m _
  rw [← c.textbook_eq]
  funext b p
  rw [c.win_eq]
  rfl

end PoolNd

/-- **C63.** A clean `MaxPool1d`/`MaxPool2d`/`MaxPool3d` (any number of spatial axes, any kernel size, stride,
padding and spatial dilation), with fill `-inf` or without temporal padding, fed frame by frame, returns exactly the
maxima over the `(n+1)`-dimensional windows of the stream.  Missing: temporal dilation (C05) and padding with other
fills (C44), for which the claim is false. -/
theorem C63_streams_partial (c : Max) (hsp : c.shape.okSpace = true) (hK : 1 ≤ c.shape.time.k) (hS : 1 ≤ c.shape.time.s)
    (hP : c.shape.time.p ≤ c.shape.time.k - 1) (hd : c.shape.time.d = 1)
    (hf : c.fill = .negInf ∨ c.shape.time.p = 0) (hm : c.fill ≠ .zeros ∨ c.Meets) :
    StreamsAs (c.mod (R := R) (β := β)) fun xs =>
      (List.range (windowCount c.shape.time.k c.shape.time.s (xs.length + c.shape.time.p))).map (c.textbook xs) := by
  have ok := c.ok (R := R) (β := β) hm hK hS (by omega) hd
  have h := Implements.streamsAs ⟨_, simRel c.cfg (c.forward (R := R) (β := β)) ok⟩
  have e : (fun xs : List (Frame R β c.shape) =>
      (List.range (windowCount c.shape.time.k c.shape.time.s (xs.length + c.shape.time.p))).map (c.textbook xs)) =
      Pool.phi c.cfg := funext fun xs => (c.stream_fill hf (by omega) xs).symm
  show StreamsAs (PoolNd.mod c.shape.okSpace _ _) _
  rw [e, hsp]
  exact h

/-- **C63** for clips: `forward`, and `forward_steps` with end padding on a clean module, are the textbook maxima over
the windows of the clip padded with `-inf`, provided `ceil_mode=False` or the windows fill the clip. -/
theorem C63_forward_partial (c : Max) (hsp : c.shape.okSpace = true) (hK : 1 ≤ c.shape.time.k) (hS : 1 ≤ c.shape.time.s)
    (hP : 2 * c.shape.time.p ≤ c.shape.time.k) (hd : c.shape.time.d = 1)
    (hf : c.fill = .negInf ∨ c.shape.time.p = 0) (hm : c.fill ≠ .zeros ∨ c.Meets)
    {i : (c.mod (R := R) (β := β)).Inst} (hi : Reach c.mod [] i) (u : Bool) (xs : List (Frame R β c.shape))
    (hx : xs ≠ []) (hL : c.shape.time.k ≤ xs.length + 2 * c.shape.time.p)
    (hceil : c.shape.ceil = false ∨ (xs.length + 2 * c.shape.time.p - c.shape.time.k) % c.shape.time.s = 0) :
    c.mod.fwd i xs = .ok ((List.range (windowCount c.shape.time.k c.shape.time.s
      (xs.length + 2 * c.shape.time.p))).map (c.textbook xs), i) ∧
    ∃ i', c.mod.steps i true u xs = .ok (some ((List.range (windowCount c.shape.time.k c.shape.time.s
      (xs.length + 2 * c.shape.time.p))).map (c.textbook xs)), i') := by
  have ok := c.ok (R := R) (β := β) hm hK hS (by omega) hd
  have hfw := c.forward_eq hx hsp hK hS hd hP (by omega) hL hceil
  have hcl := c.clip_fill hf hx
  obtain ⟨i', h2⟩ := steps_pad c.cfg c.forward hsp ok hi u hx
  have hne : optList (clipOut c.shape.time.k c.shape.time.s c.shape.time.p c.fill.make (Pool.win c.cfg) xs) =
      some ((List.range (windowCount c.shape.time.k c.shape.time.s
      (xs.length + 2 * c.shape.time.p))).map (c.textbook xs)) := by
    rw [hcl, windowCount_eq hL, List.range_succ]
    simp [optList]
  refine ⟨?_, i', ?_⟩
  · show Except.map _ (c.forward xs) = _
    rw [hfw, List.map_congr_left fun m _ => c.textbook_eq xs m]; rfl
  · rw [← hne]
    exact h2

end

/-! ### C62, C63: options which concern the temporal axis -/

section
variable {R β : Type}

/-- In `ceil_mode` there is one window more if the windows do not fill the clip. -/
theorem PoolNd.out_ceil (a : Axis) (L : Nat) (hs : 1 ≤ a.s) (hsk : a.s ≤ a.k) (hd : a.d = 1) (hp : a.p = 0)
    (hL : a.k ≤ L) (hc : (L - a.k) % a.s ≠ 0) : a.out true L = windowCount a.k a.s L + 1 := by
  have hdm := Nat.div_add_mod (L - a.k) a.s
  have hlt := Nat.mod_lt (L - a.k) (show a.s > 0 by omega)
  have e : ((L : Int) + 2 * a.p - a.d * (a.k - 1) - 1 + ((a.s : Int) - 1)) =
      (((L - a.k) % a.s - 1 : Nat) : Int) + (((L - a.k) / a.s : Nat) + 1 : Int) * a.s := by
    have h1 : ((L : Int) - a.k) = a.s * ((L - a.k) / a.s : Nat) + ((L - a.k) % a.s : Nat) := by
      have : ((L - a.k : Nat) : Int) = ((a.s * ((L - a.k) / a.s) + (L - a.k) % a.s : Nat) : Int) := by rw [hdm]
      push_cast [Nat.cast_sub hL] at this ⊢
      exact this
    have h2 : (((L - a.k) % a.s - 1 : Nat) : Int) = ((L - a.k) % a.s : Nat) - 1 := by omega
    rw [h2, hd, hp]
    have h3 : (((L - a.k) / a.s : Nat) + 1 : Int) * a.s = a.s * ((L - a.k) / a.s : Nat) + a.s := by ring
    rw [h3]
    push_cast at h1 ⊢
    omega
  have e' : ((L : Int) + 2 * a.p - a.d * (a.k - 1) - 1 + ((a.s : Int) - 1)) / a.s = (((L - a.k) / a.s : Nat) + 1 : Int) := by
    rw [e, Int.add_mul_ediv_right _ _ (by omega), Int.ediv_eq_zero_of_lt (by omega) (by omega)]
    omega
  unfold Axis.out
  simp only [if_true, e']
  rw [if_neg]
  · rw [windowCount_eq hL]; push_cast; rfl
  · rintro ⟨-, h⟩
    rw [add_sub_cancel_right, hp] at h
    have h2 : (((L - a.k) / a.s : Nat) + 1 : Int) * a.s = ((a.s * ((L - a.k) / a.s) + a.s : Nat) : Int) := by push_cast; ring
    rw [h2] at h
    omega

/-- **C62** fails in `ceil_mode`: for every kernel size, stride `S ≤ K` and clip that the windows do not fill (and no
temporal padding), `forward` returns one frame more than `forward_steps(x, pad_end=True)`. -/
theorem C62_ceil_refuted [Field R] (c : Avg) (hsp : c.shape.okSpace = true) (hceil : c.shape.ceil = true)
    (hS : 1 ≤ c.shape.time.s) (hSK : c.shape.time.s ≤ c.shape.time.k) (hP : c.shape.time.p = 0)
    (hd : c.shape.time.d = 1) {i : (c.mod (R := R) (β := β)).Inst} (hi : Reach c.mod [] i) (u : Bool)
    (xs : List (Frame R β c.shape)) (hL : c.shape.time.k ≤ xs.length)
    (hm : (xs.length - c.shape.time.k) % c.shape.time.s ≠ 0) :
    ∃ ys zs i', c.mod.fwd i xs = .ok (ys, i) ∧ c.mod.steps i true u xs = .ok (some zs, i') ∧
      ys.length = zs.length + 1 := by
  have hx : xs ≠ [] := by rintro rfl; simp at hL; omega
  have ok := c.ok (R := R) (β := β) (by omega) hS (by omega) hd
  obtain ⟨i', h2⟩ := steps_pad c.cfg c.forward hsp ok hi u hx
  have ho := out_ceil c.refTime xs.length hS hSK rfl hP hL hm
  have hw : windowCount c.shape.time.k c.shape.time.s xs.length ≠ 0 := by rw [windowCount_eq hL]; exact Nat.succ_ne_zero _
  have hlen : (clipOut c.shape.time.k c.shape.time.s c.shape.time.p (c.fill.make 0) (Pool.win c.cfg) xs).length =
      windowCount c.shape.time.k c.shape.time.s xs.length := by
    rw [clipOut_ofFn _ _ _ _ _ _ hx, List.length_map, List.length_range, hP]; rfl
  obtain ⟨ys, hys, hyl⟩ : ∃ ys, c.forward xs = .ok ys ∧
      ys.length = windowCount c.shape.time.k c.shape.time.s xs.length + 1 := by
    unfold Avg.forward
    rw [if_neg, hceil, ho]
    · refine ⟨_, rfl, ?_⟩
      rw [List.length_map, List.length_range]
      show ((windowCount c.shape.time.k c.shape.time.s xs.length : Int) + 1).toNat = _
      omega
    · rintro (h | h | h)
      · exact hx h
      · refine h ⟨show 1 ≤ c.shape.time.k by omega, hS, show 2 * c.shape.time.p ≤ c.shape.time.k by omega, ?_⟩
        rw [hceil, ho]; omega
      · rw [hsp] at h; cases h
  refine ⟨ys, _, i', ?_, ?_, hyl.trans (congrArg (· + 1) hlen.symm)⟩
  · show Except.map _ (c.forward xs) = _
    rw [hys]; rfl
  · rw [h2]
    congr 2
    cases hcl : clipOut c.shape.time.k c.shape.time.s c.shape.time.p (c.fill.make 0) (Pool.win c.cfg) xs with
    | nil => rw [hcl] at hlen; exact absurd hlen.symm hw
    | cons _ _ => rfl

/-- **C63** fails in `ceil_mode` in the same way. -/
theorem C63_ceil_refuted [Zero R] [LinearOrder R] [OrderBot R] (c : Max) (hsp : c.shape.okSpace = true)
    (hceil : c.shape.ceil = true) (hS : 1 ≤ c.shape.time.s) (hSK : c.shape.time.s ≤ c.shape.time.k)
    (hP : c.shape.time.p = 0) (hd : c.shape.time.d = 1) (hf : c.fill ≠ .zeros ∨ c.Meets)
    {i : (c.mod (R := R) (β := β)).Inst} (hi : Reach c.mod [] i) (u : Bool)
    (xs : List (Frame R β c.shape)) (hL : c.shape.time.k ≤ xs.length)
    (hm : (xs.length - c.shape.time.k) % c.shape.time.s ≠ 0) :
    ∃ ys zs i', c.mod.fwd i xs = .ok (ys, i) ∧ c.mod.steps i true u xs = .ok (some zs, i') ∧
      ys.length = zs.length + 1 := by
  have hx : xs ≠ [] := by rintro rfl; simp at hL; omega
  have ok := c.ok (R := R) (β := β) hf (by omega) hS (by omega) hd
  obtain ⟨i', h2⟩ := steps_pad c.cfg c.forward hsp ok hi u hx
  have ho := out_ceil c.shape.time xs.length hS hSK hd hP hL hm
  have hw : windowCount c.shape.time.k c.shape.time.s xs.length ≠ 0 := by rw [windowCount_eq hL]; exact Nat.succ_ne_zero _
  have hlen : (clipOut c.shape.time.k c.shape.time.s c.shape.time.p c.fill.make (Pool.win c.cfg) xs).length =
      windowCount c.shape.time.k c.shape.time.s xs.length := by
    rw [c.clip_fill (.inr hP) hx, List.length_map, List.length_range, hP]; rfl
  obtain ⟨ys, hys, hyl⟩ : ∃ ys, c.forward xs = .ok ys ∧
      ys.length = windowCount c.shape.time.k c.shape.time.s xs.length + 1 := by
    unfold Max.forward
    rw [if_neg, hceil, ho]
    · refine ⟨_, rfl, ?_⟩
      rw [List.length_map, List.length_range]
      omega
    · rintro (h | h | h)
      · exact hx h
      · refine h ⟨show 1 ≤ c.shape.time.k by omega, hS, show 2 * c.shape.time.p ≤ c.shape.time.k by omega, ?_⟩
        rw [hceil, ho]; omega
      · rw [hsp] at h; cases h
  refine ⟨ys, _, i', ?_, ?_, hyl.trans (congrArg (· + 1) hlen.symm)⟩
  · show Except.map _ (c.forward xs) = _
    rw [hys]; rfl
  · rw [h2]
    congr 2
    cases hcl : clipOut c.shape.time.k c.shape.time.s c.shape.time.p c.fill.make (Pool.win c.cfg) xs with
    | nil => rw [hcl] at hlen; exact absurd hlen.symm hw
    | cons _ _ => rfl

end

namespace PoolNd

/-- A first output of `forward` and of `forward_steps` for zero fill: the same sum, divided differently. -/
theorem Avg.heads {β : Type} (c : Avg) (hsp : c.shape.okSpace = true) (hceil : c.shape.ceil = false)
    (hK : 1 ≤ c.shape.time.k) (hS : 1 ≤ c.shape.time.s) (hP : 2 * c.shape.time.p ≤ c.shape.time.k)
    (hd : c.shape.time.d = 1) (hf : c.fill = .zeros)
    {i : (c.mod (R := Rat) (β := β)).Inst} (hi : Reach c.mod [] i) (u : Bool) (xs : List (Frame Rat β c.shape))
    (hx : xs ≠ []) (hL : c.shape.time.k ≤ xs.length + 2 * c.shape.time.p) :
    ∃ ys zs i', c.mod.fwd i xs = .ok (ys, i) ∧ c.mod.steps i true u xs = .ok (some zs, i') ∧
      ∃ y z, ys[0]? = some y ∧ zs[0]? = some z ∧ ∀ b p,
        y b p = (∑ k : Fin c.shape.time.k,
          c.spSum (extend1 .zeros 0 xs ((k : Int) - c.shape.time.p)) b p) / c.refDiv xs.length 0 p ∧
        z b p = (∑ k : Fin c.shape.time.k,
          c.spSum (extend1 .zeros 0 xs ((k : Int) - c.shape.time.p)) b p) / ((c.shape.time.k : Rat) * c.spDiv p) := by
  have ok := c.ok (R := Rat) (β := β) hK hS (by omega) hd
  have hfw := c.forward_eq hx hsp hK hS hP (by omega) hL (.inl hceil)
  obtain ⟨i', h2⟩ := steps_pad c.cfg c.forward hsp ok hi u hx
  have hcl : clipOut c.shape.time.k c.shape.time.s c.shape.time.p (c.fill.make 0) (Pool.win c.cfg) xs = _ :=
    clipOut_ofFn c.fill (0 : Frame Rat β c.shape) _ _ _ _ hx
  have hr : List.range (windowCount c.shape.time.k c.shape.time.s (xs.length + 2 * c.shape.time.p)) =
      0 :: (List.range ((xs.length + 2 * c.shape.time.p - c.shape.time.k) / c.shape.time.s)).map (· + 1) := by
    rw [windowCount_eq hL, List.range_succ_eq_map]
  have hne : optList (clipOut c.shape.time.k c.shape.time.s c.shape.time.p (c.fill.make 0) (Pool.win c.cfg) xs) =
      some (clipOut c.shape.time.k c.shape.time.s c.shape.time.p (c.fill.make 0) (Pool.win c.cfg) xs) := by
    rw [hcl, hr]; rfl
  have h1 := congrArg (Except.map fun ys => (ys, i)) hfw
  refine ⟨_, _, i', h1, h2.trans (congrArg (fun o => Except.ok (o, i')) hne), ?_⟩
  · rw [hcl, hr]
    refine ⟨_, _, rfl, rfl, fun b p => ⟨?_, ?_⟩⟩
    · simp
    · refine (c.win_eq _ b p).trans ?_
      rw [hf]
      simp [Fill.extend]

/-- The frame of ones. -/
def one (β : Type) (s : Shape) : Frame Rat β s := fun _ _ => 1

theorem padded_nonneg {β : Type} (s : Shape) (x : Frame Rat β s) (hx : ∀ b q, 0 ≤ x b q) (b : β) (q : Fin s.n → Nat) :
    0 ≤ padded s 0 x b q := by
  unfold padded
  split
  · exact hx _ _
  · exact le_refl _

/-- Sums over windows containing an entry of the frame of ones are positive. -/
theorem Avg.spSum_pos {β : Type} (c : Avg) (b : β) (p : (j : Fin c.shape.n) → Fin (c.shape.hout j))
    (κ : (j : Fin c.shape.n) → Fin (c.shape.sp j).k)
    (h : ∀ j, (c.shape.sp j).p ≤ p j * (c.shape.sp j).s + κ j ∧
      p j * (c.shape.sp j).s + κ j - (c.shape.sp j).p < c.shape.h j) :
    0 < c.spSum (one β c.shape) b p := by
  unfold Avg.spSum
  apply Finset.sum_pos'
  · intro κ _
    exact padded_nonneg _ _ (fun _ _ => by unfold one; norm_num) _ _
  · refine ⟨κ, Finset.mem_univ _, ?_⟩
    unfold padded
    rw [dif_pos h]
    unfold one
    norm_num

theorem Avg.spSum_nonneg {β : Type} (c : Avg) (x : Frame Rat β c.shape) (hx : ∀ b q, 0 ≤ x b q) (b : β)
    (p : (j : Fin c.shape.n) → Fin (c.shape.hout j)) : 0 ≤ c.spSum x b p :=
  Finset.sum_nonneg fun _ _ => padded_nonneg _ _ hx _ _

/-- The numerator of the first output for a clip of ones. -/
theorem Avg.sum_pos {β : Type} (c : Avg) (L : Nat) (hL : 1 ≤ L) (hP : c.shape.time.p + 1 ≤ c.shape.time.k) (b : β)
    (p : (j : Fin c.shape.n) → Fin (c.shape.hout j))
    (κ : (j : Fin c.shape.n) → Fin (c.shape.sp j).k)
    (h : ∀ j, (c.shape.sp j).p ≤ p j * (c.shape.sp j).s + κ j ∧
      p j * (c.shape.sp j).s + κ j - (c.shape.sp j).p < c.shape.h j) :
    0 < ∑ k : Fin c.shape.time.k, c.spSum
      (extend1 .zeros 0 (List.replicate L (one β c.shape)) ((k : Int) - c.shape.time.p)) b p := by
  have hnn : ∀ t : Int, ∀ b q, 0 ≤ (extend1 .zeros (0 : Frame Rat β c.shape) (List.replicate L (one β c.shape)) t) b q := by
    intro t b q
    unfold extend1
    simp only
    split
    · rw [List.getD_eq_getElem?_getD, List.getElem?_replicate]
      split
      · show (0 : Rat) ≤ 1; norm_num
      · exact le_refl _
    · exact le_refl _
  apply Finset.sum_pos'
  · intro k _
    exact c.spSum_nonneg _ (hnn _) b p
  · refine ⟨⟨c.shape.time.p, by omega⟩, Finset.mem_univ _, ?_⟩
    have : extend1 .zeros (0 : Frame Rat β c.shape) (List.replicate L (one β c.shape))
        (((⟨c.shape.time.p, by omega⟩ : Fin c.shape.time.k) : Nat) - c.shape.time.p : Int) = one β c.shape := by
      show extend1 .zeros (0 : Frame Rat β c.shape) (List.replicate L (one β c.shape))
        ((c.shape.time.p : Int) - c.shape.time.p) = _
      rw [sub_self]
      unfold extend1
      simp [List.getD_eq_getElem?_getD, List.getElem?_replicate, show 0 < L by omega]
    rw [this]
    exact c.spSum_pos b p κ h

theorem Avg.spDiv_1d (c : Avg) (hn : c.shape.n = 0) (p : (j : Fin c.shape.n) → Fin (c.shape.hout j)) :
    c.spDiv (R := Rat) p = 1 := by
  haveI : IsEmpty (Fin c.shape.n) := by rw [hn]; infer_instance
  unfold Avg.spDiv Avg.spDivisor
  rw [if_neg (by omega)]
  simp only [Fintype.prod_empty, ite_self]

theorem Avg.refDiv_1d (c : Avg) (hn : c.shape.n = 0) (hi : c.includePad = false) (L m : Nat)
    (p : (j : Fin c.shape.n) → Fin (c.shape.hout j)) : c.refDiv (R := Rat) L m p = (c.refTime.inside L m : Rat) := by
  haveI : IsEmpty (Fin c.shape.n) := by rw [hn]; infer_instance
  unfold Avg.refDiv Avg.refDivisor
  rw [if_pos hn]
  simp [hi]

end PoolNd

/-- **C62** fails with `count_include_pad=False`: for every kernel size, stride and temporal padding `P ≥ 1` of an
`AvgPool1d`, on a clip of `K` ones `forward_steps(x, pad_end=True)` differs from `forward(x)`. -/
theorem C62_count_refuted (K S P : Nat) (hS : 1 ≤ S) (hP0 : 1 ≤ P) (hP : 2 * P ≤ K) (u : Bool) :
    let c : Avg := ⟨⟨0, ⟨K, S, P, 1⟩, Fin.elim0, Fin.elim0, false⟩, false, none, .zeros⟩
    ∃ ys zs i', (c.mod (R := Rat) (β := Unit)).fwd c.mod.init (List.replicate K (one Unit c.shape)) = .ok (ys, c.mod.init) ∧
      c.mod.steps c.mod.init true u (List.replicate K (one Unit c.shape)) = .ok (some zs, i') ∧ ys ≠ zs := by
  intro c
  have hsp : c.shape.okSpace = true := by
    unfold Shape.okSpace
    exact decide_eq_true fun j => j.elim0
  obtain ⟨ys, zs, i', h1, h2, y, z, hy, hz, hv⟩ := c.heads (β := Unit) hsp rfl (show 1 ≤ K by omega) hS hP rfl rfl .init u
    (List.replicate K (one Unit c.shape)) (by
      intro h
      have := congrArg List.length h
      simp at this; omega) (by show K ≤ (List.replicate K _).length + 2 * P; simp)
  refine ⟨ys, zs, i', h1, h2, ?_⟩
  rintro rfl
  rw [hy] at hz
  cases hz
  obtain ⟨v1, v2⟩ := hv () fun j => j.elim0
  have hN := c.sum_pos (β := Unit) K (by omega) (show P + 1 ≤ K by omega) () (fun j => j.elim0) (fun j => j.elim0)
    fun j => j.elim0
  rw [v1] at v2
  have d1 : c.refDiv (R := Rat) (List.replicate K (one Unit c.shape)).length 0 (fun j => j.elim0) = (K : Rat) - P := by
    have hi : c.refTime.inside (List.replicate K (one Unit c.shape)).length 0 = (K : Int) - P := by
      unfold Axis.inside
      show min (((0 : Nat) : Int) * (S : Nat) - (P : Nat) + (K : Nat)) ((List.replicate K _).length : Nat) -
        max (((0 : Nat) : Int) * (S : Nat) - (P : Nat)) 0 = _
      rw [List.length_replicate]
      push_cast
      rw [zero_mul]
      omega
    rw [c.refDiv_1d rfl rfl, hi]
    push_cast
    rfl
  have d2 : c.spDiv (R := Rat) (fun j => j.elim0) = 1 := c.spDiv_1d rfl _
  rw [d1, d2] at v2
  have hKP : (0 : Rat) < (K : Rat) - P := by
    have : ((P : Nat) : Rat) < (K : Nat) := by exact_mod_cast (by omega : P < K)
    linarith
  have hK : (0 : Rat) < (K : Rat) := by exact_mod_cast (by omega : 0 < K)
  rw [mul_one, div_eq_div_iff hKP.ne' (show ((c.shape.time.k : Nat) : Rat) ≠ 0 from hK.ne')] at v2
  have := mul_left_cancel₀ hN.ne' v2
  have hP1 : (0 : Rat) < (P : Rat) := by exact_mod_cast hP0
  have e : ((c.shape.time.k : Nat) : Rat) = K := rfl
  rw [e] at this
  linarith

/-- **C62** fails with `divisor_override=d`: for every `AvgPool2d` whose window size is not `d`, and every `AvgPool3d`
with temporal kernel of at least two frames (any sizes, no padding), on a clip of `K` ones
`forward_steps(x, pad_end=True)` differs from `forward(x)`. -/
theorem C62_divisor_refuted (c : Avg) (d : Nat) (hd0 : 1 ≤ d) (hdv : c.divisor = some d)
    (hn : (c.shape.n = 1 ∧ d ≠ c.shape.time.k * ∏ j, (c.shape.sp j).k) ∨ (c.shape.n = 2 ∧ 2 ≤ c.shape.time.k))
    (hsp : c.shape.okSpace = true) (hdj : ∀ j, (c.shape.sp j).d = 1) (hpj : ∀ j, (c.shape.sp j).p = 0)
    (hceil : c.shape.ceil = false) (hinc : c.includePad = true)
    (hK : 1 ≤ c.shape.time.k) (hS : 1 ≤ c.shape.time.s) (hP : c.shape.time.p = 0) (hd : c.shape.time.d = 1)
    (hf : c.fill = .zeros) {β : Type} [Nonempty β] (u : Bool) :
    ∃ ys zs i', (c.mod (R := Rat) (β := β)).fwd c.mod.init (List.replicate c.shape.time.k (one β c.shape)) = .ok (ys, c.mod.init) ∧
      c.mod.steps c.mod.init true u (List.replicate c.shape.time.k (one β c.shape)) = .ok (some zs, i') ∧ ys ≠ zs := by
  obtain ⟨ys, zs, i', h1, h2, y, z, hy, hz, hv⟩ := c.heads (β := β) hsp hceil hK hS (by omega) hd hf .init u
    (List.replicate c.shape.time.k (one β c.shape)) (by
      intro h
      have := congrArg List.length h
      simp at this; omega) (by simp)
  refine ⟨ys, zs, i', h1, h2, ?_⟩
  rintro rfl
  rw [hy] at hz
  cases hz
  have hok : ∀ j, (c.shape.sp j).ok c.shape.ceil (c.shape.h j) := of_decide_eq_true hsp
  have hpos : ∀ j, 0 < c.shape.hout j := fun j => by
    have := (hok j).2.2.2
    unfold Shape.hout
    omega
  obtain ⟨b⟩ := ‹Nonempty β›
  set p : (j : Fin c.shape.n) → Fin (c.shape.hout j) := fun j => ⟨0, hpos j⟩ with hp
  obtain ⟨v1, v2⟩ := hv b p
  have hN := c.sum_pos (β := β) c.shape.time.k hK (by omega) b p (fun j => ⟨0, (hok j).1⟩) fun j => by
    have hfit := Axis.fits (hceil ▸ hok j) (hdj j)
    have := (hok j).1
    have := hpj j
    show _ ≤ 0 * (c.shape.sp j).s + 0 ∧ 0 * (c.shape.sp j).s + 0 - _ < _
    omega
  rw [v1] at v2
  have hn0 : c.shape.n ≠ 0 := by omega
  have d1 : c.refDiv (R := Rat) (List.replicate c.shape.time.k (one β c.shape)).length 0 p = d := by
    unfold Avg.refDiv Avg.refDivisor
    rw [if_neg hn0, hdv]
  have hKq : (0 : Rat) < (c.shape.time.k : Rat) := by exact_mod_cast hK
  have hdq : (0 : Rat) < (d : Rat) := by exact_mod_cast hd0
  rcases hn with ⟨hn, hne⟩ | ⟨hn, hne⟩
  · have d2 : c.spDiv (R := Rat) p = ((∏ j, (c.shape.sp j).k : Nat) : Rat) := by
      have hs : c.spDivisor = none := by unfold Avg.spDivisor; rw [if_neg (by omega)]
      have := Avg.plain_spDiv (R := Rat) { c with divisor := none } hsp hdj ⟨hceil, hinc, rfl⟩ p
      have e : c.spDiv (R := Rat) p = Avg.spDiv (R := Rat) { c with divisor := none } p := by
        unfold Avg.spDiv
        rw [hs]
        have : Avg.spDivisor { c with divisor := none } = none := by unfold Avg.spDivisor; split <;> rfl
        rw [this]
      rw [e, this]
      push_cast; rfl
    have hk0 : (0 : Rat) < ((∏ j, (c.shape.sp j).k : Nat) : Rat) := by
      have : 0 < ∏ j, (c.shape.sp j).k := Finset.prod_pos fun j _ => (hok j).1
      exact_mod_cast this
    rw [d1, d2, div_eq_div_iff hdq.ne' (mul_pos hKq hk0).ne'] at v2
    have := mul_left_cancel₀ hN.ne' v2
    apply hne
    exact_mod_cast this.symm
  · have d2 : c.spDiv (R := Rat) p = d := by
      unfold Avg.spDiv Avg.spDivisor
      rw [if_pos hn, hdv]
    rw [d1, d2, div_eq_div_iff hdq.ne' (mul_pos hKq hdq).ne'] at v2
    have h3 := mul_left_cancel₀ hN.ne' v2
    have h4 : ((c.shape.time.k : Nat) : Rat) = 1 := by
      have : (c.shape.time.k : Rat) * d = 1 * d := by rw [one_mul]; exact h3
      exact mul_right_cancel₀ hdq.ne' this
    have : c.shape.time.k = 1 := by exact_mod_cast h4
    omega

namespace PoolNd

section
variable {X Y : Type} (a : Pool.Cfg X Y) (fwd : List X → Except Err (List Y))

/-- `t` frames into the stream. -/
def Quiet (t : Nat) (i : Pool.St Y) : Prop :=
  (t = 0 ∧ i.buffer = []) ∨ (i.buffer.length = Pool.bufLen a ∧ 0 ≤ i.index ∧ i.index < a.K ∧
    i.strideIndex = (a.S : Int) - Pool.bufLen a + t)

theorem quiet_step (hK : 1 ≤ a.K) (hKb : a.K ≤ Pool.bufLen a) (hP : a.P = 0) (x : X) {t : Nat} {i : Pool.St Y}
    (hi : Quiet a t i) (ht : t + 1 < Pool.bufLen a) :
    ∃ i', (mod true a fwd).step i true x = .ok (none, i') ∧ Quiet a (t + 1) i' := by
  have core : ∀ st : Pool.St Y, st.buffer.length = Pool.bufLen a → 0 ≤ st.index → st.index < a.K →
      st.strideIndex = (a.S : Int) - Pool.bufLen a + t →
      ∃ st', Pool.pstep a x (some st) = .ok (none, some st') ∧ Quiet a (t + 1) st' := by
    intro st h1 h2 h3 h4
    have hset : pySet st.buffer st.index (a.spatial x) = .ok (st.buffer.set st.index.toNat (a.spatial x)) := by
      unfold pySet
      simp only
      rw [if_neg (show ¬ st.index < 0 by omega), if_neg (by omega), if_pos (by omega)]
    refine ⟨⟨st.buffer.set st.index.toNat (a.spatial x), (st.index + 1) % (a.K : Int), Conv.nextStride a.S st.strideIndex⟩,
      ?_, .inr ⟨?_, ?_, ?_, ?_⟩⟩
    · have hne : ¬ st.strideIndex = (a.S : Int) - 1 := by omega
      simp [Pool.pstep, hset, hne, bind, Except.bind, pure, Except.pure]
    · rw [List.length_set, h1]
    · exact Int.emod_nonneg _ (by omega)
    · exact Int.emod_lt_of_pos _ (by omega)
    · show Conv.nextStride a.S st.strideIndex = _
      unfold Conv.nextStride
      rw [h4]
      dsimp only
      split
      · rw [Int.emod_eq_of_lt (by omega) (by omega)]
        push_cast; ring
      · push_cast; ring
  rcases hi with ⟨rfl, h⟩ | ⟨h1, h2, h3, h4⟩
  · obtain ⟨st', k1, k2⟩ := core (Pool.initState a (a.spatial x)) (by simp [Pool.initState]) (le_refl _) (by
      show (0 : Int) < a.K; omega) (by simp [Pool.initState, hP])
    refine ⟨st', ?_, k2⟩
    have hg : (leaf true a).get i = none := by
      show (if i.buffer.length > 0 then some i else none) = none
      rw [h]; rfl
    show ((leaf true a).pstep x ((leaf true a).get i)).bind _ = _
    rw [hg]
    have : (leaf true a).pstep x none = Pool.pstep a x (some (Pool.initState a (a.spatial x))) := rfl
    rw [this, k1]; rfl
  · obtain ⟨st', k1, k2⟩ := core i h1 h2 h3 h4
    refine ⟨st', ?_, k2⟩
    have hg : (leaf true a).get i = some i := by
      show (if i.buffer.length > 0 then some i else none) = some i
      rw [if_pos (by omega)]
    show ((leaf true a).pstep x ((leaf true a).get i)).bind _ = _
    rw [hg]
    have : (leaf true a).pstep x (some i) = Pool.pstep a x (some i) := rfl
    rw [this, k1]; rfl

/-- No output before the buffer is full. -/
theorem quiet_steps (hK : 1 ≤ a.K) (hKb : a.K ≤ Pool.bufLen a) (hP : a.P = 0) (xs : List X) {t : Nat} {i : Pool.St Y}
    (hi : Quiet a t i) (ht : t + xs.length < Pool.bufLen a) :
    ∃ i', callSteps (mod true a fwd) i xs = .ok (List.replicate xs.length none, i') := by
  induction xs generalizing t i with
  | nil => exact ⟨i, rfl⟩
  | cons x xs ih =>
    rw [List.length_cons] at ht
    obtain ⟨i1, h1, h2⟩ := quiet_step a fwd hK hKb hP x hi (by omega)
    obtain ⟨i2, h3⟩ := ih h2 (by omega)
    refine ⟨i2, ?_⟩
    show ((mod true a fwd).step i true x).bind _ = _
    rw [h1]
    show (callSteps (mod true a fwd) i1 xs).bind _ = _
    rw [h3]; rfl

end

end PoolNd

/-- **C62** fails with temporal dilation: average pooling of torch knows no dilation, so `forward` ignores it.  For
every kernel size `K ≥ 2` and dilation `d ≥ 2` (no temporal padding), `forward` of `K` frames returns a frame while the
`K` calls of `forward_step` with these frames all return `None`. -/
theorem C62_dilation_refuted {R β : Type} [Field R] (c : Avg) (hsp : c.shape.okSpace = true) (hceil : c.shape.ceil = false)
    (hK : 2 ≤ c.shape.time.k) (hS : 1 ≤ c.shape.time.s) (hP : c.shape.time.p = 0) (hd : 2 ≤ c.shape.time.d)
    (xs : List (Frame R β c.shape)) (hL : xs.length = c.shape.time.k) :
    ∃ y i', c.mod.fwd c.mod.init xs = .ok ([y], c.mod.init) ∧
      callSteps c.mod c.mod.init xs = .ok (List.replicate xs.length none, i') := by
  have hx : xs ≠ [] := by rintro rfl; simp at hL; omega
  have hfw := c.forward_eq hx hsp (by omega) hS (by omega) (by omega) (by omega) (.inl hceil)
  have hw : windowCount c.shape.time.k c.shape.time.s (xs.length + 2 * c.shape.time.p) = 1 := by
    rw [windowCount_eq (by omega), hL, hP]; simp
  rw [hw] at hfw
  have hb : c.shape.time.k + 1 ≤ c.shape.time.d * (c.shape.time.k - 1) + 1 := by
    have : 2 * (c.shape.time.k - 1) ≤ c.shape.time.d * (c.shape.time.k - 1) := Nat.mul_le_mul_right _ hd
    omega
  obtain ⟨i', h2⟩ := quiet_steps (c.cfg (R := R) (β := β)) c.forward (by show 1 ≤ c.shape.time.k; omega)
    (by show c.shape.time.k ≤ c.shape.time.d * (c.shape.time.k - 1) + 1; omega) hP xs
    (t := 0) (i := ⟨[], 0, 0⟩) (.inl ⟨rfl, rfl⟩) (by
      show 0 + xs.length < c.shape.time.d * (c.shape.time.k - 1) + 1; omega)
  refine ⟨_, i', congrArg (Except.map fun ys => (ys, (⟨[], 0, 0⟩ : Pool.St (OutFrame R β c.shape)))) hfw, ?_⟩
  show callSteps (PoolNd.mod c.shape.okSpace _ _) (⟨[], 0, 0⟩ : Pool.St (OutFrame R β c.shape)) xs = _
  rw [hsp]
  exact h2

/-! ### Examples -/

/-- `AvgPool3d((2, 2, 3), stride=(1, 2, 1), padding=(1, 1, 0))` on frames of 3 by 4 entries. -/
def exAvg : Avg where
  shape := {
    n := 2
    time := ⟨2, 1, 1, 1⟩
    sp := ![⟨2, 2, 1, 1⟩, ⟨3, 1, 0, 1⟩]
    h := ![3, 4]
    ceil := false }
  includePad := true
  divisor := none
  fill := .zeros

example : exAvg.shape.okSpace = true ∧ (∀ j, (exAvg.shape.sp j).d = 1) ∧ exAvg.Plain ∧ 1 ≤ exAvg.shape.time.k ∧
    2 * exAvg.shape.time.p ≤ exAvg.shape.time.k ∧ exAvg.shape.time.p ≤ exAvg.shape.time.k - 1 ∧
    (∀ j, exAvg.shape.hout j = 2) :=
  ⟨by decide, by decide, ⟨rfl, rfl, rfl⟩, by decide, by decide, by decide, by decide⟩

example : exAvg.textbook (R := Rat) (β := Unit) [fun _ q => 12 * ((q (0 : Fin 2) : Nat) + 2 * (q (1 : Fin 2) : Nat)), fun _ _ => 24] 1 ()
    (fun j => ⟨0, by revert j; decide⟩) = 12 := by decide +kernel

/-- The same geometry for `MaxPool3d`, with spatial dilation 1 and fill `-inf`. -/
def exMax : Max := ⟨exAvg.shape, .negInf⟩

example : exMax.shape.okSpace = true ∧ 2 * exMax.shape.time.p ≤ exMax.shape.time.k ∧ exMax.fill = .negInf :=
  ⟨by decide, by decide, rfl⟩

/-- Spatial windows meet the frame for `exMax`. -/
example : exMax.Meets := by
  intro p
  refine ⟨fun j => ⟨(exMax.shape.sp j).p, by revert j; decide⟩, fun j => ?_⟩
  match j with
  | ⟨0, h⟩ =>
    have : ((p ⟨0, h⟩ : Fin _) : Nat) < 2 := lt_of_lt_of_eq (p ⟨0, h⟩).2 (by decide : exMax.shape.hout (0 : Fin 2) = 2)
    show 1 ≤ (p ⟨0, h⟩ : Nat) * 2 + 1 * 1 ∧ (p ⟨0, h⟩ : Nat) * 2 + 1 * 1 - 1 < 3
    omega
  | ⟨1, h⟩ =>
    have : ((p ⟨1, h⟩ : Fin _) : Nat) < 2 := lt_of_lt_of_eq (p ⟨1, h⟩).2 (by decide : exMax.shape.hout (1 : Fin 2) = 2)
    show 0 ≤ (p ⟨1, h⟩ : Nat) * 1 + 0 * 1 ∧ (p ⟨1, h⟩ : Nat) * 1 + 0 * 1 - 0 < 4
    omega
  | ⟨k + 2, h⟩ => exact absurd (show k + 2 < 2 from h) (by omega)

/-- `AvgPool2d` with spatial windows of two entries. -/
def exAvg2 (ceil : Bool) (d : Nat) (divisor : Option Nat) : Avg where
  shape := ⟨1, ⟨2, 2, 0, d⟩, fun _ => ⟨2, 1, 0, 1⟩, fun _ => 3, ceil⟩
  includePad := true
  divisor := divisor
  fill := .zeros

example : (exAvg2 true 1 none).shape.okSpace = true ∧ (3 - 2) % 2 ≠ 0 ∧ (exAvg2 false 2 none).shape.okSpace = true ∧
    (exAvg2 false 1 (some 3)).shape.okSpace = true ∧ 3 ≠ 2 * ∏ _j : Fin 1, 2 := by decide

end CoInf
