/-
C61-C63, continued: how many outputs there are, what the averages are divided by, which arguments are refused, and
temporal dilation in `forward` of max pooling.
-/
import Verif.Props.PoolNd
import Verif.Props.ConvNd

set_option autoImplicit false

namespace CoInf
open Spec PoolNd

/-! ### Sizes -/

/-- **C61**, sizes: a convolution has an output at position `o` of an axis exactly if the window that starts at `o`
strides lies inside of the padded frame. -/
theorem C61_size {R : Type} (c : ConvNd.Cfg R) (hf : ConvNd.Fits c) (j : Fin c.n) (hs : 1 ≤ c.str j) (o : Nat) :
    o < c.hout j ↔ o * c.str j + c.dil j * (c.kern j - 1) + 1 ≤ c.h j + 2 * c.pad j := by
  have h := hf j
  unfold ConvNd.Cfg.hout
  rw [Nat.lt_succ_iff, Nat.le_div_iff_mul_le (by omega)]
  omega

/-- **C62**, **C63**, sizes: a pooling module has an output at position `o` of an axis exactly if the (dilated) window
that starts at `o` strides lies inside of the padded axis.  With `ceil_mode` it has one exactly if the previous window
does not reach the end of the padded axis and the window does not start behind the axis and its front padding. -/
theorem C62_size (a : Axis) (h : Nat) (hs : 1 ≤ a.s) (o : Nat) :
    ((o : Int) < a.out false h ↔ (o : Int) * a.s + (a.d * ((a.k : Int) - 1) + 1) ≤ h + 2 * a.p) ∧
    (1 ≤ a.k → 1 ≤ a.d → 2 * a.p ≤ a.k → ((o : Int) < a.out true h ↔
      ((o : Int) - 1) * a.s + (a.d * ((a.k : Int) - 1) + 1) < h + 2 * a.p ∧ (o : Int) * a.s < h + a.p)) := by
  have hs' : (0 : Int) < a.s := by omega
  refine ⟨?_, fun hk hd hp => ?_⟩
  · unfold Axis.out
    simp only [Bool.false_eq_true, if_false, false_and, add_zero]
    rw [Int.lt_add_one_iff, Int.le_ediv_iff_mul_le hs']
    constructor <;> intro h <;> linarith
  · have hdk : (a.k : Int) - 1 ≤ a.d * ((a.k : Int) - 1) := by
      have : (1 : Int) ≤ a.d := by omega
      nlinarith
    generalize hA : (h : Int) + 2 * a.p - a.d * ((a.k : Int) - 1) - 1 = A
    have hAk : A ≤ h + a.p := by omega
    have key : ∀ x : Int, x < (A + ((a.s : Int) - 1)) / a.s + 1 ↔ (x - 1) * a.s < A := by
      intro x
      rw [Int.lt_add_one_iff, Int.le_ediv_iff_mul_le hs', sub_mul, one_mul]
      omega
    have e : ((o : Int) - 1) * a.s + (a.d * ((a.k : Int) - 1) + 1) < h + 2 * a.p ↔ ((o : Int) - 1) * a.s < A := by
      rw [← hA]; constructor <;> intro h <;> linarith
    rw [e, ← key]
    unfold Axis.out
    simp only [if_true, true_and, hA]
    generalize hO : (A + ((a.s : Int) - 1)) / a.s + 1 = O
    rw [hO] at key
    split
    · rename_i hdrop
      constructor
      · intro ho
        refine ⟨by omega, ?_⟩
        have h1 := (key (o + 1)).mp (by omega)
        rw [add_sub_cancel_right] at h1
        omega
      · rintro ⟨h1, h2⟩
        by_contra h3
        have : (o : Int) = O - 1 := by omega
        rw [this] at h2
        omega
    · rename_i hdrop
      constructor
      · intro ho
        refine ⟨ho, ?_⟩
        have : (o : Int) * a.s ≤ (O - 1) * a.s := mul_le_mul_of_nonneg_right (by omega) (by omega)
        omega
      · exact fun h => h.1

/-! ### What the averages are divided by -/

section
variable {R β : Type} [Field R]

namespace Spec

/-- Number of positions of the window that starts at `o` strides which lie on the padded axis. -/
def onPadded (a : Axis) (h o : Nat) : Nat := ((Finset.range a.k).filter fun κ => o * a.s + κ < h + 2 * a.p).card

/-- Number of positions of the window that lie on the axis itself. -/
def onAxis (a : Axis) (h o : Nat) : Nat :=
  ((Finset.range a.k).filter fun κ => a.p ≤ o * a.s + κ ∧ o * a.s + κ < h + a.p).card

/-- Number of positions of the spatial window at `p`, those in the padding included if `count_include_pad`. -/
def positions (c : Avg) (p : (j : Fin c.shape.n) → Fin (c.shape.hout j)) : R :=
  ∏ j, (((if c.includePad then onPadded (c.shape.sp j) (c.shape.h j) (p j)
      else onAxis (c.shape.sp j) (c.shape.h j) (p j)) : Nat) : R)

/-- What the spatial average at `p` is divided by: `divisor_override` if it is given (3d only), or the number of
positions of the window. -/
def divisor (c : Avg) (p : (j : Fin c.shape.n) → Fin (c.shape.hout j)) : R :=
  match c.divisor with
  | some d => if c.shape.n = 2 then d else positions c p
  | none => positions c p

end Spec

theorem full_card (a : Axis) {h o : Nat} (ho : (o : Int) * a.s ≤ h + 2 * a.p) : a.full h o = onPadded a h o := by
  have hc : onPadded a h o = min a.k (h + 2 * a.p - o * a.s) := by
    unfold onPadded
    have : (Finset.range a.k).filter (fun κ => o * a.s + κ < h + 2 * a.p) = Finset.range (min a.k (h + 2 * a.p - o * a.s)) := by
      ext κ
      simp only [Finset.mem_filter, Finset.mem_range]
      omega
    rw [this, Finset.card_range]
  rw [hc]
  unfold Axis.full
  have e : ((o * a.s : Nat) : Int) = (o : Int) * a.s := by push_cast; rfl
  rw [← e] at ho ⊢
  omega

theorem inside_card (a : Axis) {h o : Nat} (hk : 1 ≤ a.k) (hp : 2 * a.p ≤ a.k) (ho : (o : Int) * a.s < h + a.p) :
    a.inside h o = onAxis a h o := by
  have hc : onAxis a h o = min a.k (h + a.p - o * a.s) - (a.p - o * a.s) := by
    unfold onAxis
    have : (Finset.range a.k).filter (fun κ => a.p ≤ o * a.s + κ ∧ o * a.s + κ < h + a.p) =
        Finset.Ico (a.p - o * a.s) (min a.k (h + a.p - o * a.s)) := by
      ext κ
      simp only [Finset.mem_filter, Finset.mem_range, Finset.mem_Ico]
      omega
    rw [this, Nat.card_Ico]
  rw [hc]
  unfold Axis.inside
  have e : ((o * a.s : Nat) : Int) = (o : Int) * a.s := by push_cast; rfl
  rw [← e] at ho ⊢
  omega

/-- An output position does not start behind the axis and its front padding. -/
theorem start_lt (a : Axis) {ceil : Bool} {h o : Nat} (hok : a.ok ceil h) (hd : 1 ≤ a.d) (ho : (o : Int) < a.out ceil h) :
    (o : Int) * a.s < h + a.p := by
  obtain ⟨hk, hs, hp, _⟩ := hok
  obtain ⟨h1, h2⟩ := C62_size a h hs o
  cases ceil with
  | true => exact ((h2 hk hd hp).mp ho).2
  | false =>
    have := h1.mp ho
    have hdk : (a.k : Int) - 1 ≤ a.d * ((a.k : Int) - 1) := by
      have : (1 : Int) ≤ a.d := by omega
      nlinarith
    omega

theorem prod_positions (c : Avg) (hsp : c.shape.okSpace = true) (hdj : ∀ j, (c.shape.sp j).d = 1)
    (p : (j : Fin c.shape.n) → Fin (c.shape.hout j)) :
    (if c.includePad then ∏ j, (((c.shape.sp j).full (c.shape.h j) (p j) : Int) : R)
      else ∏ j, (((c.shape.sp j).inside (c.shape.h j) (p j) : Int) : R)) = positions c p := by
  have hst : ∀ j, ((p j : Nat) : Int) * (c.shape.sp j).s < c.shape.h j + (c.shape.sp j).p := fun j =>
    start_lt _ (of_decide_eq_true hsp j) (by have := hdj j; omega) (by
      have h := (p j).2
      unfold Shape.hout at h
      omega)
  unfold positions
  split
  · apply Finset.prod_congr rfl
    intro j _
    rw [full_card _ (by have := hst j; omega)]
    simp
  · apply Finset.prod_congr rfl
    intro j _
    have hok := of_decide_eq_true hsp j
    rw [inside_card _ hok.1 hok.2.2.1 (hst j)]
    simp

theorem spDiv_divisor (c : Avg) (hsp : c.shape.okSpace = true) (hdj : ∀ j, (c.shape.sp j).d = 1)
    (p : (j : Fin c.shape.n) → Fin (c.shape.hout j)) : (c.spDiv p : R) = divisor c p := by
  have hrw : (c.spDiv p : R) = match c.spDivisor with
      | some d => (d : R)
      | none => positions c p := by
    unfold Avg.spDiv
    rw [← prod_positions c hsp hdj p]
    cases c.spDivisor <;> rfl
  rw [hrw]
  unfold divisor Avg.spDivisor
  by_cases hn : c.shape.n = 2
  · simp only [if_pos hn]
  · simp only [if_neg hn]
    cases c.divisor <;> rfl

/-- **C62**, all options: fed frame by frame, average pooling returns the sums over the windows divided by the number
of frames of the window times the spatial divisor: `divisor_override` for 3d, or else the number of positions of the
spatial window that lie on the frame, or on the padded frame with `count_include_pad`. -/
theorem C62_streams_options (c : Avg) (hsp : c.shape.okSpace = true) (hdj : ∀ j, (c.shape.sp j).d = 1)
    (hK : 1 ≤ c.shape.time.k) (hS : 1 ≤ c.shape.time.s) (hP : c.shape.time.p ≤ c.shape.time.k - 1)
    (hd : c.shape.time.d = 1) :
    StreamsAs (c.mod (R := R) (β := β)) fun xs =>
      (List.range (windowCount c.shape.time.k c.shape.time.s (xs.length + c.shape.time.p))).map fun (m : Nat) b p =>
        (∑ k : Fin c.shape.time.k, ∑ κ : (j : Fin c.shape.n) → Fin (c.shape.sp j).k,
          c.signal xs ((m : Int) * c.shape.time.s + k - c.shape.time.p) b
            fun j => (p j : Int) * (c.shape.sp j).s + κ j - (c.shape.sp j).p) / (c.shape.time.k * divisor c p) := by
  have ok := c.ok (R := R) (β := β) hK hS (by omega) hd
  have h := Implements.streamsAs ⟨_, simRel c.cfg (c.forward (R := R) (β := β)) ok⟩
  have e : (fun xs : List (Frame R β c.shape) =>
      (List.range (windowCount c.shape.time.k c.shape.time.s (xs.length + c.shape.time.p))).map fun (m : Nat) b p =>
        (∑ k : Fin c.shape.time.k, ∑ κ : (j : Fin c.shape.n) → Fin (c.shape.sp j).k,
          c.signal xs ((m : Int) * c.shape.time.s + k - c.shape.time.p) b
            fun j => (p j : Int) * (c.shape.sp j).s + κ j - (c.shape.sp j).p) / (c.shape.time.k * divisor c p)) =
      Pool.phi c.cfg := by
    funext xs
    unfold Pool.phi
    show _ = streamOut c.shape.time.k c.shape.time.s c.shape.time.p (c.fill.make 0) _ xs
    rw [streamOut_ofFn _ _ _ _ _ _ (by omega)]
    apply List.map_congr_left
    intro m _
    funext b p
    rw [c.win_eq, spDiv_divisor c hsp hdj]
    congr 1
    apply Finset.sum_congr rfl
    intro k _
    rw [c.spSum_extend]
    rfl
  show StreamsAs (PoolNd.mod c.shape.okSpace _ _) _
  rw [e, hsp]
  exact h

/-- **C62**, `forward` with all options: the sums over the windows of the clip continued by zeros, divided by
`divisor_override` (2d and 3d), or else by the number of positions of the window that lie on the clip, or on the padded
clip with `count_include_pad`.  There is an output for every window that fits into the padded clip; with `ceil_mode`,
for every window whose predecessor does not reach the end of the padded clip and that does not start behind the clip. -/
theorem C62_forward_options (c : Avg) (hsp : c.shape.okSpace = true) (hdj : ∀ j, (c.shape.sp j).d = 1)
    (i : (c.mod (R := R) (β := β)).Inst) (xs : List (Frame R β c.shape)) (hx : xs ≠ [])
    (hok : c.refTime.ok c.shape.ceil xs.length) :
    ∃ n : Nat, (∀ m : Nat, m < n ↔ if c.shape.ceil
        then ((m : Int) - 1) * c.shape.time.s + c.shape.time.k < xs.length + 2 * c.shape.time.p ∧
          m * c.shape.time.s < xs.length + c.shape.time.p
        else m * c.shape.time.s + c.shape.time.k ≤ xs.length + 2 * c.shape.time.p) ∧
      c.mod.fwd i xs = .ok ((List.range n).map fun (m : Nat) b p =>
        (∑ k : Fin c.shape.time.k, ∑ κ : (j : Fin c.shape.n) → Fin (c.shape.sp j).k,
          extendWith 0 (extend1 .zeros (0 : Frame R β c.shape) xs ((m : Int) * c.shape.time.s + k - c.shape.time.p) b)
            fun j => (p j : Int) * (c.shape.sp j).s + κ j - (c.shape.sp j).p) /
        (match c.divisor with
          | some d => if c.shape.n = 0 then
              ((if c.includePad then onPadded c.shape.time xs.length m else onAxis c.shape.time xs.length m : Nat) : R) *
                positions c p
            else d
          | none => ((if c.includePad then onPadded c.shape.time xs.length m
              else onAxis c.shape.time xs.length m : Nat) : R) * positions c p), i) := by
  refine ⟨(c.refTime.out c.shape.ceil xs.length).toNat, fun m => ?_, ?_⟩
  · obtain ⟨h1, h2⟩ := C62_size c.refTime xs.length hok.2.1 m
    have h2 := h2 hok.1 (le_refl 1) hok.2.2.1
    simp only [show c.refTime.d = 1 from rfl, show c.refTime.k = c.shape.time.k from rfl,
      show c.refTime.s = c.shape.time.s from rfl, show c.refTime.p = c.shape.time.p from rfl] at h1 h2
    have e2 : (m : Int) * c.shape.time.s = ((m * c.shape.time.s : Nat) : Int) := by push_cast; rfl
    cases hc : c.shape.ceil with
    | true =>
      rw [e2] at h2
      simp only [if_true]
      omega
    | false =>
      rw [e2] at h1
      simp only [Bool.false_eq_true, if_false]
      omega
  · show (c.forward xs).map _ = _
    unfold Avg.forward
    rw [if_neg]
    · simp only [Except.map]
      congr 2
      apply List.map_congr_left
      intro m hm
      have hst := start_lt c.refTime hok (le_refl 1) (o := m) (by have := List.mem_range.mp hm; omega)
      funext b p
      congr 1
      · apply Finset.sum_congr rfl
        intro k _
        refine Eq.trans (c.ref_frame xs m k c.shape.time.s c.shape.time.p b p) ?_
        rw [c.spSum_extend]
      · have hw : (if c.includePad then (c.refTime.full xs.length m : R) *
              ∏ j, (((c.shape.sp j).full (c.shape.h j) (p j) : Int) : R)
            else (c.refTime.inside xs.length m : R) * ∏ j, (((c.shape.sp j).inside (c.shape.h j) (p j) : Int) : R)) =
            ((if c.includePad then onPadded c.shape.time xs.length m else onAxis c.shape.time xs.length m : Nat) : R) *
              positions c p := by
          rw [← prod_positions c hsp hdj p]
          by_cases hi : c.includePad = true
          · simp only [hi, if_true]
            rw [full_card c.refTime (by omega)]
            simp only [Int.cast_natCast]
            rfl
          · simp only [hi]
            rw [inside_card c.refTime hok.1 hok.2.2.1 hst]
            simp only [Int.cast_natCast]
            rfl
        unfold Avg.refDiv Avg.refDivisor
        rw [hw]
        by_cases hn : c.shape.n = 0
        · simp only [if_pos hn]
          cases c.divisor <;> rfl
        · simp only [if_neg hn]
          cases c.divisor <;> rfl
    · rintro (h | h | h)
      · exact hx h
      · exact h hok
      · rw [hsp] at h; cases h

end

/-! ### Refused arguments -/

/-- Spatial arguments that the torch function refuses are refused by every call. -/
theorem PoolNd.rejects {X Y : Type} (a : Pool.Cfg X Y) (fwd : List X → Except Err (List Y))
    (i : (PoolNd.mod false a fwd).Inst) (u pe : Bool) (x : X) (xs : List X) :
    (PoolNd.mod false a fwd).step i u x = .error .runtime ∧
    (PoolNd.mod false a fwd).steps i pe u (x :: xs) = .error .runtime := ⟨rfl, rfl⟩

/-- **C62**: an average pooling module with spatial arguments that torch refuses (a padding of more than half the
kernel size, a kernel size or stride of zero, a kernel larger than the padded frame) raises in every mode. -/
theorem C62_rejects {R β : Type} [Field R] (c : Avg) (h : c.shape.okSpace = false)
    (i : (c.mod (R := R) (β := β)).Inst) (u pe : Bool) (x : Frame R β c.shape) (xs : List (Frame R β c.shape)) :
    c.mod.step i u x = .error .runtime ∧ c.mod.steps i pe u (x :: xs) = .error .runtime ∧
      c.mod.fwd i xs = .error .runtime := by
  have hr := PoolNd.rejects (c.cfg (R := R) (β := β)) c.forward i u pe x xs
  refine ⟨?_, ?_, ?_⟩
  · show (PoolNd.mod c.shape.okSpace _ _).step i u x = _
    rw [h]; exact hr.1
  · show (PoolNd.mod c.shape.okSpace _ _).steps i pe u (x :: xs) = _
    rw [h]; exact hr.2
  · show (c.forward xs).map _ = _
    unfold Avg.forward
    rw [if_pos (.inr (.inr h))]
    rfl

/-- **C63**: the same for max pooling. -/
theorem C63_rejects {R β : Type} [Zero R] [LinearOrder R] [OrderBot R] (c : Max) (h : c.shape.okSpace = false)
    (i : (c.mod (R := R) (β := β)).Inst) (u pe : Bool) (x : Frame R β c.shape) (xs : List (Frame R β c.shape)) :
    c.mod.step i u x = .error .runtime ∧ c.mod.steps i pe u (x :: xs) = .error .runtime ∧
      c.mod.fwd i xs = .error .runtime := by
  have hr := PoolNd.rejects (c.cfg (R := R) (β := β)) c.forward i u pe x xs
  refine ⟨?_, ?_, ?_⟩
  · show (PoolNd.mod c.shape.okSpace _ _).step i u x = _
    rw [h]; exact hr.1
  · show (PoolNd.mod c.shape.okSpace _ _).steps i pe u (x :: xs) = _
    rw [h]; exact hr.2
  · show (c.forward xs).map _ = _
    unfold Max.forward
    rw [if_pos (.inr (.inr h))]
    rfl

/-- When spatial arguments are accepted: for each axis positive kernel and stride, a padding of at most half the
kernel size and a window that fits. -/
theorem C62_accepts (c : PoolNd.Shape) (hc : c.ceil = false) :
    c.okSpace = true ↔ ∀ j, 1 ≤ (c.sp j).k ∧ 1 ≤ (c.sp j).s ∧ 2 * (c.sp j).p ≤ (c.sp j).k ∧
      ((c.sp j).d : Int) * ((c.sp j).k - 1) + 1 ≤ c.h j + 2 * (c.sp j).p := by
  unfold PoolNd.Shape.okSpace Axis.ok
  rw [decide_eq_true_iff]
  refine forall_congr' fun j => and_congr_right fun _ => and_congr_right fun hs => and_congr_right fun _ => ?_
  have := (C62_size (c.sp j) (c.h j) hs 0).1
  rw [hc]
  simp only [Nat.cast_zero, zero_mul, zero_add] at this
  rw [← this]
  omega

/-! ### Temporal dilation in `forward` -/

section
variable {R β : Type} [Zero R] [LinearOrder R] [OrderBot R]

/-- **C63**, `forward` with any dilation: the outputs are the maxima over the windows whose frames are `dilation`
apart, padded by `-inf`, and there is one for every window that fits into the padded clip.  (Frame by frame a dilated
pooling does something else, C05.) -/
theorem C63_forward_dilated (c : Max) (hsp : c.shape.okSpace = true) (hceil : c.shape.ceil = false)
    (i : (c.mod (R := R) (β := β)).Inst) (xs : List (Frame R β c.shape)) (hx : xs ≠ [])
    (hok : c.shape.time.ok false xs.length) :
    ∃ n : Nat, (∀ m : Nat, m < n ↔ m * c.shape.time.s + (c.shape.time.d * (c.shape.time.k - 1) + 1) ≤
        xs.length + 2 * c.shape.time.p) ∧
      c.mod.fwd i xs = .ok ((List.range n).map fun (m : Nat) b p => Finset.univ.sup
        fun κ : Fin c.shape.time.k × ((j : Fin c.shape.n) → Fin (c.shape.sp j).k) =>
          extendWith ⊥ (extend1 .zeros (⊥ : Frame R β c.shape) xs
            ((m : Int) * c.shape.time.s + κ.1 * c.shape.time.d - c.shape.time.p) b)
            fun j => (p j : Int) * (c.shape.sp j).s + κ.2 j * (c.shape.sp j).d - (c.shape.sp j).p, i) := by
  refine ⟨(c.shape.time.out false xs.length).toNat, fun m => ?_, ?_⟩
  · have := (C62_size c.shape.time xs.length hok.2.1 m).1
    have hk := hok.1
    have e : (c.shape.time.d : Int) * ((c.shape.time.k : Int) - 1) = ((c.shape.time.d * (c.shape.time.k - 1) : Nat) : Int) := by
      push_cast [Nat.cast_sub hk]; rfl
    have e2 : (m : Int) * c.shape.time.s = ((m * c.shape.time.s : Nat) : Int) := by push_cast; rfl
    rw [e, e2] at this
    omega
  · show (c.forward xs).map _ = _
    unfold Max.forward
    rw [hceil, if_neg]
    · simp only [Except.map]
      congr 2
      apply List.map_congr_left
      intro m _
      funext b p
      rw [← Finset.univ_product_univ, Finset.sup_product_left]
      apply Finset.sup_congr rfl
      intro k _
      have := c.ref_frame xs m (k * c.shape.time.d) c.shape.time.s c.shape.time.p b p
      refine Eq.trans this ?_
      rw [c.spatial_extend]
      push_cast
      rfl
    · rintro (h | h | h)
      · exact hx h
      · exact h hok
      · rw [hsp] at h; cases h

end

/-! ### Examples -/

/-- An axis of five entries, windows of three with stride 2 and one entry of padding: three outputs, four with
`ceil_mode` if there is one entry more. -/
example : (⟨3, 2, 1, 1⟩ : Axis).out false 5 = 3 ∧ (⟨3, 2, 1, 1⟩ : Axis).out false 6 = 3 ∧
    (⟨3, 2, 1, 1⟩ : Axis).out true 6 = 4 ∧ (⟨2, 3, 0, 1⟩ : Axis).out true 3 = 1 := by decide

/-- The last of these windows has three positions on the padded axis for five entries, two of them on the axis; with
`ceil_mode` and six entries it has two and none is missing in front. -/
example : onPadded ⟨3, 2, 1, 1⟩ 5 2 = 3 ∧ onAxis ⟨3, 2, 1, 1⟩ 5 2 = 2 ∧ onPadded ⟨3, 2, 1, 1⟩ 6 3 = 2 ∧
    onAxis ⟨3, 2, 1, 1⟩ 6 3 = 1 := by decide

/-- `AvgPool3d` with `ceil_mode`, without `count_include_pad`: accepted, and the hypotheses of the theorems above
hold. -/
def exAvgOpt (divisor : Option Nat) : Avg where
  shape := { n := 2, time := ⟨3, 2, 1, 1⟩, sp := fun _ => ⟨3, 2, 1, 1⟩, h := fun _ => 6, ceil := true }
  includePad := false
  divisor := divisor
  fill := .zeros

example (d : Option Nat) : (exAvgOpt d).shape.okSpace = true ∧ (∀ j, ((exAvgOpt d).shape.sp j).d = 1) ∧
    (∀ j, (exAvgOpt d).shape.hout j = 4) ∧ (exAvgOpt d).refTime.ok (exAvgOpt d).shape.ceil 6 := by
  refine ⟨?_, ?_, ?_, ?_⟩
  · show (exAvgOpt none).shape.okSpace = true
    decide
  · exact fun j => rfl
  · intro j
    show ((⟨3, 2, 1, 1⟩ : Axis).out true 6).toNat = 4
    decide
  · show (⟨3, 2, 1, 1⟩ : Axis).ok true 6
    decide

/-- In the last corner only one of the nine positions is on the frame. -/
example : (positions (exAvgOpt none) (fun j => ⟨3, by revert j; decide⟩) : Rat) = 1 ∧
    (positions (exAvgOpt none) (fun j => ⟨1, by revert j; decide⟩) : Rat) = 9 := by decide +kernel

/-- Padding of more than half the kernel size is refused. -/
example : ({ n := 1, time := ⟨3, 2, 1, 1⟩, sp := fun _ => ⟨3, 2, 2, 1⟩, h := fun _ => 6, ceil := true } :
    PoolNd.Shape).okSpace = false := by decide

/-- `MaxPool2d` with dilation 2 in time: clips of five frames and more are accepted. -/
example : (⟨3, 1, 0, 2⟩ : Axis).ok false 5 ∧ ¬ (⟨3, 1, 0, 2⟩ : Axis).ok false 4 := by decide

end CoInf
