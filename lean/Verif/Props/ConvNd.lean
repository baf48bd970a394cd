/-
Property C61: convolutions with all their axes.
-/
import Verif.Lemmas.ConvNd
import Verif.Lemmas.Extend
import Verif.Props.Leaf

set_option autoImplicit false

namespace CoInf
open Spec ConvNd
variable {R β : Type} [NonUnitalNonAssocSemiring R]

namespace ConvNd

/-- The frames `xs` as a signal on all integer times and positions: continued in time as `temporal_fill` says and
in space as `padding_mode` says. -/
def signal (c : ConvNd.Cfg R) (xs : List (Frame β c)) (t : Int) (b : β) (ch : Nat) (q : Fin c.n → Int) : R :=
  if hc : ch < c.groups * c.cinG then
    extendN c.padMode.extend (extend1 c.fill.extend (0 : Frame β c) xs t b ⟨ch, hc⟩) q
  else 0

/-- The textbook output number `m` for the frames `xs`. -/
def textbook (c : ConvNd.Cfg R) (xs : List (Frame β c)) (m : Nat) : OutFrame β c := fun b o p =>
  convAt c.S c.P c.str c.dil c.pad c.weight (fun o => match c.bias with
    | some v => v o
    | none => 0) (signal c xs) m b o fun j => p j

variable {c : ConvNd.Cfg R}

theorem padFrame_extend (x : Frame β c) (b : β) (ch : Fin (c.groups * c.cinG)) (q : Fin c.n → Nat) :
    padFrame c x b ch q = extendN c.padMode.extend (x b ch) fun j => (q j : Int) - c.pad j := by
  have e : ∀ j, ((q j : Int) - c.pad j).toNat = q j - c.pad j := fun j => by omega
  unfold padFrame extendN
  cases c.padMode with
  | zeros =>
    simp only [Fill.extend]
    by_cases hq : ∀ j, c.pad j ≤ q j ∧ q j - c.pad j < c.h j
    · rw [dif_pos hq, dif_pos (fun j => by have := hq j; rw [e]; omega)]
      congr 1
      funext j
      exact Fin.ext (e j).symm
    · rw [dif_neg hq, dif_neg (fun h => hq fun j => by have := h j; rw [e] at this; omega)]
  | replicate =>
    simp only [Fill.extend, e]

theorem slice_extend (k : Fin c.K) (x : Frame β c) (b : β) (o : Fin (c.groups * c.coutG))
    (p : (j : Fin c.n) → Fin (c.hout j)) :
    slice c k x b o p = ∑ ci : Fin c.cinG, ∑ ks : (j : Fin c.n) → Fin (c.kern j), c.weight o ci k ks *
      (if hc : o / c.coutG * c.cinG + ci < c.groups * c.cinG then
        extendN c.padMode.extend (x b ⟨o / c.coutG * c.cinG + ci, hc⟩)
          fun j => (p j : Int) * c.str j + (ks j : Int) * c.dil j - c.pad j
      else 0) := by
  unfold slice chan
  simp only [padFrame_extend]
  push_cast
  rfl

/-- Sliding the kernel over frames, written with explicit sums. -/
theorem slide_eq (hf : Fits c) (hK : 1 ≤ c.K) (zs : List (Frame β c)) :
    slide c.K c.S (corr (abs c).w (abs (β := β) c).bias) zs =
      (List.range (windowCount c.K c.S zs.length)).map fun m =>
        (∑ k : Fin c.K, match zs[m * c.S + k]? with
          | some z => slice c k z
          | none => 0) + fun _ o _ => match c.bias with
            | some v => v o
            | none => 0 := by
  by_cases hl : zs.length < c.K
  · unfold slide windowCount
    rw [if_pos hl]; rfl
  · have h1 := Conv.torchConv_eq (abs c) zs (by show c.K ≤ _; omega)
    rw [← convFunc_torch hf, convFunc_ok hf _ _ _ _ (by omega)] at h1
    have h2 := Except.ok.inj h1
    show slide (abs (β := β) c).K (abs (β := β) c).S _ zs = _
    rw [← h2]
    unfold windowCount
    rw [if_neg hl]
    apply List.map_congr_left
    intro m _
    congr 1

/-- The frames of a window are those of the continued signal. -/
theorem window_eq (m : Nat) (xs zs : List (Frame β c))
    (h : ∀ k : Fin c.K, zs[m * c.S + k]? = some (extend1 c.fill.extend 0 xs ((m : Int) * c.S + k - c.P))) :
    ((∑ k : Fin c.K, match zs[m * c.S + k]? with
          | some z => slice c k z
          | none => 0) + fun _ o _ => match c.bias with
            | some v => v o
            | none => 0) = textbook c xs m := by
  funext b o p
  unfold textbook convAt
  rw [Pi.add_apply, Pi.add_apply, Pi.add_apply]
  congr 1
  rw [Finset.sum_apply, Finset.sum_apply, Finset.sum_apply, Finset.sum_comm]
  apply Finset.sum_congr rfl
  intro k _
  rw [h k]
  simp only
  rw [slice_extend]
  rfl

theorem streamOut_eq (hf : Fits c) (hK : 1 ≤ c.K) (hP : c.P ≤ c.K - 1) (xs : List (Frame β c)) :
    streamOut c.K c.S c.P (c.fill.make 0) (corr (abs c).w (abs (β := β) c).bias) xs =
      (List.range (windowCount c.K c.S (xs.length + c.P))).map (textbook c xs) := by
  unfold streamOut
  rw [slide_eq hf hK]
  by_cases hx : xs = []
  · subst hx
    have : windowCount c.K c.S (([] : List (Frame β c)).length + c.P) = 0 := by
      unfold windowCount
      rw [if_pos (by simp; omega)]
    rw [this]
    simp only [padStart, List.length_nil]
    unfold windowCount
    rw [if_pos (by omega)]
    rfl
  · rw [length_padStart _ _ hx]
    apply List.map_congr_left
    intro m hm
    apply window_eq
    intro k
    have hlt := lt_of_window (by simpa using hm) k
    have h := get_padded c.fill (0 : Frame β c) c.P hx (m * c.S + k) (by omega)
    push_cast at h
    rw [← h]
    have : ∀ {α : Type} (P : Nat) (f : α → α) (l : List α) (i : Nat), i < l.length → (padEnd P f l)[i]? = l[i]? := by
      intro α P f l i hi
      unfold padEnd
      cases l.getLast? with
      | none => rfl
      | some a => exact List.getElem?_append_left hi
    exact (this _ _ _ _ (by rw [length_padStart _ _ hx]; omega)).symm

theorem clipOut_eq (hf : Fits c) (hK : 1 ≤ c.K) {xs : List (Frame β c)} (hx : xs ≠ []) :
    clipOut c.K c.S c.P (c.fill.make 0) (corr (abs c).w (abs (β := β) c).bias) xs =
      (List.range (windowCount c.K c.S (xs.length + 2 * c.P))).map (textbook c xs) := by
  unfold clipOut
  rw [slide_eq hf hK]
  have hlen : (padEnd c.P (c.fill.make (0 : Frame β c)) (padStart c.P (c.fill.make 0) xs)).length =
      xs.length + 2 * c.P := by
    obtain ⟨a, t, rfl⟩ : ∃ a t, xs = a :: t := by
      cases xs with
      | nil => exact absurd rfl hx
      | cons a t => exact ⟨a, t, rfl⟩
    unfold padEnd
    rw [List.getLast?_eq_some_getLast (by simp [padStart])]
    simp [padStart]; omega
  rw [hlen]
  apply List.map_congr_left
  intro m hm
  apply window_eq
  intro k
  have hlt := lt_of_window (by simpa using hm) k
  have h := get_padded c.fill (0 : Frame β c) c.P hx (m * c.S + k) (by omega)
  push_cast at h
  exact h

end ConvNd

/-- **C61.** A clean `Conv1d`/`Conv2d`/`Conv3d` (any number of spatial axes, any batch) fed frame by frame returns,
after every number of frames, exactly the textbook N-dimensional cross-correlation with temporal stride and start
padding, and spatial kernel size, stride, dilation and padding, within channel groups. -/
theorem C61_streams (c : ConvNd.Cfg R) (hf : Fits c) (hK : 1 ≤ c.K) (hS : 1 ≤ c.S) (hP : c.P ≤ c.K - 1)
    (h1 : 1 < c.K ∨ c.S = 1) :
    StreamsAs (ConvNd.mod (β := β) c) fun xs =>
      (List.range (windowCount c.K c.S (xs.length + c.P))).map (textbook c xs) := by
  rw [ConvNd.mod_eq hf hK]
  have h := C01_conv_streams_textbook (ConvNd.abs (β := β) c) hK hS hP h1 (ConvNd.abs_zero c)
  have e : (fun xs : List (Frame β c) => (List.range (windowCount c.K c.S (xs.length + c.P))).map (textbook c xs)) =
      streamOut c.K c.S c.P (c.fill.make 0) (corr (ConvNd.abs c).w (ConvNd.abs (β := β) c).bias) :=
    funext fun xs => (ConvNd.streamOut_eq hf hK hP xs).symm
  rw [e]
  exact h

/-- **C61** for clips: `forward`, and `forward_steps` with end padding on a clean module, give the textbook
convolution padded on both sides (if `padding_mode` and `temporal_fill` agree), for both values of
`update_state`. -/
theorem C61_forward (c : ConvNd.Cfg R) (hf : Fits c) (hK : 1 ≤ c.K) (hS : 1 ≤ c.S) (hP : c.P ≤ c.K - 1)
    (h1 : 1 < c.K ∨ c.S = 1) (hm : c.padMode = c.fill) {i : (ConvNd.mod (β := β) c).Inst}
    (hi : Reach (ConvNd.mod c) [] i) (u : Bool) (xs : List (Frame β c)) (hx : xs ≠ [])
    (hl : c.K ≤ xs.length + 2 * c.P) :
    (ConvNd.mod c).fwd i xs = .ok ((List.range (windowCount c.K c.S (xs.length + 2 * c.P))).map (textbook c xs), i) ∧
    (∃ i', (ConvNd.mod c).steps i true u xs =
      .ok (some ((List.range (windowCount c.K c.S (xs.length + 2 * c.P))).map (textbook c xs)), i')) := by
  have e := ConvNd.clipOut_eq (β := β) hf hK hx
  revert i
  rw [ConvNd.mod_eq hf hK]
  intro i hi
  have h := C02_conv_padEnd_eq_forward (ConvNd.abs (β := β) c) hK hS hP h1 (ConvNd.abs_zero c) hm hi u xs hx
  rw [if_neg (show ¬ xs.length + 2 * (ConvNd.abs (β := β) c).P < (ConvNd.abs (β := β) c).K from by
    show ¬ xs.length + 2 * c.P < c.K; omega)] at h
  have e' : clipOut (ConvNd.abs (β := β) c).K (ConvNd.abs (β := β) c).S (ConvNd.abs (β := β) c).P
    ((ConvNd.abs (β := β) c).fill.make 0) (corr (ConvNd.abs (β := β) c).w (ConvNd.abs (β := β) c).bias) xs = _ := e
  rw [e'] at h
  exact ⟨h.1, h.2.1⟩

/-- The textbook output at `(b, o)` depends on the frames of batch entry `b` and the group of `o` only. -/
theorem ConvNd.textbook_local (c : ConvNd.Cfg R) (xs xs' : List (Frame β c)) (b : β) (o : Fin (c.groups * c.coutG))
    (hl : xs.length = xs'.length)
    (h : ∀ (t : Nat) (x x' : Frame β c), xs[t]? = some x → xs'[t]? = some x' → ∀ ch : Fin (c.groups * c.cinG),
      ch / c.cinG = o / c.coutG → x b ch = x' b ch) (m : Nat) :
    textbook c xs m b o = textbook c xs' m b o := by
  funext p
  unfold textbook convAt
  congr 1
  refine Finset.sum_congr rfl fun ci _ => Finset.sum_congr rfl fun k _ => Finset.sum_congr rfl fun ks _ => ?_
  congr 1
  unfold signal
  split
  · rename_i hc
    congr 1
    have key : ∀ i : Nat, (xs.getD i (0 : Frame β c)) b ⟨o / c.coutG * c.cinG + ci, hc⟩ =
        (xs'.getD i (0 : Frame β c)) b ⟨o / c.coutG * c.cinG + ci, hc⟩ := by
      intro i
      rw [List.getD_eq_getElem?_getD, List.getD_eq_getElem?_getD]
      by_cases hi : i < xs.length
      · rw [List.getElem?_eq_getElem hi, List.getElem?_eq_getElem (hl ▸ hi)]
        refine h i _ _ (List.getElem?_eq_getElem hi) (List.getElem?_eq_getElem (hl ▸ hi)) _ ?_
        show (o / c.coutG * c.cinG + ci) / c.cinG = _
        have hci := ci.2
        rw [Nat.add_comm, Nat.add_mul_div_right _ _ (by omega), Nat.div_eq_of_lt hci, Nat.zero_add]
      · rw [List.getElem?_eq_none (by omega), List.getElem?_eq_none (by omega)]
    unfold extend1
    cases c.fill with
    | zeros =>
      simp only [Fill.extend]
      split
      · exact key _
      · rfl
    | replicate =>
      simp only [Fill.extend, hl]
      exact key _
  · rfl

/-- **C61**, consequence: batch entries do not influence each other, and an output channel is influenced by the
channels of its own group only.  If two streams agree in batch entry `b` on the channels of the group of `o`, the
tensors returned while stepping through them agree in batch entry `b` and channel `o`. -/
theorem C61_independent (c : ConvNd.Cfg R) (hf : Fits c) (hK : 1 ≤ c.K) (hS : 1 ≤ c.S) (hP : c.P ≤ c.K - 1)
    (h1 : 1 < c.K ∨ c.S = 1) {i i' : (ConvNd.mod (β := β) c).Inst} (hi : Reach (ConvNd.mod c) [] i)
    (hi' : Reach (ConvNd.mod c) [] i') (xs xs' : List (Frame β c)) (b : β) (o : Fin (c.groups * c.coutG))
    (hl : xs.length = xs'.length)
    (h : ∀ (t : Nat) (x x' : Frame β c), xs[t]? = some x → xs'[t]? = some x' → ∀ ch : Fin (c.groups * c.cinG),
      ch / c.cinG = o / c.coutG → x b ch = x' b ch) :
    ∃ os os' j j', callSteps (ConvNd.mod c) i xs = .ok (os, j) ∧ callSteps (ConvNd.mod c) i' xs' = .ok (os', j') ∧
      (tensors os).map (fun y => y b o) = (tensors os').map fun y => y b o := by
  obtain ⟨os, j, e, l, hn⟩ := C61_streams (β := β) c hf hK hS hP h1 i hi xs
  obtain ⟨os', j', e', l', hn'⟩ := C61_streams (β := β) c hf hK hS hP h1 i' hi' xs'
  refine ⟨os, os', j, j', e, e', ?_⟩
  have a := hn os.length
  have a' := hn' os'.length
  rw [List.take_length, List.take_of_length_le (by omega)] at a
  rw [List.take_length, List.take_of_length_le (by omega)] at a'
  rw [a, a']
  simp only [hl, List.map_map]
  exact List.map_congr_left fun m _ => ConvNd.textbook_local c xs xs' b o hl h m

/-- A `Conv2d`: two groups of one input and one output channel, temporal kernel 2, one spatial axis of three
positions with kernel 2, stride 2, dilation 1 and padding 1. -/
def exNd : ConvNd.Cfg Int where
  n := 1
  groups := 2
  cinG := 1
  coutG := 1
  K := 2
  S := 1
  P := 1
  kern := fun _ => 2
  str := fun _ => 2
  dil := fun _ => 1
  pad := fun _ => 1
  h := fun _ => 3
  fill := .zeros
  padMode := .zeros
  weight := fun o _ kt ks => 10 ^ (o : Nat) * (1 + 2 * (kt : Nat) + (ks 0 : Nat))
  bias := some fun o => (o : Nat)

/-- A frame with value `100 + 10 ch + position` in batch entry 0. -/
def exFrame (a : Int) : Frame Unit exNd := fun _ ch q => a + 10 * (ch : Nat) + (q ⟨0, Nat.one_pos⟩ : Nat)

example : Fits exNd ∧ 1 ≤ exNd.K ∧ 1 ≤ exNd.S ∧ exNd.P ≤ exNd.K - 1 ∧ (1 < exNd.K ∨ exNd.S = 1) ∧
    exNd.padMode = exNd.fill ∧ (∀ j, exNd.hout j = 2) := by
  refine ⟨?_, by decide, by decide, by decide, by decide, rfl, ?_⟩
  · intro j; simp [exNd]
  · intro j; show (3 + 2 * 1 - 1 * (2 - 1) - 1) / 2 + 1 = 2; rfl

example : ConvNd.textbook exNd [exFrame 1, exFrame 5] 1 () ⟨1, by decide⟩ (fun _ => ⟨1, show 1 < (3 + 2 * 1 - 1 * (2 - 1) - 1) / 2 + 1 by decide⟩) =
    10 * (1 * 12 + 2 * 13 + 3 * 16 + 4 * 17) + 1 := by decide +kernel

/-- Two frames which agree on the first group only. -/
example : ∃ x x' : Frame Unit exNd, x ≠ x' ∧ ∀ ch : Fin (exNd.groups * exNd.cinG), (ch : Nat) / exNd.cinG = 0 / exNd.coutG →
    x () ch = x' () ch := by
  refine ⟨fun _ ch _ => (ch : Nat), fun _ _ _ => 0, fun e => ?_, fun ch hc => ?_⟩
  · have := congrFun (congrFun (congrFun e ()) ⟨1, by decide⟩) fun _ => ⟨0, show 0 < 3 by decide⟩
    simp at this
  · have h0 : (ch : Nat) = 0 := by simpa [exNd] using hc
    funext q
    show ((ch : Nat) : Int) = 0
    rw [h0]; rfl

end CoInf
