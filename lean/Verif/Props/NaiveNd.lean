import Verif.Lemmas.NaiveNd
import Mathlib.Algebra.Order.Field.Basic
import Mathlib.Algebra.Order.BigOperators.Group.List
import Mathlib.Algebra.BigOperators.Ring.List
import Mathlib.Algebra.CharZero.Defs
import Mathlib.Tactic.Ring
import Mathlib.Tactic.FieldSimp
import Mathlib.Tactic.Linarith
import Mathlib.Data.Rat.Defs
import Mathlib.Algebra.Order.Field.Rat

set_option autoImplicit false

namespace CoInf.Spec
variable {F : Type} [Zero F]

/-- Frame `t` of a clip. -/
def clipFrame (x : Tensor F) (t : Nat) : Tensor F := (x.select 2 t).toOption.getD x

/-- The frames of a clip. -/
def clipFrames (x : Tensor F) : List (Tensor F) := (List.range (x.shape.getD 2 0)).map (clipFrame x)

end CoInf.Spec

namespace CoInf.NaiveNd
open Spec Tensor
variable {F : Type} [Field F]

theorem select_clipFrame {x : Tensor F} {B C T : Nat} {S : List Nat} (hx : x.shape = B :: C :: T :: S) {t : Nat} (ht : t < T) :
    x.select 2 t = .ok (clipFrame x t) := by
  obtain ⟨f, hf⟩ := part_one_select hx ht
  rw [clipFrame, hf]; rfl

/-! ### C89: evaluation mode -/

/-- **C89**, frames: in evaluation mode a module that does not mix times gives, for every frame of every clip, what its
`forward` on the clip has there; it raises exactly when `forward` raises, with the same exception; and statistics stay. -/
theorem C89_frames_partial (l : Layer F) (s : Stats F) (x : Tensor F) {B C T : Nat} {S : List Nat}
    (hx : x.shape = B :: C :: T :: S) (hl : Timeless l x.shape.length) {t : Nat} (ht : t < T) {f : Tensor F}
    (hf : x.select 2 t = .ok f) :
    forwardStep l false s f = (do
      let (y, s) ← forward l false s x
      let y ← y.select 2 t
      pure (y, s)) := by
  rw [forwardStep_eq l false s hx ht hf, forward_part l s hx hl (by omega)]
  cases h : forward l false s x with
  | error e => rfl
  | ok p =>
    obtain ⟨y, s'⟩ := p
    obtain ⟨B', C', S', hy⟩ := forward_shape l false s hx (by rintro gate dim rfl; exact axis_time hl) h
    show (do let y ← (part y t 1).squeeze 2; pure (y, s')) = _
    rw [part_squeeze hy ht]
    rfl

/-- **C89**, chunks: `forward_steps` on any chunk of a clip gives that chunk of the result for the clip. -/
theorem C89_chunks_partial (l : Layer F) (s : Stats F) (x : Tensor F) {B C T : Nat} {S : List Nat}
    (hx : x.shape = B :: C :: T :: S) (hl : Timeless l x.shape.length) {a n : Nat} (h : a + n ≤ T) :
    forwardSteps l false s (part x a n) = (forward l false s x).map fun p => (part p.1 a n, p.2) :=
  forward_part l s hx hl h

/-- **C89**, instance normalisations: those that `continual` accepts are the ones that do not mix times. -/
theorem C89_instance_norm (c : NormCfg F) (rank : Nat) :
    accepts (.instanceNorm c) = true ↔ Timeless (.instanceNorm c) rank := Iff.rfl

/-- **C89**, an accepted instance normalisation, frame by frame. -/
theorem C89_instance_norm_frames (c : NormCfg F) (hc : accepts (.instanceNorm c) = true) (s : Stats F) (x : Tensor F)
    {B C T : Nat} {S : List Nat} (hx : x.shape = B :: C :: T :: S) {t : Nat} (ht : t < T) {f : Tensor F}
    (hf : x.select 2 t = .ok f) :
    forwardStep (.instanceNorm c) false s f = (do
      let (y, s) ← forward (.instanceNorm c) false s x
      let y ← y.select 2 t
      pure (y, s)) :=
  C89_frames_partial (.instanceNorm c) s x hx ((C89_instance_norm c _).1 hc) ht hf

/-- **C89**, softmaxes without a `dim`: torch's choice of an axis is never time. -/
theorem C89_legacy_softmax (e post : F → F) (s : Stats F) (x : Tensor F)
    {B C T : Nat} {S : List Nat} (hx : x.shape = B :: C :: T :: S) {t : Nat} (ht : t < T) {f : Tensor F}
    (hf : x.select 2 t = .ok f) :
    forwardStep (.soft e post none) false s f = (do
      let (y, s) ← forward (.soft e post none) false s x
      let y ← y.select 2 t
      pure (y, s)) :=
  C89_frames_partial (.soft e post none) s x hx trivial ht hf

theorem forward_stats (l : Layer F) (s : Stats F) {x y : Tensor F} {s' : Stats F} (h : forward l false s x = .ok (y, s')) :
    s' = s := by
  cases l with
  | act f => cases h; rfl
  | soft e post dim =>
    unfold forward at h
    simp only at h
    split at h <;> cases h
    rfl
  | softmax2d e =>
    unfold forward at h
    simp only at h
    split at h
    · split at h <;> cases h
      rfl
    · cases h
  | glu gate dim =>
    unfold forward at h
    simp only at h
    split at h
    · unfold gluAlong at h
      simp only at h
      split at h <;> cases h
      rfl
    · cases h
  | dropout => cases h; rfl
  | batchNorm c =>
    change batchNorm c false s x = _ at h
    unfold batchNorm at h
    simp only [Bool.false_and, Bool.false_eq_true, if_false] at h
    repeat' split at h
    all_goals cases h <;> rfl
  | instanceNorm c =>
    change instanceNorm c false s x = _ at h
    unfold instanceNorm at h
    simp only [Bool.false_and, Bool.false_eq_true, if_false] at h
    repeat' split at h
    all_goals cases h <;> rfl
  | layerNorm ns scale w b =>
    change (layerNorm ns scale w b x).map _ = _ at h
    unfold layerNorm at h
    simp only at h
    split at h <;> cases h
    rfl
  | groupNorm g ch scale w b =>
    change (groupNorm g ch scale w b x).map _ = _ at h
    unfold groupNorm at h
    simp only at h
    split at h <;> cases h
    rfl

theorem stream_frames (l : Layer F) (s : Stats F) {x y : Tensor F} {B C T : Nat} {S : List Nat}
    (hx : x.shape = B :: C :: T :: S) (hl : Timeless l x.shape.length) {s' : Stats F} (h : forward l false s x = .ok (y, s')) :
    ∀ ts : List Nat, (∀ t ∈ ts, t < T) → stream l false s (ts.map (clipFrame x)) = .ok (ts.map (clipFrame y), s)
  | [], _ => rfl
  | t :: ts, ht => by
    have ht' : t < T := ht t (by simp)
    obtain ⟨B', C', S', hy⟩ := forward_shape l false s hx (by rintro gate dim rfl; exact axis_time hl) h
    have e := C89_frames_partial l s x hx hl ht' (select_clipFrame hx ht')
    rw [h] at e
    change forwardStep l false s (clipFrame x t) = (do let y ← y.select 2 t; pure (y, s')) at e
    rw [select_clipFrame hy ht', forward_stats l s h] at e
    change _ = Except.ok (clipFrame y t, s) at e
    rw [List.map_cons, List.map_cons]
    unfold stream
    rw [e]
    show (do let (ys, s) ← stream l false s _; pure (clipFrame y t :: ys, s)) = _
    rw [stream_frames l s hx hl h ts fun t h => ht t (by simp [h])]
    rfl

/-- **C89**, streams: stepping through all frames of a clip gives all frames of `forward`'s result. -/
theorem C89_stream_partial (l : Layer F) (s : Stats F) (x : Tensor F) {B C T : Nat} {S : List Nat}
    (hx : x.shape = B :: C :: T :: S) (hl : Timeless l x.shape.length) {y : Tensor F} {s' : Stats F}
    (h : forward l false s x = .ok (y, s')) :
    stream l false s (clipFrames x) = .ok (clipFrames y, s') := by
  obtain ⟨B', C', S', hy⟩ := forward_shape l false s hx (by rintro gate dim rfl; exact axis_time hl) h
  rw [forward_stats l s h]
  unfold clipFrames
  rw [hx, hy]
  exact stream_frames l s hx hl h (List.range T) fun t ht => List.mem_range.1 ht

/-! ### Entries along axes -/

theorem slab_single (rest : List Nat) : slab (rest.map fun i => [i]) = [rest] := by
  induction rest with
  | nil => rfl
  | cons i rest ih => simp [slab, ih]

theorem mem_slab : ∀ (cs : List (List Nat)) (idx : List Nat), idx ∈ slab cs ↔ List.Forall₂ (fun i c => i ∈ c) idx cs
  | [], idx => by
    simp only [slab, List.mem_singleton]
    constructor
    · rintro rfl; exact .nil
    · intro h; cases h; rfl
  | c :: cs, idx => by
    simp only [slab, List.mem_flatMap, List.mem_map]
    constructor
    · rintro ⟨i, hi, r, hr, rfl⟩
      exact .cons hi ((mem_slab cs r).1 hr)
    · intro h
      cases h with
      | cons hi hr => exact ⟨_, hi, _, (mem_slab cs _).2 hr, rfl⟩

theorem within_forall (idx S : List Nat) : within idx S = true ↔ List.Forall₂ (fun i c => i ∈ c) idx (S.map List.range) := by
  induction S generalizing idx with
  | nil => rw [within_nil]; constructor <;> intro h <;> cases h <;> constructor
  | cons n S ih =>
    rw [within_cons]
    constructor
    · rintro ⟨i, is, rfl, hi, his⟩
      exact .cons (List.mem_range.2 hi) ((ih is).1 his)
    · intro h
      cases h with
      | cons hi hr => exact ⟨_, _, rfl, List.mem_range.1 hi, (ih _).2 hr⟩

theorem within_length {idx S : List Nat} (h : within idx S = true) : idx.length = S.length := by
  have := ((within_forall idx S).1 h).length_eq
  simpa using this

theorem map_getD (S : List Nat) {β : Type} (g : Nat → β) : (List.range S.length).map (fun i => g (S.getD i 0)) = S.map g := by
  apply List.ext_getElem
  · simp
  · intro i h1 h2
    simp at h1
    simp [List.getElem?_eq_getElem h1]

/-- The choices on the axes after time, all indices. -/
theorem tail_all (B C T : Nat) (S : List Nat) :
    (List.range S.length).map (fun i => List.range ((B :: C :: T :: S).getD (i + 3) 0)) = S.map List.range :=
  map_getD S List.range

/-- The entries along time. -/
theorem entries_time {x : Tensor F} {B C T : Nat} {S : List Nat} (hx : x.shape = B :: C :: T :: S) (p q r : Nat)
    (rest : List Nat) (hr : rest.length = S.length) :
    entries x (along x.shape (· == 2) (p :: q :: r :: rest)) = (List.range T).map fun t => x.get (p :: q :: t :: rest) := by
  unfold entries
  rw [hx]
  simp only [List.length_cons, range_three, List.map_cons, List.map_map]
  have e : (List.range S.length).map (along (B :: C :: T :: S) (· == 2) (p :: q :: r :: rest) ∘ (· + 3)) = rest.map fun i => [i] := by
    rw [← hr, ← map_getD rest fun i => [i]]
    refine List.map_congr_left fun i _ => ?_
    simp [along]
  rw [e]
  simp only [along, slab, slab_single, List.getD_cons_succ, List.getD_cons_zero]
  simp [Function.comp_def, List.map_flatMap, ← List.map_eq_flatMap]

/-- The mean of equal values. -/
theorem mean_const [CharZero F] {l : List F} {v : F} (h : ∀ e ∈ l, e = v) (hl : l ≠ []) : mean l = v := by
  have e : l = List.replicate l.length v := List.eq_replicate_iff.2 ⟨rfl, h⟩
  have h0 : (l.length : F) ≠ 0 := by
    rw [Nat.cast_ne_zero]; intro h; exact hl (List.length_eq_zero_iff.1 h)
  unfold mean
  rw [e, List.sum_replicate, List.length_replicate, nsmul_eq_mul, mul_div_cancel_left₀ _ h0]

/-- The indices of a part of the clip that an operation over all times and places reads. -/
theorem entries_all {x : Tensor F} {B C T : Nat} {S : List Nat} (hx : x.shape = B :: C :: T :: S) (c0 c1 : List Nat)
    (pick : Nat → List Nat) (h0 : pick 0 = c0) (h1 : pick 1 = c1)
    (h2 : ∀ i, 2 ≤ i → pick i = List.range (x.shape.getD i 0)) :
    entries x pick = (slab (c0 :: c1 :: List.range T :: S.map List.range)).map x.get := by
  unfold entries
  conv_lhs => rw [show x.shape.length = S.length + 3 from by rw [hx]; rfl]
  simp only [range_three, List.map_cons, List.map_map, h0, h1]
  rw [h2 2 (by omega)]
  have e : (List.range S.length).map (pick ∘ (· + 3)) = S.map List.range := by
    rw [← tail_all B C T S]
    refine List.map_congr_left fun i _ => ?_
    show pick (i + 3) = _
    rw [h2 (i + 3) (by omega), hx]
  rw [e, hx]
  rfl

/-- If a frame is constant on the batch items and channels that are read, so are the entries read in it. -/
theorem entries_const [CharZero F] {x : Tensor F} {B C T : Nat} {S : List Nat} (hx : x.shape = B :: C :: T :: S) {t : Nat}
    (ht : t < T) (c0 c1 : List Nat) (pick : Nat → List Nat) (h0 : pick 0 = c0) (h1 : pick 1 = c1)
    (h2 : ∀ i, 2 ≤ i → pick i = List.range ((part x t 1).shape.getD i 0)) {v : F}
    (hv : ∀ p ∈ c0, ∀ q ∈ c1, ∀ rest, within rest S = true → x.get (p :: q :: t :: rest) = v)
    {p q : Nat} {rest : List Nat} (hp : p ∈ c0) (hq : q ∈ c1) (hr : within rest S = true) :
    mean (entries (part x t 1) pick) = v := by
  rw [entries_all (part_shape hx t 1) c0 c1 pick h0 h1 h2]
  apply mean_const
  · intro e he
    obtain ⟨idx, hi, rfl⟩ := List.mem_map.1 he
    rw [mem_slab] at hi
    cases hi with
    | cons hp hi =>
      cases hi with
      | cons hq hi =>
        cases hi with
        | cons hr hi =>
          rw [List.mem_range] at hr
          rw [part_get hx (by omega) _ _ _ hr]
          rename_i r rest'
          obtain rfl : r = 0 := by omega
          exact hv _ hp _ hq _ ((within_forall _ _).2 hi)
  · have : (p :: q :: 0 :: rest) ∈ slab (c0 :: c1 :: List.range 1 :: S.map List.range) := by
      rw [mem_slab]
      exact .cons hp (.cons hq (.cons (by simp) ((within_forall _ _).1 hr)))
    intro h
    rw [List.map_eq_nil_iff] at h
    rw [h] at this
    cases this

/-- The entry of the result of `forward_step` at some place, if `forward` on the frame gives `y`. -/
theorem step_get (l : Layer F) (tr : Bool) (s s' : Stats F) {x : Tensor F} {B C T : Nat} {S : List Nat}
    (hx : x.shape = B :: C :: T :: S) {t : Nat} (ht : t < T) (g : List Nat → F)
    (h : forward l tr s (part x t 1) = .ok (Tensor.of (B :: C :: 1 :: S) g, s')) :
    ∃ f, forwardStep l tr s (clipFrame x t) = .ok (f, s') ∧ ∀ p q rest, p < B → q < C → within rest S = true →
      f.get (p :: q :: rest) = g (p :: q :: 0 :: rest) := by
  rw [forwardStep_eq l tr s hx ht (select_clipFrame hx ht), h]
  have e : part (Tensor.of (B :: C :: 1 :: S) g) 0 1 = Tensor.of (B :: C :: 1 :: S) g :=
    (of_eq_part (by omega) fun p q r rest _ _ _ _ => by rw [Nat.zero_add]).symm
  have e2 := part_squeeze (x := Tensor.of (B :: C :: 1 :: S) g) rfl (t := 0) (by omega)
  rw [e] at e2
  refine ⟨Tensor.of (B :: C :: S) fun idx => (Tensor.of (B :: C :: 1 :: S) g).get (idx.insertIdx 2 0), ?_, ?_⟩
  · show (do let y ← (Tensor.of (B :: C :: 1 :: S) g).squeeze 2; pure (y, s')) = _
    rw [e2]; rfl
  · intro p q rest hp hq hr
    rw [Tensor.of_get, if_pos (by simp [within, hp, hq, hr])]
    show (Tensor.of (B :: C :: 1 :: S) g).get (p :: q :: 0 :: rest) = _
    rw [Tensor.of_get, if_pos (by simp [within, hp, hq, hr])]

/-! ### C89 fails -/

section ordered
variable [LinearOrder F] [IsStrictOrderedRing F]

/-- **C89 fails** for `nn.Softmax`, `nn.Softmin` and `nn.LogSoftmax` over time, which `continual` accepts: for every clip of
at least two frames, `forward_step` gives the constant 1 (`post 1`), and `forward` has another value in every place. -/
theorem C89_softmax_refuted (e post : F → F) (he : ∀ v, 0 < e v) (hpost : Function.Injective post) (dim : Int)
    (s : Stats F) (x : Tensor F) {B C T : Nat} {S : List Nat} (hx : x.shape = B :: C :: T :: S)
    (hdim : dim = 2 ∨ dim + x.shape.length = 2) (hT : 2 ≤ T) {t : Nat} (ht : t < T) :
    accepts (.soft e post (some dim)) = true ∧
    ∃ f y, forwardStep (.soft e post (some dim)) false s (clipFrame x t) = .ok (f, s) ∧
      forward (.soft e post (some dim)) false s x = .ok (y, s) ∧ ∀ p q rest, p < B → q < C → within rest S = true →
        f.get (p :: q :: rest) = post 1 ∧ y.get (p :: q :: t :: rest) ≠ post 1 := by
  refine ⟨rfl, ?_⟩
  have hd : softAxis x.shape.length (some dim) = .ok 2 := axis_is_time (by rw [hx]; simp) hdim
  have hlen : (part x t 1).shape.length = x.shape.length := by rw [part_shape hx, hx]; rfl
  obtain ⟨f, hf, hf'⟩ := step_get (.soft e post (some dim)) false s s hx ht _ (by
    unfold forward
    simp only [hlen, hd]
    unfold softAlong
    rw [part_shape hx])
  refine ⟨f, softAlong e post 2 x, hf, by unfold forward; simp only [hd], fun p q rest hp hq hr => ⟨?_, ?_⟩⟩
  · rw [hf' p q rest hp hq hr, ← part_shape hx t 1, entries_time (part_shape hx t 1) p q 0 rest (within_length hr)]
    simp [div_self (he _).ne']
  · unfold softAlong
    rw [Tensor.of_get, if_pos (by rw [hx]; simp [within, hp, hq, ht, hr]), entries_time hx p q t rest (within_length hr)]
    intro h
    have h1 := hpost h
    rw [List.map_map] at h1
    have hpos : ∀ v ∈ (List.range T).map (e ∘ fun t => x.get (p :: q :: t :: rest)), 0 ≤ v := by
      intro v hv
      obtain ⟨i, _, rfl⟩ := List.mem_map.1 hv
      exact (he _).le
    have hsum : e (x.get (p :: q :: t :: rest)) <
        ((List.range T).map (e ∘ fun t => x.get (p :: q :: t :: rest))).sum := by
      obtain ⟨u, hu, hne⟩ : ∃ u, u < T ∧ u ≠ t := by
        by_cases h0 : t = 0
        · exact ⟨1, by omega, by omega⟩
        · exact ⟨0, by omega, by omega⟩
      have hperm : (List.range T).Perm (t :: u :: ((List.range T).erase t).erase u) := by
        refine (List.perm_cons_erase (List.mem_range.2 ht)).trans (.cons _ ?_)
        exact List.perm_cons_erase ((List.mem_erase_of_ne hne).2 (List.mem_range.2 hu))
      rw [(hperm.map _).sum_eq]
      simp only [List.map_cons, List.sum_cons, Function.comp]
      have : 0 ≤ ((((List.range T).erase t).erase u).map (e ∘ fun t => x.get (p :: q :: t :: rest))).sum := by
        apply List.sum_nonneg
        intro v hv
        obtain ⟨i, _, rfl⟩ := List.mem_map.1 hv
        exact (he _).le
      have h2 := he (x.get (p :: q :: u :: rest))
      exact lt_add_of_pos_right _ (add_pos_of_pos_of_nonneg h2 this)
    have h3 : ((List.range T).map (e ∘ fun t => x.get (p :: q :: t :: rest))).sum ≠ 0 :=
      (lt_trans (he _) hsum).ne'
    rw [div_eq_one_iff_eq h3] at h1
    exact hsum.ne h1

end ordered

/-- **C89 fails** for `nn.GLU` over time: `forward_step` always raises, while `forward` works for an even number of frames. -/
theorem C89_glu_refuted (gate : F → F) (dim : Int) (tr : Bool) (s : Stats F) (x : Tensor F) {B C T : Nat} {S : List Nat}
    (hx : x.shape = B :: C :: T :: S) (hdim : dim = 2 ∨ dim + x.shape.length = 2) (hT : T % 2 = 0) {t : Nat} (ht : t < T) :
    forwardStep (.glu gate dim) tr s (clipFrame x t) = .error .runtime ∧ ∃ y, forward (.glu gate dim) tr s x = .ok (y, s) := by
  have hd : Tensor.axis x.shape.length dim = .ok 2 := axis_is_time (by rw [hx]; simp) hdim
  have hlen : (part x t 1).shape.length = x.shape.length := by rw [part_shape hx, hx]; rfl
  constructor
  · rw [forwardStep_eq _ tr s hx ht (select_clipFrame hx ht)]
    unfold forward
    simp only [hlen, hd]
    unfold gluAlong
    rw [part_shape hx]
    rfl
  · have : ∃ y, gluAlong gate 2 x = .ok y := by
      unfold gluAlong
      rw [show x.shape.getD 2 0 = T from by rw [hx]; rfl]
      simp [hT]
    obtain ⟨y, hy⟩ := this
    exact ⟨y, by unfold forward; simp only [hd, hy]; rfl⟩

/-- **C89 fails** for `nn.LayerNorm` over axes that include time: `forward_step` always raises (for clips of more than one
frame), while `forward` works. -/
theorem C89_layer_norm_refuted (ns : List Nat) (scale : F → F) (w b : List Nat → F) (tr : Bool) (s : Stats F) (x : Tensor F)
    {B C T : Nat} {S : List Nat} (hx : x.shape = B :: C :: T :: S) (hns : ns = T :: S ∨ ns = C :: T :: S ∨ ns = B :: C :: T :: S)
    (hT : T ≠ 1) {t : Nat} (ht : t < T) :
    forwardStep (.layerNorm ns scale w b) tr s (clipFrame x t) = .error .runtime ∧
      ∃ y, forward (.layerNorm ns scale w b) tr s x = .ok (y, s) := by
  have hT' : (1 : Nat) ≠ T := fun h => hT h.symm
  constructor
  · rw [forwardStep_eq _ tr s hx ht (select_clipFrame hx ht)]
    have : layerNorm ns scale w b (part x t 1) = .error .runtime := by
      unfold layerNorm
      rw [part_shape hx]
      rcases hns with rfl | rfl | rfl <;> simp [hT']
    unfold forward
    simp only [this]
    rfl
  · have : ∃ y, layerNorm ns scale w b x = .ok y := by
      unfold layerNorm
      rw [hx]
      rcases hns with rfl | rfl | rfl <;> simp
    obtain ⟨y, hy⟩ := this
    exact ⟨y, by unfold forward; simp only [hy]; rfl⟩

/-- **C89 fails** for `nn.GroupNorm`: wherever a frame is constant on a group but differs from the group's mean over the clip,
`forward_step` gives the bias there, and `forward` something else. -/
theorem C89_group_norm_refuted [CharZero F] (groups : Nat) (scale : F → F) (w b : Nat → F) (hs : ∀ v, scale v ≠ 0) (tr : Bool)
    (s : Stats F) (x : Tensor F) {B C T : Nat} {S : List Nat} (hx : x.shape = B :: C :: T :: S) {t p q : Nat} {rest : List Nat}
    (ht : t < T) (hp : p < B) (hq : q < C) (hr : within rest S = true) (hw : w q ≠ 0) {v : F}
    (hv : ∀ j ∈ group groups C q, ∀ rest, within rest S = true → x.get (p :: j :: t :: rest) = v)
    (hm : mean (groupEntries groups x p q) ≠ v) :
    ∃ f y, forwardStep (.groupNorm groups C scale w b) tr s (clipFrame x t) = .ok (f, s) ∧
      forward (.groupNorm groups C scale w b) tr s x = .ok (y, s) ∧ f.get (p :: q :: rest) = b q ∧
      y.get (p :: q :: t :: rest) ≠ b q := by
  have hqg : q ∈ group groups C q := by simp [group, hq]
  have h1 : (part x t 1).shape.getD 1 0 = C := by rw [part_shape hx]; rfl
  have h1' : x.shape.getD 1 0 = C := by rw [hx]; rfl
  obtain ⟨f, hf, hf'⟩ := step_get (.groupNorm groups C scale w b) tr s s hx ht (fun idx =>
      let ch := idx.getD 1 0
      let es := groupEntries groups (part x t 1) (idx.getD 0 0) ch
      normed scale (mean es) (var es) (w ch) (b ch) ((part x t 1).get idx)) (by
    unfold forward
    simp only [groupNorm, h1, if_true]
    rw [part_shape hx]
    rfl)
  refine ⟨f, _, hf, by unfold forward; simp only [groupNorm, h1', if_true]; rfl, ?_, ?_⟩
  · rw [hf' p q rest hp hq hr]
    simp only [List.getD_cons_succ, List.getD_cons_zero]
    have hmean : mean (groupEntries groups (part x t 1) p q) = v := by
      unfold groupEntries
      refine entries_const hx ht [p] (group groups C q) _ rfl (by simp only [h1]; rfl) ?_ ?_ (List.mem_singleton.2 rfl) hqg hr
      · intro i hi
        rw [if_neg (by omega), if_neg (by omega)]
      · intro p' hp' j hj rest hr
        rw [List.mem_singleton.1 hp']
        exact hv j hj rest hr
    rw [hmean, part_get hx (by omega) p q 0 (by omega), Nat.add_zero, hv q hqg rest hr, normed, sub_self]
    simp
  · rw [Tensor.of_get, if_pos (by rw [hx]; simp [within, hp, hq, ht, hr])]
    simp only [List.getD_cons_succ, List.getD_cons_zero]
    rw [hv q hqg rest hr, normed]
    intro h
    have h' := add_eq_right.1 h
    rcases mul_eq_zero.1 h' with h' | h'
    · rcases mul_eq_zero.1 h' with h' | h'
      · exact hm (sub_eq_zero.1 h').symm
      · exact hs _ h'
    · exact hw h'

/-- **C89 fails** for `nn.BatchNorm*d` with `track_running_stats=False` in evaluation mode — and, the theorem being about any
mode that uses the statistics of the input, for every batch normalisation in training mode: wherever a frame is constant on a
channel but differs from the channel's mean over the clip, `forward_step` gives the bias, and `forward` something else. -/
theorem C89_batch_norm_refuted [CharZero F] (c : NormCfg F) (tr : Bool) (hc : tr = true ∨ c.track = false)
    (hs : ∀ v, c.scale v ≠ 0) (s : Stats F) (x : Tensor F) {B T : Nat} {S : List Nat} (hx : x.shape = B :: c.features :: T :: S)
    (hrank : x.shape.length ∈ c.ranks) (h1 : B * S.prod ≠ 1) {t p q : Nat} {rest : List Nat} (ht : t < T) (hp : p < B)
    (hq : q < c.features) (hr : within rest S = true) (hw : c.weight q ≠ 0) {v : F}
    (hv : ∀ p < B, ∀ rest, within rest S = true → x.get (p :: q :: t :: rest) = v) (hm : mean (batchEntries x q) ≠ v) :
    accepts (.batchNorm c) = true ∧
    ∃ f y s1 s2, forwardStep (.batchNorm c) tr s (clipFrame x t) = .ok (f, s1) ∧
      forward (.batchNorm c) tr s x = .ok (y, s2) ∧ f.get (p :: q :: rest) = c.bias q ∧
      y.get (p :: q :: t :: rest) ≠ c.bias q := by
  refine ⟨rfl, ?_⟩
  have hlen : (part x t 1).shape.length = x.shape.length := by rw [part_shape hx, hx]; rfl
  have hf1 : (part x t 1).shape.getD 1 0 = c.features := by rw [part_shape hx]; rfl
  have hf2 : x.shape.getD 1 0 = c.features := by rw [hx]; rfl
  have hb : (tr || !c.track) = true := by rcases hc with h | h <;> simp [h]
  have hp1 : ((part x t 1).shape.eraseIdx 1).prod ≠ 1 := by
    rw [part_shape hx]
    simpa using h1
  have hp2 : (x.shape.eraseIdx 1).prod ≠ 1 := by
    rw [hx]
    simp only [List.eraseIdx_cons_succ, List.eraseIdx_cons_zero, List.prod_cons]
    intro h
    have hB := Nat.eq_one_of_mul_eq_one_right h
    have hTS := Nat.eq_one_of_mul_eq_one_left h
    exact h1 (by rw [hB, Nat.eq_one_of_mul_eq_one_left hTS])
  have out : ∀ z : Tensor F, z.shape.length ∈ c.ranks → z.shape.getD 1 0 = c.features → (z.shape.eraseIdx 1).prod ≠ 1 →
      ∃ s', batchNorm c tr s z = .ok (Tensor.of z.shape fun idx =>
        let ch := idx.getD 1 0
        let es := batchEntries z ch
        normed c.scale (mean es) (var es) (c.weight ch) (c.bias ch) (z.get idx), s') := by
    intro z hz1 hz2 hz3
    unfold batchNorm
    rw [if_neg (by simpa using hz1), if_neg (by simpa using hz2), if_pos hb, if_neg hz3]
    simp only
    split
    · exact ⟨_, rfl⟩
    · exact ⟨_, rfl⟩
  obtain ⟨s1, e1⟩ := out (part x t 1) (by rw [hlen]; exact hrank) hf1 hp1
  obtain ⟨s2, e2⟩ := out x hrank hf2 hp2
  obtain ⟨f, hf, hf'⟩ := step_get (.batchNorm c) tr s s1 hx ht _ (by
    show batchNorm c tr s (part x t 1) = _
    rw [e1, part_shape hx])
  refine ⟨f, _, s1, s2, hf, e2, ?_, ?_⟩
  · rw [hf' p q rest hp hq hr]
    simp only [List.getD_cons_succ, List.getD_cons_zero]
    have hmean : mean (batchEntries (part x t 1) q) = v := by
      unfold batchEntries
      refine entries_const hx ht (List.range B) [q] _ (by rw [part_shape hx]; rfl) rfl ?_ ?_ (List.mem_range.2 hp) (List.mem_singleton.2 rfl) hr
      · intro i hi
        rw [if_neg (by omega)]
      · intro p' hp' j hj rest hr
        rw [List.mem_singleton.1 hj]
        exact hv p' (List.mem_range.1 hp') rest hr
    rw [hmean, part_get hx (by omega) p q 0 (by omega), Nat.add_zero, hv p hp rest hr, normed, sub_self]
    simp
  · rw [Tensor.of_get, if_pos (by rw [hx]; simp [within, hp, hq, ht, hr])]
    simp only [List.getD_cons_succ, List.getD_cons_zero]
    rw [hv p hp rest hr, normed]
    intro h
    have h' := add_eq_right.1 h
    rcases mul_eq_zero.1 h' with h' | h'
    · rcases mul_eq_zero.1 h' with h' | h'
      · exact hm (sub_eq_zero.1 h').symm
      · exact hs _ h'
    · exact hw h'

/-- **C89 fails** for instance normalisations in training mode, which use the statistics of the input though running ones are
tracked: wherever a frame is constant on a channel of an item but differs from its mean over the clip, `forward_step` gives
the bias, and `forward` something else. -/
theorem C89_instance_norm_refuted [CharZero F] (c : NormCfg F) (hc : accepts (.instanceNorm c) = true)
    (hs : ∀ v, c.scale v ≠ 0) (s : Stats F) (x : Tensor F) {B T : Nat} {S : List Nat} (hx : x.shape = B :: c.features :: T :: S)
    (hrank : x.shape.length ∈ c.ranks) (h1 : S.prod ≠ 1) {t p q : Nat} {rest : List Nat} (ht : t < T) (hp : p < B)
    (hq : q < c.features) (hr : within rest S = true) (hw : c.weight q ≠ 0) {v : F}
    (hv : ∀ rest, within rest S = true → x.get (p :: q :: t :: rest) = v) (hm : mean (instEntries x p q) ≠ v) :
    ∃ f y s1 s2, forwardStep (.instanceNorm c) true s (clipFrame x t) = .ok (f, s1) ∧
      forward (.instanceNorm c) true s x = .ok (y, s2) ∧ f.get (p :: q :: rest) = c.bias q ∧
      y.get (p :: q :: t :: rest) ≠ c.bias q := by
  have hlen : (part x t 1).shape.length = x.shape.length := by rw [part_shape hx, hx]; rfl
  have hf1 : (part x t 1).shape.getD 1 0 = c.features := by rw [part_shape hx]; rfl
  have hf2 : x.shape.getD 1 0 = c.features := by rw [hx]; rfl
  have htrack : c.track = true := hc
  have hp1 : ((part x t 1).shape.drop 2).prod ≠ 1 := by
    rw [part_shape hx]
    simpa using h1
  have hp2 : (x.shape.drop 2).prod ≠ 1 := by
    rw [hx]
    simp only [List.drop_succ_cons, List.drop_zero, List.prod_cons]
    intro h
    exact h1 (Nat.eq_one_of_mul_eq_one_left h)
  have out : ∀ z : Tensor F, z.shape.length ∈ c.ranks → z.shape.getD 1 0 = c.features → (z.shape.drop 2).prod ≠ 1 →
      ∃ s', instanceNorm c true s z = .ok (Tensor.of z.shape fun idx =>
        let ch := idx.getD 1 0
        let es := instEntries z (idx.getD 0 0) ch
        normed c.scale (mean es) (var es) (c.weight ch) (c.bias ch) (z.get idx), s') := by
    intro z hz1 hz2 hz3
    unfold instanceNorm
    rw [if_neg (by simpa using hz1), if_neg (by simpa using hz2), if_pos (by simp), if_neg hz3]
    simp only
    split
    · exact ⟨_, rfl⟩
    · exact ⟨_, rfl⟩
  obtain ⟨s1, e1⟩ := out (part x t 1) (by rw [hlen]; exact hrank) hf1 hp1
  obtain ⟨s2, e2⟩ := out x hrank hf2 hp2
  obtain ⟨f, hf, hf'⟩ := step_get (.instanceNorm c) true s s1 hx ht _ (by
    show instanceNorm c true s (part x t 1) = _
    rw [e1, part_shape hx])
  refine ⟨f, _, s1, s2, hf, e2, ?_, ?_⟩
  · rw [hf' p q rest hp hq hr]
    simp only [List.getD_cons_succ, List.getD_cons_zero]
    have hmean : mean (instEntries (part x t 1) p q) = v := by
      unfold instEntries
      refine entries_const hx ht [p] [q] _ rfl rfl ?_ ?_ (List.mem_singleton.2 rfl) (List.mem_singleton.2 rfl) hr
      · intro i hi
        rw [if_neg (by omega), if_neg (by omega)]
      · intro p' hp' j hj rest hr
        rw [List.mem_singleton.1 hj, List.mem_singleton.1 hp']
        exact hv rest hr
    rw [hmean, part_get hx (by omega) p q 0 (by omega), Nat.add_zero, hv rest hr, normed, sub_self]
    simp
  · rw [Tensor.of_get, if_pos (by rw [hx]; simp [within, hp, hq, ht, hr])]
    simp only [List.getD_cons_succ, List.getD_cons_zero]
    rw [hv rest hr, normed]
    intro h
    have h' := add_eq_right.1 h
    rcases mul_eq_zero.1 h' with h' | h'
    · rcases mul_eq_zero.1 h' with h' | h'
      · exact hm (sub_eq_zero.1 h').symm
      · exact hs _ h'
    · exact hw h'

/-- **C89 fails** for instance normalisations in networks without axes of space, in training mode: `forward_step` raises on every
frame, since torch takes no statistics of a single entry; `forward` takes clips of two frames and more. -/
theorem C89_instance_norm_1d_refuted (c : NormCfg F) (s : Stats F) (x : Tensor F) {B T : Nat} {S : List Nat}
    (hx : x.shape = B :: c.features :: T :: S) (hrank : x.shape.length ∈ c.ranks) (h1 : S.prod = 1) (hT : 2 ≤ T) {t : Nat}
    (ht : t < T) :
    forwardStep (.instanceNorm c) true s (clipFrame x t) = .error .value ∧
      ∃ y s', forward (.instanceNorm c) true s x = .ok (y, s') := by
  have hlen : (part x t 1).shape.length = x.shape.length := by rw [part_shape hx, hx]; rfl
  have hf1 : (part x t 1).shape.getD 1 0 = c.features := by rw [part_shape hx]; rfl
  have hf2 : x.shape.getD 1 0 = c.features := by rw [hx]; rfl
  constructor
  · rw [forwardStep_eq _ true s hx ht (select_clipFrame hx ht)]
    have : forward (.instanceNorm c) true s (part x t 1) = .error .value := by
      show instanceNorm c true s (part x t 1) = _
      unfold instanceNorm
      rw [if_neg (by rw [hlen]; simpa using hrank), if_neg (by simpa using hf1), if_pos (by simp),
        if_pos (by rw [part_shape hx]; simpa using h1)]
    rw [this]
    rfl
  · show ∃ y s', instanceNorm c true s x = .ok (y, s')
    unfold instanceNorm
    rw [if_neg (by simpa using hrank), if_neg (by simpa using hf2), if_pos (by simp),
      if_neg (by rw [hx]; simp [h1]; omega)]
    simp only
    split
    · exact ⟨_, _, rfl⟩
    · exact ⟨_, _, rfl⟩

/-! ### Cases -/

/-- Two batch items, two channels, four frames. -/
def exNaiveClip : Tensor Rat := Tensor.of [2, 2, 4] fun idx => 100 * idx.getD 0 0 + 10 * idx.getD 1 0 + idx.getD 2 0

/-- One batch item, one channel, two frames of three places. -/
def exPlaces : Tensor Rat := Tensor.of [1, 1, 2, 3] fun idx => 10 * idx.getD 2 0 + idx.getD 3 0

/-- Two batch items, one channel, two frames; each frame is constant. -/
def exConstFrames : Tensor Rat := Tensor.of [2, 1, 2] fun idx => idx.getD 2 0

/-- `nn.BatchNorm1d(2)`, with a simple scaling function. -/
def exBatchNorm : NormCfg Rat := ⟨[2, 3], 2, fun v => 1 / (v * v + 1), some (1 / 10), true, fun _ => 3, fun ch => ch⟩

/-- Fresh running statistics. -/
def exStats : Stats Rat := ⟨fun _ => 0, fun _ => 1, 0⟩

example : ∃ y, forward (.batchNorm exBatchNorm) false exStats exNaiveClip = .ok (y, exStats) ∧
    stream (.batchNorm exBatchNorm) false exStats (clipFrames exNaiveClip) = .ok (clipFrames y, exStats) ∧
    y.get [1, 1, 2] = 112 * (1 / 2) * 3 + 1 :=
  ⟨_, rfl, C89_stream_partial (.batchNorm exBatchNorm) exStats exNaiveClip (B := 2) (C := 2) (T := 4) (S := []) rfl rfl rfl,
    by decide +kernel⟩

/-- `nn.LayerNorm(3)`, with a simple scaling function. -/
def exLayerNorm : Layer Rat := .layerNorm [3] (fun v => 1 / (v * v + 1)) (fun _ => 1) (fun i => i.getD 0 0)

example : ∃ y, forward exLayerNorm false exStats exPlaces =
      .ok (y, exStats) ∧
    stream exLayerNorm false exStats (clipFrames exPlaces) =
      .ok (clipFrames y, exStats) ∧ y.get [0, 0, 1, 2] ≠ y.get [0, 0, 1, 0] :=
  ⟨_, rfl, C89_stream_partial exLayerNorm exStats exPlaces (B := 1) (C := 1) (T := 2) (S := [3]) rfl (by show 1 + 3 ≤ 4; omega) rfl,
    by decide +kernel⟩

example : Timeless (.soft (fun v : Rat => v * v + 1) id (some (-2))) exNaiveClip.shape.length ∧
    ¬ Timeless (.soft (fun v : Rat => v * v + 1) id (some (-1))) exNaiveClip.shape.length := by
  constructor
  · show (-2 : Int) ≠ 2 ∧ (-2 : Int) + 3 ≠ 2
    decide
  · show ¬ ((-1 : Int) ≠ 2 ∧ (-1 : Int) + 3 ≠ 2)
    decide

example : (∀ v : Rat, 0 < v * v + 1) ∧ (-1 : Int) + exNaiveClip.shape.length = 2 :=
  ⟨fun v => by nlinarith [mul_self_nonneg v], rfl⟩

example : ((2 : Int) = 2 ∨ (2 : Int) + exNaiveClip.shape.length = 2) ∧ (4 : Nat) % 2 = 0 := ⟨.inl rfl, rfl⟩

example : exPlaces.shape = 1 :: 1 :: 2 :: [3] ∧ [2, 3] = 2 :: [3] := ⟨rfl, rfl⟩

example : (∀ j ∈ group 1 1 0, ∀ rest, within rest [] = true → exConstFrames.get (0 :: j :: 1 :: rest) = 1) ∧
    mean (groupEntries 1 exConstFrames 0 0) ≠ 1 := by
  constructor
  · intro j hj rest hr
    rw [within_nil] at hr
    subst hr
    obtain rfl : j = 0 := by
      have : group 1 1 0 = [0] := by decide
      rw [this] at hj
      simpa using hj
    decide +kernel
  · decide +kernel

example : (∀ p < 2, ∀ rest, within rest [] = true → exConstFrames.get (p :: 0 :: 1 :: rest) = 1) ∧
    mean (batchEntries exConstFrames 0) ≠ 1 ∧ 2 * ([] : List Nat).prod ≠ 1 := by
  refine ⟨fun p hp rest hr => ?_, by decide +kernel, by decide⟩
  rw [within_nil] at hr
  subst hr
  obtain rfl | rfl : p = 0 ∨ p = 1 := by omega
  · decide +kernel
  · decide +kernel

/-- One item, one channel, two frames of three places; each frame is constant. -/
def exRooms : Tensor Rat := Tensor.of [1, 1, 2, 3] fun idx => idx.getD 2 0

/-- `nn.InstanceNorm2d(1, track_running_stats=True)` and `nn.InstanceNorm1d(1, track_running_stats=True)`. -/
def exInstanceNorm (rank : Nat) : NormCfg Rat := ⟨[rank], 1, fun v => 1 / (v * v + 1), some (1 / 10), true, fun _ => 3, fun ch => ch + 7⟩

example : ∃ f y s1 s2, forwardStep (.instanceNorm (exInstanceNorm 4)) true exStats (clipFrame exRooms 1) = .ok (f, s1) ∧
    forward (.instanceNorm (exInstanceNorm 4)) true exStats exRooms = .ok (y, s2) ∧ f.get [0, 0, 2] = 7 ∧ y.get [0, 0, 1, 2] ≠ 7 := by
  have h := C89_instance_norm_refuted (exInstanceNorm 4) rfl
    (fun v => by show 1 / (v * v + 1) ≠ 0; have := mul_self_nonneg v; positivity) exStats exRooms (B := 1) (T := 2) (S := [3]) rfl
    (by simp [exInstanceNorm, exRooms, Tensor.of]) (by decide) (t := 1) (p := 0) (q := 0) (rest := [2]) (by omega) (by omega)
    (by decide) rfl (by show (3 : Rat) ≠ 0; norm_num) (v := 1)
    (by
      intro rest hr
      rw [exRooms, Tensor.of_get, if_pos (by simpa [within] using hr)]
      simp) (by decide +kernel)
  simpa [exInstanceNorm] using h

example : forwardStep (.instanceNorm (exInstanceNorm 3)) true exStats (clipFrame exConstFrames 1) = .error .value :=
  (C89_instance_norm_1d_refuted (exInstanceNorm 3) exStats exConstFrames (B := 2) (T := 2) (S := []) rfl
    (by simp [exInstanceNorm, exConstFrames, Tensor.of]) rfl (by omega) (t := 1) (by omega)).1

/-! ### C90: running statistics -/

/-- **C90**, the part that holds: in evaluation mode no stream of any length changes the running statistics of any module. -/
theorem C90_eval_partial (l : Layer F) : ∀ (xs ys : List (Tensor F)) (s s' : Stats F),
    stream l false s xs = .ok (ys, s') → s' = s
  | [], _, s, s', h => by cases h; rfl
  | x :: xs, ys, s, s', h => by
    unfold stream at h
    cases hx : forwardStep l false s x with
    | error e => rw [hx] at h; cases h
    | ok p =>
      obtain ⟨y, s1⟩ := p
      rw [hx] at h
      change (do let (ys, s) ← stream l false s1 xs; pure (y :: ys, s)) = _ at h
      have hs1 : s1 = s := by
        unfold forwardStep at hx
        cases hu : x.unsqueeze 2 with
        | error e => rw [hu] at hx; cases hx
        | ok z =>
          rw [hu] at hx
          change (do let (y, s) ← forward l false s z; let y ← y.squeeze 2; pure (y, s)) = _ at hx
          cases hf : forward l false s z with
          | error e => rw [hf] at hx; cases hx
          | ok p =>
            obtain ⟨y', s2⟩ := p
            rw [hf] at hx
            change (do let y ← y'.squeeze 2; pure (y, s2)) = _ at hx
            cases hq : y'.squeeze 2 with
            | error e => rw [hq] at hx; cases hx
            | ok y'' =>
              rw [hq] at hx
              cases hx
              exact forward_stats l s hf
      subst hs1
      cases hr : stream l false s1 xs with
      | error e => rw [hr] at h; cases h
      | ok p =>
        obtain ⟨ys', s2⟩ := p
        rw [hr] at h
        cases h
        exact C90_eval_partial l xs ys' s1 _ hr

/-- **C90**, whole clips: `forward_steps` is `forward`, also in training mode: the same result and the same statistics. -/
theorem C90_clip (l : Layer F) (training : Bool) (s : Stats F) (x : Tensor F) :
    forwardSteps l training s x = forward l training s x := rfl

/-- **C90 fails** where a frame has one value per channel (batch size one and one place): in training mode `forward_step` of a
batch normalisation always raises `ValueError`, while `forward` on a clip of several frames works. -/
theorem C90_single_refuted (c : NormCfg F) (s : Stats F) (x : Tensor F) {B T : Nat} {S : List Nat}
    (hx : x.shape = B :: c.features :: T :: S) (hrank : x.shape.length ∈ c.ranks) (h1 : B * S.prod = 1) (hT : T ≠ 1) {t : Nat}
    (ht : t < T) : forwardStep (.batchNorm c) true s (clipFrame x t) = .error .value ∧
      ∃ y s', forward (.batchNorm c) true s x = .ok (y, s') := by
  constructor
  · rw [forwardStep_eq _ true s hx ht (select_clipFrame hx ht)]
    have : batchNorm c true s (part x t 1) = .error .value := by
      unfold batchNorm
      rw [if_neg, if_neg, if_pos (by rfl), if_pos]
      · rw [part_shape hx]
        simpa using h1
      · rw [part_shape hx]
        simp
      · rw [part_shape hx]
        rw [hx] at hrank
        simpa using hrank
    show (do let (y, s) ← batchNorm c true s (part x t 1); let y ← y.squeeze 2; pure (y, s)) = _
    rw [this]
    rfl
  · show ∃ y s', batchNorm c true s x = .ok (y, s')
    unfold batchNorm
    rw [if_neg (by simpa using hrank), if_neg (by rw [hx]; simp), if_pos (by rfl), if_neg]
    · simp only
      split
      · exact ⟨_, _, rfl⟩
      · exact ⟨_, _, rfl⟩
    · rw [hx]
      simp only [List.eraseIdx_cons_succ, List.eraseIdx_cons_zero, List.prod_cons]
      intro h
      exact hT (Nat.eq_one_of_mul_eq_one_right (Nat.eq_one_of_mul_eq_one_left h))

example : (Tensor.of [1, 2, 4] fun _ => (1 : Rat)).shape.length ∈ exBatchNorm.ranks ∧ 1 * ([] : List Nat).prod = 1 :=
  ⟨by decide, rfl⟩

end CoInf.NaiveNd

namespace CoInf.Spec
variable {F : Type} [Field F]

/-- The mean of a frame on channel `ch`: over all batch items and places. -/
def frameMean (f : Tensor F) (ch : Nat) : F := NaiveNd.mean (NaiveNd.batchEntries f ch)

/-- Exponentially moving (or, with `1 / k`, cumulative) average: `m` after the values `vs`, `k` values having come before. -/
def moving (r : Nat → F) : Nat → F → List F → F
  | _, m, [] => m
  | k, m, v :: vs => moving r (k + 1) ((1 - r (k + 1)) * m + r (k + 1) * v) vs

end CoInf.Spec

namespace CoInf.NaiveNd
open Spec Tensor
variable {F : Type} [Field F]

theorem clipFrame_get {x : Tensor F} {B C T : Nat} {S : List Nat} (hx : x.shape = B :: C :: T :: S) {t : Nat} (ht : t < T) :
    clipFrame x t = Tensor.of (B :: C :: S) fun idx => x.get (idx.insertIdx 2 t) := by
  have : x.select 2 t = .ok (Tensor.of (B :: C :: S) fun idx => x.get (idx.insertIdx 2 t)) := by
    unfold Tensor.select
    rw [hx]
    simp [ht]
  rw [clipFrame, this]
  rfl

/-- A batch normalisation given the clip of one frame reads the entries of the frame. -/
theorem batchEntries_frame {x : Tensor F} {B C T : Nat} {S : List Nat} (hx : x.shape = B :: C :: T :: S) {t : Nat} (ht : t < T)
    {ch : Nat} (hch : ch < C) : batchEntries (part x t 1) ch = batchEntries (clipFrame x t) ch := by
  unfold batchEntries
  rw [entries_all (part_shape hx t 1) (List.range B) [ch] _ (by rw [part_shape hx]; rfl) rfl
    (fun i hi => by rw [if_neg (by omega)])]
  rw [clipFrame_get hx ht]
  unfold entries
  rw [of_shape]
  have e : (List.range (B :: C :: S).length).map
      (fun a => if a = 1 then [ch] else List.range ((B :: C :: S).getD a 0)) = List.range B :: [ch] :: S.map List.range := by
    rw [show (B :: C :: S).length = S.length + 1 + 1 from rfl, List.range_succ_eq_map, List.range_succ_eq_map]
    simp only [List.map_cons, List.map_map]
    congr 1
    congr 1
    rw [← map_getD S List.range]
    refine List.map_congr_left fun i _ => ?_
    simp
  rw [e]
  simp only [slab, List.map_flatMap, List.map_map, List.range_one, List.flatMap_cons, List.flatMap_nil, List.append_nil]
  refine List.flatMap_congr fun p hp => List.map_congr_left fun rest hr => ?_
  have hr' : within rest S = true := (within_forall _ _).2 ((mem_slab _ _).1 hr)
  simp only [Function.comp]
  rw [part_get hx (by omega) p ch 0 (by omega), Tensor.of_get, if_pos (by simp [within, List.mem_range.1 hp, hch, hr'])]
  rfl

/-- Training-mode stepping with running statistics. -/
theorem batchNorm_step (c : NormCfg F) (hc : c.track = true) (s : Stats F) {x : Tensor F} {B T : Nat} {S : List Nat}
    (hx : x.shape = B :: c.features :: T :: S) (hrank : x.shape.length ∈ c.ranks) (h1 : B * S.prod ≠ 1) {t : Nat} (ht : t < T) :
    ∃ f s', forwardStep (.batchNorm c) true s (clipFrame x t) = .ok (f, s') ∧ s'.count = s.count + 1 ∧ ∀ ch, ch < c.features →
      s'.mean ch = (1 - factor c (s.count + 1)) * s.mean ch + factor c (s.count + 1) * frameMean (clipFrame x t) ch := by
  have hlen : (part x t 1).shape.length = x.shape.length := by rw [part_shape hx, hx]; rfl
  obtain ⟨f, hf, _⟩ := step_get (.batchNorm c) true s _ hx ht _ (by
    show batchNorm c true s (part x t 1) = _
    unfold batchNorm
    rw [if_neg (by rw [hlen]; simpa using hrank), if_neg (by rw [part_shape hx]; simp), if_pos (by rfl),
      if_neg (by rw [part_shape hx]; simpa using h1)]
    simp only [Bool.true_and, hc, if_true]
    rw [part_shape hx])
  refine ⟨f, _, hf, rfl, fun ch hch => ?_⟩
  simp only [frameMean]
  rw [batchEntries_frame hx ht hch]

theorem batchNorm_stream (c : NormCfg F) (hc : c.track = true) {x : Tensor F} {B T : Nat} {S : List Nat}
    (hx : x.shape = B :: c.features :: T :: S) (hrank : x.shape.length ∈ c.ranks) (h1 : B * S.prod ≠ 1) :
    ∀ (ts : List Nat) (s : Stats F), (∀ t ∈ ts, t < T) →
      ∃ ys s', stream (.batchNorm c) true s (ts.map (clipFrame x)) = .ok (ys, s') ∧ s'.count = s.count + ts.length ∧
        ∀ ch, ch < c.features → s'.mean ch = moving (factor c) s.count (s.mean ch) (ts.map fun t => frameMean (clipFrame x t) ch)
  | [], s, _ => ⟨[], s, rfl, rfl, fun _ _ => rfl⟩
  | t :: ts, s, ht => by
    obtain ⟨f, s1, hf, hk, hm⟩ := batchNorm_step c hc s hx hrank h1 (ht t (by simp))
    obtain ⟨ys, s2, hs, hk2, hm2⟩ := batchNorm_stream c hc hx hrank h1 ts s1 fun t h => ht t (by simp [h])
    refine ⟨f :: ys, s2, ?_, by rw [hk2, hk, List.length_cons]; omega, fun ch hch => ?_⟩
    · rw [List.map_cons]
      unfold stream
      rw [hf]
      show (do let (ys, s) ← stream _ true s1 _; pure (f :: ys, s)) = _
      rw [hs]
      rfl
    · rw [hm2 ch hch, hm ch hch, hk]
      rfl

/-! Means over a clip -/

theorem sum_slab_append (g : List Nat → F) (c0 c1 c c' : List Nat) (cs : List (List Nat)) :
    ((slab (c0 :: c1 :: (c ++ c') :: cs)).map g).sum =
      ((slab (c0 :: c1 :: c :: cs)).map g).sum + ((slab (c0 :: c1 :: c' :: cs)).map g).sum := by
  simp only [slab, List.map_flatMap, List.map_map, List.flatMap_append, List.map_append]
  induction c0 with
  | nil => simp
  | cons p c0 ih =>
    simp only [List.flatMap_cons, List.sum_append] at ih ⊢
    rw [ih]
    have : ∀ (u v : Nat → List F) (c1 : List Nat), (c1.flatMap fun q => u q ++ v q).sum = (c1.flatMap u).sum + (c1.flatMap v).sum := by
      intro u v c1
      induction c1 with
      | nil => simp
      | cons q c1 ih => simp only [List.flatMap_cons, List.sum_append, ih]; ring
    rw [this]
    ring

theorem length_slab (cs : List (List Nat)) : (slab cs).length = (cs.map List.length).prod := by
  induction cs with
  | nil => rfl
  | cons c cs ih =>
    rw [slab, List.length_flatMap]
    simp [ih]

theorem sum_slab_range (g : List Nat → F) (c0 c1 : List Nat) (T : Nat) (cs : List (List Nat)) :
    ((slab (c0 :: c1 :: List.range T :: cs)).map g).sum =
      ((List.range T).map fun t => ((slab (c0 :: c1 :: [t] :: cs)).map g).sum).sum := by
  induction T with
  | zero =>
    have : ∀ c : List Nat, (c.flatMap fun _ => ([] : List (List Nat))) = [] := fun c => List.flatMap_eq_nil_iff.2 fun _ _ => rfl
    simp [slab, this]
  | succ T ih => rw [List.range_succ, sum_slab_append, ih]; simp

/-- The mean over a clip is the average of the means of its frames. -/
theorem mean_clip [CharZero F] {x : Tensor F} {B C T : Nat} {S : List Nat} (hx : x.shape = B :: C :: T :: S)
    {ch : Nat} (hch : ch < C) :
    mean (batchEntries x ch) = ((List.range T).map fun t => frameMean (clipFrame x t) ch).sum / T := by
  have e1 : batchEntries x ch = (slab (List.range B :: [ch] :: List.range T :: S.map List.range)).map x.get := by
    unfold batchEntries
    exact entries_all hx (List.range B) [ch] _ (by rw [hx]; rfl) rfl (fun i hi => by rw [if_neg (by omega)])
  have e2 : ∀ t, t < T → frameMean (clipFrame x t) ch =
      ((slab (List.range B :: [ch] :: [t] :: S.map List.range)).map x.get).sum / (B * S.prod : Nat) := by
    intro t ht
    rw [frameMean, ← batchEntries_frame hx ht hch]
    have : batchEntries (part x t 1) ch = (slab (List.range B :: [ch] :: [0] :: S.map List.range)).map (part x t 1).get := by
      unfold batchEntries
      exact entries_all (part_shape hx t 1) (List.range B) [ch] _ (by rw [part_shape hx]; rfl) rfl
        (fun i hi => by rw [if_neg (by omega)])
    rw [this, slab_time (List.range B) [ch] 0 t (S.map List.range) (part x t 1).get x.get
      fun p q rest => part_get hx (by omega) p q 0 (by omega) rest]
    unfold mean
    rw [List.length_map, length_slab]
    simp [Function.comp_def]
  rw [e1]
  unfold mean
  rw [List.length_map, length_slab, sum_slab_range]
  rw [List.map_congr_left fun t ht => e2 t (List.mem_range.1 ht)]
  simp only [List.map_cons, List.length_range, List.map_map, List.prod_cons, List.length_cons, List.length_nil,
    Function.comp_def, List.map_id', div_eq_mul_inv, List.sum_map_mul_right]
  push_cast
  rw [mul_inv, mul_inv, mul_inv, mul_inv]
  ring

/-- **C90**, running means, as they are: stepping through a clip in training mode counts every frame as a batch and moves the
running mean once per frame, while `forward` counts one batch and moves it once, towards the average of the frames' means. -/
theorem C90_running_mean [CharZero F] (c : NormCfg F) (hc : c.track = true) (s : Stats F) (x : Tensor F) {B T : Nat} {S : List Nat}
    (hx : x.shape = B :: c.features :: T :: S) (hrank : x.shape.length ∈ c.ranks) (h1 : B * S.prod ≠ 1) :
    ∃ ys s1 y s2, stream (.batchNorm c) true s (clipFrames x) = .ok (ys, s1) ∧ forward (.batchNorm c) true s x = .ok (y, s2) ∧
      s1.count = s.count + T ∧ s2.count = s.count + 1 ∧ ∀ ch, ch < c.features →
        s1.mean ch = moving (factor c) s.count (s.mean ch) ((clipFrames x).map fun f => frameMean f ch) ∧
        s2.mean ch = (1 - factor c (s.count + 1)) * s.mean ch +
          factor c (s.count + 1) * (((clipFrames x).map fun f => frameMean f ch).sum / T) := by
  have hT : x.shape.getD 2 0 = T := by rw [hx]; rfl
  obtain ⟨ys, s1, hs, hk, hm⟩ := batchNorm_stream c hc hx hrank h1 (List.range T) s fun t ht => List.mem_range.1 ht
  have h2 : (x.shape.eraseIdx 1).prod ≠ 1 := by
    rw [hx]
    simp only [List.eraseIdx_cons_succ, List.eraseIdx_cons_zero, List.prod_cons]
    intro h
    have hB := Nat.eq_one_of_mul_eq_one_right h
    have hTS := Nat.eq_one_of_mul_eq_one_left h
    exact h1 (by rw [hB, Nat.eq_one_of_mul_eq_one_left hTS])
  have hf : ∃ y s2, forward (.batchNorm c) true s x = .ok (y, s2) ∧ s2.count = s.count + 1 ∧ ∀ ch, s2.mean ch =
      (1 - factor c (s.count + 1)) * s.mean ch + factor c (s.count + 1) * mean (batchEntries x ch) := by
    show ∃ y s2, batchNorm c true s x = .ok (y, s2) ∧ _
    unfold batchNorm
    rw [if_neg (by simpa using hrank), if_neg (by rw [hx]; simp), if_pos (by rfl), if_neg h2]
    simp only [Bool.true_and, hc, if_true]
    exact ⟨_, _, rfl, rfl, fun _ => rfl⟩
  obtain ⟨y, s2, hy, hk2, hm2⟩ := hf
  refine ⟨ys, s1, y, s2, by rw [clipFrames, hT]; exact hs, hy, by rw [hk, List.length_range], hk2, fun ch hch => ⟨?_, ?_⟩⟩
  · rw [hm ch hch, clipFrames, hT, List.map_map]
    rfl
  · rw [hm2, mean_clip hx hch, clipFrames, hT, List.map_map]
    rfl

theorem moving_const (r μ : F) : ∀ (vs : List F) (k : Nat) (m : F), (∀ v ∈ vs, v = μ) →
    moving (fun _ => r) k m vs = μ + (1 - r) ^ vs.length * (m - μ)
  | [], _, m, _ => by simp [moving]
  | v :: vs, k, m, h => by
    rw [moving, moving_const r μ vs _ _ fun v hv => h v (by simp [hv]), h v (by simp), List.length_cons]
    ring

theorem moving_cumulative [CharZero F] : ∀ (vs : List F) (k : Nat) (m : F),
    moving (fun k : Nat => 1 / (k : F)) k m vs * ((k + vs.length : Nat) : F) = m * k + vs.sum
  | [], k, m => by simp [moving]
  | v :: vs, k, m => by
    have h : ((k : F) + 1) ≠ 0 := by exact_mod_cast Nat.succ_ne_zero k
    have e := moving_cumulative vs (k + 1) ((1 - 1 / ((k + 1 : Nat) : F)) * m + 1 / ((k + 1 : Nat) : F) * v)
    rw [moving, List.length_cons, show k + (vs.length + 1) = k + 1 + vs.length from by omega, e, List.sum_cons]
    push_cast
    field_simp
    ring

/-- **C90**, the cumulative average (`momentum=None`) of fresh statistics: the running mean after stepping through a clip is
the one after `forward` on the clip. -/
theorem C90_cumulative_partial [CharZero F] (c : NormCfg F) (hc : c.track = true) (hm : c.momentum = none) (s : Stats F)
    (h0 : s.count = 0) (x : Tensor F) {B T : Nat} {S : List Nat} (hT : 0 < T)
    (hx : x.shape = B :: c.features :: T :: S) (hrank : x.shape.length ∈ c.ranks) (h1 : B * S.prod ≠ 1) :
    ∃ ys s1 y s2, stream (.batchNorm c) true s (clipFrames x) = .ok (ys, s1) ∧ forward (.batchNorm c) true s x = .ok (y, s2) ∧
      ∀ ch, ch < c.features → s1.mean ch = s2.mean ch := by
  obtain ⟨ys, s1, y, s2, hs, hf, _, _, h⟩ := C90_running_mean c hc s x hx hrank h1
  refine ⟨ys, s1, y, s2, hs, hf, fun ch hch => ?_⟩
  obtain ⟨e1, e2⟩ := h ch hch
  have hfac : factor c = fun k : Nat => 1 / (k : F) := by funext k; simp [factor, hm]
  have hlen : ((clipFrames x).map fun f => frameMean f ch).length = T := by
    rw [List.length_map, clipFrames, List.length_map, List.length_range, hx]
    rfl
  rw [h0, hfac] at e1 e2
  have e := moving_cumulative ((clipFrames x).map fun f => frameMean f ch) 0 (s.mean ch)
  rw [← e1, hlen] at e
  have hT' : (T : F) ≠ 0 := by rw [Nat.cast_ne_zero]; omega
  rw [e2, eq_comm]
  push_cast at e ⊢
  field_simp
  simp only [Nat.cast_zero, mul_zero, zero_add] at e
  simp [← e, mul_comm]

/-- **C90 fails** for every clip of at least two frames that all have the same mean, other than the running one: with
`0 < momentum < 1`, stepping through it and `forward` on it give different running means (and different counts of batches). -/
theorem C90_refuted [CharZero F] (c : NormCfg F) (hc : c.track = true) (r : F) (hr : c.momentum = some r) (s : Stats F)
    (x : Tensor F) {B T : Nat} {S : List Nat} (hT : 2 ≤ T) (hpow : (1 - r) ^ T ≠ 1 - r)
    (hx : x.shape = B :: c.features :: T :: S) (hrank : x.shape.length ∈ c.ranks) (h1 : B * S.prod ≠ 1) {ch : Nat}
    (hch : ch < c.features) {μ : F} (hμ : ∀ f ∈ clipFrames x, frameMean f ch = μ) (hne : s.mean ch ≠ μ) :
    ∃ ys s1 y s2, stream (.batchNorm c) true s (clipFrames x) = .ok (ys, s1) ∧ forward (.batchNorm c) true s x = .ok (y, s2) ∧
      s1.mean ch ≠ s2.mean ch ∧ s1.count ≠ s2.count := by
  obtain ⟨ys, s1, y, s2, hs, hf, k1, k2, h⟩ := C90_running_mean c hc s x hx hrank h1
  refine ⟨ys, s1, y, s2, hs, hf, ?_, by omega⟩
  obtain ⟨e1, e2⟩ := h ch hch
  have hfac : factor c = fun _ => r := by funext k; simp [factor, hr]
  have hlen : ((clipFrames x).map fun f => frameMean f ch).length = T := by
    rw [List.length_map, clipFrames, List.length_map, List.length_range, hx]
    rfl
  have hall : ∀ v ∈ (clipFrames x).map fun f => frameMean f ch, v = μ := by
    intro v hv
    obtain ⟨f, hf, rfl⟩ := List.mem_map.1 hv
    exact hμ f hf
  have hT' : (T : F) ≠ 0 := by rw [Nat.cast_ne_zero]; omega
  rw [hfac, moving_const r μ _ _ _ hall, hlen] at e1
  rw [List.eq_replicate_iff.2 ⟨hlen, hall⟩, List.sum_replicate, nsmul_eq_mul, mul_div_cancel_left₀ _ hT', hfac] at e2
  rw [e1, e2]
  intro h
  have : ((1 - r) ^ T - (1 - r)) * (s.mean ch - μ) = 0 := by
    have : μ + (1 - r) ^ T * (s.mean ch - μ) - ((1 - r) * s.mean ch + r * μ) = 0 := sub_eq_zero.2 h
    rw [← this]; ring
  rcases mul_eq_zero.1 this with h | h
  · exact hpow (sub_eq_zero.1 h)
  · exact hne (sub_eq_zero.1 h)

example : (1 - (1 / 10 : Rat)) ^ 4 ≠ 1 - 1 / 10 ∧ exNaiveClip.shape = 2 :: exBatchNorm.features :: 4 :: [] ∧
    exNaiveClip.shape.length ∈ exBatchNorm.ranks := ⟨by norm_num, rfl, by decide⟩

/-- Frames of equal mean. -/
def exLevel : Tensor Rat := Tensor.of [2, 2, 3] fun idx => 5 + (2 * idx.getD 0 0 - 1) * idx.getD 2 0

example : (∀ f ∈ clipFrames exLevel, frameMean f 1 = 5) ∧ exStats.mean 1 ≠ 5 := by
  constructor
  · intro f hf
    obtain ⟨t, ht, rfl⟩ := List.mem_map.1 hf
    have ht : t < 3 := List.mem_range.1 ht
    obtain rfl | rfl | rfl : t = 0 ∨ t = 1 ∨ t = 2 := by omega
    all_goals decide +kernel
  · decide

end CoInf.NaiveNd
