/-
Properties C05, C44, C46, C47, C48: dilated pooling, fills of max pooling, state size, strided kernels of
size one and padding beyond the kernel.
-/
import Verif.Lemmas.SlideDil
import Verif.Lemmas.MaxPool
import Verif.Lemmas.Held

set_option autoImplicit false

namespace CoInf
open Spec
variable {X Y : Type}

/-! ### C05 -/

/-- **C05** fails for every kernel size `K ≥ 2` and every dilation `d ≥ 2`: sum pooling (stride 1, no
padding) does not stream the sums of the frames `t-(K-1)d, ..., t-d, t`. -/
theorem C05_dilated_pool_refuted (K d : Nat) (hK : 2 ≤ K) (hd : 2 ≤ d) :
    ¬ StreamsAs (Pool.mod (Pool.dilSum K d)) (slideDil K 1 d List.sum) := by
  intro h
  obtain ⟨n, os, i', v, hc, hv⟩ := Pool.dil_bad hK hd
  obtain ⟨os', i'', hc', hlen, ht⟩ := h _ .init (List.replicate n 1)
  rw [hc] at hc'
  cases hc'
  have h1 := ht n
  rw [List.take_of_length_le (by simpa using hlen.le), List.take_of_length_le (by simp)] at h1
  have hmem : v ∈ tensors (os ++ [some v]) := by simp [tensors]
  rw [h1] at hmem
  have := slideDil_ones K d n v hmem
  omega

/-- **C05**, the part that holds: with dilation 1, or with kernel size 1 and any dilation, the streamed
outputs are the dilated windows of the start-padded history.  Missing: `K ≥ 2` with `d ≥ 2`, where the
claim is false (`C05_dilated_pool_refuted`). -/
theorem C05_dilated_pool_partial (c : Pool.Cfg X Y) (hK : 1 ≤ c.K) (hS : 1 ≤ c.S) (hP : c.P ≤ c.K - 1)
    (hd : c.dil = 1 ∨ c.K = 1) (hfill : ∀ x, c.spatial (c.fillIn x) = c.fillOut (c.spatial x))
    (hpool : OrderFree c.pool) :
    StreamsAs (Pool.mod c) fun xs =>
      slideDil c.K c.S c.dil (fun win => c.pool (win.map c.spatial)) (padStart c.P c.fillIn xs) := by
  by_cases h1 : c.dil = 1
  · have := C03_pool_streams_windows c hK hS hP h1 hfill hpool
    simp only [h1, slideDil_one _ _ hK]
    exact this
  · have hK1 : c.K = 1 := hd.resolve_left h1
    have H := Pool.leafRel_K1 c hK1 ⟨hK, hS, by show c.P + 1 ≤ c.K; omega, rfl, hfill, hpool⟩
    have e : Pool.phi { c with dil := 1 } = fun xs =>
        slideDil c.K c.S c.dil (fun win => c.pool (win.map c.spatial)) (padStart c.P c.fillIn xs) := by
      funext xs
      rw [hK1, slideDil_K1, ← hK1]
      rfl
    rw [e] at H
    refine Implements.streamsAs ⟨fun h i => Pool.Inv { c with dil := 1 } h ((Pool.leaf c).get i), {
      phi_nil := H.phi_nil
      init := H.init
      clean := fun {_ i} _ => H.clean i
      step := fun u x hi => H.forwardStep u x hi
      steps := fun u xs _ hi => H.forwardSteps u xs hi
      fwd_state := fun {h i xs ys i'} hi hf => by
        simp only [Except.map] at hf
        split at hf
        · cases hf
        · cases hf; exact hi
      fwd_indep := fun xs hi => by
        simp only [Except.map]
        cases Pool.forward c xs <;> rfl }⟩

example : StreamsAs (Pool.mod (Pool.dilSum 1 5)) fun xs =>
    slideDil 1 1 5 (fun win => (win.map id).sum) (padStart 0 (fun _ => 0) xs) :=
  C05_dilated_pool_partial (Pool.dilSum 1 5) (by decide) (by decide) (by decide) (.inr rfl)
    (fun _ => rfl) (fun _ _ h => h.sum_eq)

example : (callSteps (Pool.mod (Pool.dilSum 2 2)) (Pool.mod (Pool.dilSum 2 2)).init [1, 1, 1, 1]).map Prod.fst =
    .ok [none, none, some 2, some 1] := by decide

example : slideDil 2 1 2 List.sum [(1 : Int), 1, 1, 1] = [2, 2] := by decide

/-! ### C44 -/

section
variable [Zero X] [LinearOrder X] [OrderBot X]

/-- **C44**, the part that holds: with fill `-inf` (the constructor default of `MaxPool1d`) max pooling
streams with `pad_end=True` exactly what torch's max pooling computes, whatever the signs of the inputs.
Missing: the other defaults, for which the claim is false (`C44_maxpool_default_refuted`). -/
theorem C44_maxpool_partial (dims : Nat) (buildFrom : Bool) (K S P : Nat) (hK : 1 ≤ K) (hS : 1 ≤ S)
    (hP : P ≤ K - 1) (hfill : Pool.maxFill dims buildFrom = .negInf ∨ P = 0)
    {i : (Pool.mod (Pool.maxPool (X := X) (Pool.maxFill dims buildFrom) K S P)).Inst}
    (hi : Reach (Pool.mod (Pool.maxPool (X := X) (Pool.maxFill dims buildFrom) K S P)) [] i) (u : Bool)
    (xs : List X) (hx : xs ≠ []) (hl : K ≤ xs.length + 2 * P) :
    ∃ ys i', (Pool.mod (Pool.maxPool (Pool.maxFill dims buildFrom) K S P)).fwd i xs = .ok (ys, i) ∧
      (Pool.mod (Pool.maxPool (Pool.maxFill dims buildFrom) K S P)).steps i true u xs = .ok (some ys, i') := by
  have ok := Pool.maxPool_ok (X := X) (Pool.maxFill dims buildFrom) K S P hK hS hP
  have h := C04_pool_padEnd_eq_forward (Pool.maxPool (X := X) (Pool.maxFill dims buildFrom) K S P) hK hS hP rfl
    (fun _ => rfl) ok.hpool (by
      rcases hfill with h | h
      · right; intro x; show (Pool.maxFill dims buildFrom).make x = ⊥; rw [h]; rfl
      · exact .inl h) hi u xs hx
  rw [if_neg (by show ¬ xs.length + 2 * P < K; omega)] at h
  obtain ⟨h1, ⟨i', h2⟩, _⟩ := h
  exact ⟨_, i', h1, h2⟩

/-- `MaxPool1d(...)` is covered by the positive part. -/
example : Pool.maxFill 1 false = .negInf := rfl

/-- **C44** fails for `MaxPool2d`, `MaxPool3d` and for every max pooling made by `build_from`
(and so by `co.continual`): for every kernel, stride and padding, on a clip of `K` equal negative frames
`forward_steps(x, pad_end=True)` differs from `forward(x)`. -/
theorem C44_maxpool_default_refuted (dims : Nat) (buildFrom : Bool) (hd : 2 ≤ dims ∨ buildFrom = true)
    (K S P : Nat) (hS : 1 ≤ S) (hP : P ≤ K - 1) (hP0 : 1 ≤ P) (neg : X) (hneg : neg < 0) (u : Bool) :
    ∃ ys zs i', (Pool.mod (Pool.maxPool (X := X) (Pool.maxFill dims buildFrom) K S P)).fwd
        (Pool.mod (Pool.maxPool (X := X) (Pool.maxFill dims buildFrom) K S P)).init (List.replicate K neg) =
          .ok (ys, (Pool.mod (Pool.maxPool (X := X) (Pool.maxFill dims buildFrom) K S P)).init) ∧
      (Pool.mod (Pool.maxPool (X := X) (Pool.maxFill dims buildFrom) K S P)).steps
        (Pool.mod (Pool.maxPool (X := X) (Pool.maxFill dims buildFrom) K S P)).init true u (List.replicate K neg) =
          .ok (some zs, i') ∧ ys ≠ zs := by
  have hfill : Pool.maxFill dims buildFrom = .zeros := by
    unfold Pool.maxFill
    rw [if_neg]
    rintro ⟨h1, h2⟩
    rcases hd with h | h
    · omega
    · rw [h] at h2; cases h2
  rw [hfill]
  have hK : 1 ≤ K := by omega
  have hx : List.replicate K neg ≠ [] := by
    intro h; have := congrArg List.length h; simp at this; omega
  -- streaming does not depend on the padding of the reference
  have okz := Pool.maxPool_ok (X := X) .zeros K S P hK hS hP
  have hz := C04_pool_padEnd_eq_forward { Pool.maxPool (X := X) .zeros K S P with refPad := 0 } hK hS hP rfl
    (fun _ => rfl) okz.hpool (.inr fun _ => rfl) .init u (List.replicate K neg) hx
  have okn := Pool.maxPool_ok (X := X) .negInf K S P hK hS hP
  have hn := C04_pool_padEnd_eq_forward (Pool.maxPool (X := X) .negInf K S P) hK hS hP rfl
    (fun _ => rfl) okn.hpool (.inr fun _ => rfl) .init u (List.replicate K neg) hx
  rw [if_neg (by simp)] at hz hn
  obtain ⟨_, ⟨i', hz⟩, _⟩ := hz
  obtain ⟨hn, _⟩ := hn
  refine ⟨_, _, i', hn, hz, ?_⟩
  intro h
  have hhead := congrArg List.head? h
  rw [clipOut_replicate_head K S P hK (by omega), clipOut_replicate_head K S P hK (by omega)] at hhead
  have hhead := Option.some.inj hhead
  simp only [List.map_id] at hhead
  have hge : (0 : X) ≤ (List.replicate P (Pool.TFill.zeros.make neg) ++ List.replicate (K - P) neg).foldr max ⊥ :=
    Pool.le_foldr_max (by
      apply List.mem_append_left
      exact List.mem_replicate.2 ⟨by omega, rfl⟩)
  have hle : (List.replicate P (Pool.TFill.negInf.make neg) ++ List.replicate (K - P) neg).foldr max ⊥ ≤ neg := by
    refine Pool.foldr_max_le fun a ha => ?_
    rcases List.mem_append.1 ha with ha | ha
    · rw [(List.mem_replicate.1 ha).2]; exact bot_le
    · rw [(List.mem_replicate.1 ha).2]
  rw [hhead] at hle
  exact absurd (hge.trans hle) (not_le.2 hneg)

/-- Integers extended by `-inf`: `MaxPool2d` with kernel 3, stride 1, padding 1 on `-1, -1, -1`. -/
example : ∃ ys zs i', (Pool.mod (Pool.maxPool (X := WithBot Int) (Pool.maxFill 2 false) 3 1 1)).fwd
      (Pool.mod (Pool.maxPool (Pool.maxFill 2 false) 3 1 1)).init (List.replicate 3 ((-1 : Int) : WithBot Int)) =
        .ok (ys, (Pool.mod (Pool.maxPool (X := WithBot Int) (Pool.maxFill 2 false) 3 1 1)).init) ∧
    (Pool.mod (Pool.maxPool (X := WithBot Int) (Pool.maxFill 2 false) 3 1 1)).steps
      (Pool.mod (Pool.maxPool (Pool.maxFill 2 false) 3 1 1)).init true true (List.replicate 3 ((-1 : Int) : WithBot Int)) =
        .ok (some zs, i') ∧ ys ≠ zs :=
  C44_maxpool_default_refuted 2 false (.inl (by decide)) 3 1 1 (by decide) (by decide) (by decide)
    ((-1 : Int) : WithBot Int) (WithBot.coe_lt_coe.2 (by decide)) true

end

/-! ### C46 -/

/-- **C46**, convolution (any constructor arguments): after at least one frame the state holds `K-1` slots
of `K-1` partial results each, whatever the calls made so far and their chunk sizes and flags.  The second
part allows arbitrary scripts of calls, including end padding: the module always holds
nothing or the full state. -/
theorem C46_conv_state_size [Zero X] [AddCommMonoid Y] (c : Conv.Cfg X Y) :
    (∀ {h i}, Reach (Conv.mod c) h i → h ≠ [] →
      i.buffer.length = c.K - 1 ∧ ∀ r ∈ i.buffer, r.length = c.K - 1) ∧
    ∀ cs, ∀ i ∈ (calls (Conv.mod c) (Conv.mod c).init cs).2, i.buffer = [] ∨
      (i.buffer.length = c.K - 1 ∧ ∀ r ∈ i.buffer, r.length = c.K - 1) :=
  ⟨fun hr hne => Conv.held c hr hne, Conv.held_calls c⟩

/-- **C46**, pooling (any constructor arguments, also dilated). -/
theorem C46_pool_state_size (c : Pool.Cfg X Y) :
    (∀ {h i}, Reach (Pool.mod c) h i → h ≠ [] → i.buffer.length = c.dil * (c.K - 1) + 1) ∧
    ∀ cs, ∀ i ∈ (calls (Pool.mod c) (Pool.mod c).init cs).2, i.buffer = [] ∨
      i.buffer.length = c.dil * (c.K - 1) + 1 :=
  ⟨fun hr hne => Pool.held c hr hne, Pool.held_calls c⟩

/-- **C46**, delay (any constructor arguments). -/
theorem C46_delay_state_size (c : Delay.Cfg X) :
    (∀ {h i}, Reach (Delay.mod c) h i → h ≠ [] → i.1.length = c.d) ∧
    ∀ cs, ∀ i ∈ (calls (Delay.mod c) (Delay.mod c).init cs).2, i.1 = [] ∨ i.1.length = c.d :=
  ⟨fun hr hne => Delay.held c hr hne, Delay.held_calls c⟩

/-- A state after five frames, reached by a step and a chunk. -/
example : ∃ i, Reach (Conv.mod (exConv .zeros)) [1, 2, 3, 4, 5] i ∧ i.buffer.length = 2 := by
  obtain ⟨o, i, h⟩ : ∃ o i, (Conv.mod (exConv .zeros)).step (Conv.mod (exConv .zeros)).init true 1 =
      .ok (o, i) := ⟨_, _, rfl⟩
  obtain ⟨o', i', h'⟩ : ∃ o' i', (Conv.mod (exConv .zeros)).steps i false true [2, 3, 4, 5] =
      .ok (o', i') := by cases h; exact ⟨_, _, rfl⟩
  have r : Reach (Conv.mod (exConv .zeros)) [1, 2, 3, 4, 5] i' :=
    .steps true [2, 3, 4, 5] (by decide) (.step true 1 .init h) h'
  exact ⟨i', r, ((C46_conv_state_size (exConv .zeros)).1 r (by decide)).1⟩

/-! ### C47 -/

/-- **C47** fails in `forward_step` for every stride `S ≥ 2` (no padding): a clean convolution with kernel
size one returns an output for *every* frame: it streams the stride-one convolution. -/
theorem C47_kernel1_step_ignores_stride [Zero X] [AddCommMonoid Y] (c : Conv.Cfg X Y) (hK : c.K = 1)
    (hS : 2 ≤ c.S) (hP : c.P = 0) :
    StreamsAs (Conv.mod c) (slide 1 1 (corr c.w c.bias)) := by
  have hs : Conv.stateless c = false := by
    unfold Conv.stateless; simp only [decide_eq_false_iff_not]; omega
  have hinit : ∀ x, Conv.pstep c x none =
      .ok (some (Conv.addBias c (c.w 0 x)), some ⟨[], 0, 0⟩) := by
    intro x
    unfold Conv.pstep
    rw [if_neg (by simp [hs])]
    have htap : pyGet (Conv.taps c x) 0 = .ok (c.w 0 x) := by
      simp [Conv.taps, hK, pyGet, List.range_succ]
    rw [htap, ok_bind]
    simp only
    have hst : Conv.initState c ((Conv.taps c x).drop 1) = ⟨[], 0, (c.S : Int) - 1⟩ := by
      simp [Conv.initState, hK, hP]
    rw [hst]
    have hout : Conv.output c ⟨[], 0, (c.S : Int) - 1⟩ (c.w 0 x) = .ok (some (Conv.addBias c (c.w 0 x))) := by
      unfold Conv.output Conv.pick
      simp [hK, bind, Except.bind, pure, Except.pure]
    rw [hout, ok_bind]
    have hwb : Conv.writeBack c ⟨[], 0, (c.S : Int) - 1⟩ ((Conv.taps c x).drop 1) = .ok ([], 0) := by
      unfold Conv.writeBack; rw [if_neg (by omega)]
    rw [hwb, ok_bind]
    have hns : Conv.nextStride c.S ((c.S : Int) - 1) = 0 := by
      unfold Conv.nextStride
      simp only [Int.sub_add_cancel]
      rw [if_pos (by omega)]; simp
    rw [hns]; rfl
  have hstep : ∀ x, (Conv.mod c).step (Conv.mod c).init true x =
      .ok (some (Conv.addBias c (c.w 0 x)), (Conv.mod c).init) := by
    intro x
    show Leaf.forwardStep _ _ _ _ = _
    unfold Leaf.forwardStep
    rw [show (Conv.leaf c).get (Conv.leaf c).init = none from rfl]
    show (Conv.pstep c x none >>= _) = _
    rw [hinit, ok_bind]
    rfl
  have hcalls : ∀ xs : List X, callSteps (Conv.mod c) (Conv.mod c).init xs =
      .ok (xs.map fun x => some (Conv.addBias c (c.w 0 x)), (Conv.mod c).init) := by
    intro xs
    induction xs with
    | nil => rfl
    | cons x xs ih => rw [callSteps, hstep, ok_bind]; simp only; rw [ih, ok_bind]; rfl
  have hslide : ∀ xs : List X, slide 1 1 (corr c.w c.bias) xs = xs.map fun x => Conv.addBias c (c.w 0 x) := by
    intro xs
    have hb : ∀ x, corr c.w c.bias [x] = Conv.addBias c (c.w 0 x) := by
      intro x
      unfold corr Conv.addBias
      cases c.bias <;> simp
    rw [← slideDil_one 1 1 (by omega), slideDil]
    have hc : windowCount (1 * (1 - 1) + 1) 1 xs.length = xs.length := by
      cases xs <;> simp [windowCount]
    rw [hc]
    apply List.ext_getElem?
    intro n
    rw [List.getElem?_map, List.getElem?_map]
    by_cases hn : n < xs.length
    · rw [List.getElem?_range hn, List.getElem?_eq_getElem hn]
      simp [List.range_succ, hn, hb]
    · rw [List.getElem?_eq_none (by simpa using hn), List.getElem?_eq_none (by simpa using hn)]
      rfl
  intro i hi xs
  have h0 : i = (Conv.mod c).init := Tame.reach_nil (Conv.tame c) hi rfl
  refine ⟨_, _, by rw [h0]; exact hcalls xs, by simp, fun n => ?_⟩
  rw [hslide, ← List.map_take]
  simp [tensors, List.filterMap_map]

/-- **C47** is therefore false: the outputs are not those of the strided convolution. -/
theorem C47_kernel1_stride_refuted [Zero X] [AddCommMonoid Y] (c : Conv.Cfg X Y) (hK : c.K = 1)
    (hS : 2 ≤ c.S) (hP : c.P = 0) :
    ¬ StreamsAs (Conv.mod c) (streamOut c.K c.S c.P (c.fill.make 0) (corr c.w c.bias)) := by
  intro h
  obtain ⟨os, i', hc, hl, ht⟩ := h _ .init [0, 0]
  obtain ⟨os', i'', hc', hl', ht'⟩ := C47_kernel1_step_ignores_stride c hK hS hP _ .init [0, 0]
  rw [hc] at hc'
  cases hc'
  have h2 := (ht 2).symm.trans (ht' 2)
  have h2 := congrArg List.length h2
  have hdiv : 1 / c.S = 0 := Nat.div_eq_of_lt (by omega)
  simp [streamOut, slide, windowCount, hK, hP, padStart, hdiv] at h2

/-- **C47**, the part that holds: a single `forward_steps` call on a clean module, and functional stepping
with an explicitly threaded state, honour the stride also for kernel size one.  Missing: repeated
`forward_step` calls, for which the claim is false. -/
theorem C47_kernel1_partial [Zero X] [AddCommMonoid Y] (c : Conv.Cfg X Y) (hK : c.K = 1)
    (hS : 1 ≤ c.S) (hP : c.P = 0) (hw : ∀ j, c.w j 0 = 0) (xs : List X) :
    (∀ i, Reach (Conv.mod c) [] i → ∀ u, ∃ i', (Conv.mod c).steps i false u xs =
      .ok (optList (slide 1 c.S (corr c.w c.bias) xs), i')) ∧
    ∃ os s', threadSteps (Conv.mod c) none xs = .ok (os, s') ∧ os.length = xs.length ∧
      ∀ n, tensors (os.take n) = slide 1 c.S (corr c.w c.bias) (xs.take n) := by
  have ok : Conv.Ok c := ⟨by omega, hS, by omega, hw⟩
  have hphi : ∀ ys, Conv.phi c ys = slide 1 c.S (corr c.w c.bias) ys := by
    intro ys
    unfold Conv.phi streamOut
    rw [hP, hK]
    cases ys <;> rfl
  have hnil : slide 1 c.S (corr c.w c.bias) ([] : List X) = [] := by simp [slide, windowCount]
  constructor
  · intro i hi u
    have h0 : i = (Conv.mod c).init := Tame.reach_nil (Conv.tame c) hi rfl
    subst h0
    obtain ⟨ys, s', h1, h2, _⟩ := loop_of_step (L := Conv.leaf c) (φ := Conv.phi c) (P := Conv.Rel c)
      (fun x hs => by
        obtain ⟨o, s', h1, h2, h3, _⟩ := Conv.pstep_ok c ok x hs
        exact ⟨o, s', h1, h2, h3⟩) xs (Conv.rel_none c)
    refine ⟨(Conv.leaf c).save u s' (Conv.leaf c).init, ?_⟩
    show Leaf.forwardSteps _ _ _ _ _ = _
    unfold Leaf.forwardSteps
    rw [show (Conv.leaf c).get (Conv.leaf c).init = none from rfl, h1, ok_bind]
    rw [List.nil_append, hphi, hphi, hnil, List.nil_append] at h2
    rw [h2]; rfl
  · obtain ⟨os, s', h1, h2, h3⟩ := Spec.PImplements.threadSteps_eq (Conv.pImplements c ok) xs
    refine ⟨os, s', h1, h2, fun n => ?_⟩
    have := tensors_eq (h := []) h2 (by simpa using h3) n
    rw [List.nil_append, hphi, hphi, hnil, List.nil_append] at this
    exact this.symm

/-- A kernel of size one with stride two. -/
def exConv1 : Conv.Cfg Int Int where
  K := 1
  S := 2
  P := 0
  fill := .zeros
  padMode := .zeros
  w := fun _ x => 3 * x
  bias := none

example : (callSteps (Conv.mod exConv1) (Conv.mod exConv1).init [1, 2, 3]).map Prod.fst =
    .ok [some 3, some 6, some 9] := by decide

example : ∃ i', (Conv.mod exConv1).steps (Conv.mod exConv1).init false true [1, 2, 3] = .ok (some [3, 9], i') := by
  obtain ⟨i', h⟩ := (C47_kernel1_partial exConv1 rfl (by decide) rfl (fun _ => by show 3 * (0 : Int) = 0; simp)
    [1, 2, 3]).1 _ .init true
  exact ⟨i', h.trans (congrArg (fun o => Except.ok (o, i')) (by decide))⟩

/-! ### C48 -/

/-- **C48** fails for every kernel size, every padding `P ≥ K`, every stride and every clip: on a clean
module `forward_steps(x, pad_end=True)` returns strictly fewer frames than `forward(x)`. -/
theorem C48_wide_padding_refuted [Zero X] [AddCommMonoid Y] (c : Conv.Cfg X Y) (hK : 1 ≤ c.K)
    (hS : 1 ≤ c.S) (hP : c.K ≤ c.P) {i : (Conv.mod c).Inst} (hi : Reach (Conv.mod c) [] i) (u : Bool)
    (xs : List X) (hx : xs ≠ []) :
    ∃ ys zs i', (Conv.mod c).fwd i xs = .ok (ys, i) ∧
      (Conv.mod c).steps i true u xs = .ok (optList zs, i') ∧ zs.length < ys.length := by
  have h0 : i = (Conv.mod c).init := Tame.reach_nil (Conv.tame c) hi rfl
  subst h0
  obtain ⟨zs, i', h1, h2⟩ := Conv.wide_steps c hK hS hP u xs hx
  obtain ⟨a, ha⟩ : ∃ a, xs.head? = some a := by cases xs with
    | nil => exact absurd rfl hx
    | cons a t => exact ⟨a, rfl⟩
  obtain ⟨b, hb⟩ : ∃ b, xs.getLast? = some b := ⟨_, List.getLast?_eq_some_getLast hx⟩
  obtain ⟨ys, hys, hlen⟩ : ∃ ys, Conv.forward c xs = .ok ys ∧
      ys.length = (xs.length + 2 * c.P - c.K) / c.S + 1 := by
    unfold Conv.forward
    rw [ha, hb]
    refine ⟨_, Conv.torchConv_eq c _ (by simp; omega), ?_⟩
    simp [slide, windowCount]
    rw [if_neg (by omega)]
    congr 2
    omega
  refine ⟨ys, zs, i', ?_, h1, by rw [hlen, ← h2]; exact Nat.lt_succ_of_le (Nat.le_add_right _ _)⟩
  show Except.map _ (Conv.forward c xs) = _
  rw [hys]; rfl

/-- **C48**, the part that holds: any padding smaller than the kernel (this is C02). -/
theorem C48_padding_partial [Zero X] [AddCommMonoid Y] (c : Conv.Cfg X Y) (hS : 1 ≤ c.S) (hP : c.P < c.K)
    (h1 : 1 < c.K ∨ c.S = 1) (hw : ∀ j, c.w j 0 = 0) (hm : c.padMode = c.fill) {i : (Conv.mod c).Inst}
    (hi : Reach (Conv.mod c) [] i) (u : Bool) (xs : List X) (hx : xs ≠ []) (hl : c.K ≤ xs.length + 2 * c.P) :
    ∃ ys i', (Conv.mod c).fwd i xs = .ok (ys, i) ∧ (Conv.mod c).steps i true u xs = .ok (some ys, i') := by
  have h := C02_conv_padEnd_eq_forward c (by omega) hS (by omega) h1 hw hm hi u xs hx
  rw [if_neg (by omega)] at h
  obtain ⟨a, ⟨i', b⟩, _⟩ := h
  exact ⟨_, i', a, b⟩

/-- Kernel size one, padding one: `forward` gives five frames, streaming with end padding three, and
`forward_step` never returns a frame. -/
example :
    ((Conv.mod { exConv1 with S := 1, P := 1 }).fwd (Conv.mod { exConv1 with S := 1, P := 1 }).init
      [1, 2, 3]).map Prod.fst = .ok [0, 3, 6, 9, 0] ∧
    ((Conv.mod { exConv1 with S := 1, P := 1 }).steps (Conv.mod { exConv1 with S := 1, P := 1 }).init true true
      [1, 2, 3]).map Prod.fst = .ok (some [6, 9, 0]) ∧
    (callSteps (Conv.mod { exConv1 with S := 1, P := 1 }) (Conv.mod { exConv1 with S := 1, P := 1 }).init
      [1, 2, 3]).map Prod.fst = .ok [none, none, none] := by decide

end CoInf
