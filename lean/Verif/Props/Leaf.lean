/-
Properties C01-C04, C06, C07: convolution, pooling, delay and skip on their own.
-/
import Verif.Lemmas.Observe

set_option autoImplicit false

namespace CoInf
open Spec
variable {X Y : Type}

/-- **C01.** Feeding frames to `forward_step` of a clean convolution yields, after every number of frames,
exactly the outputs of the strided, start-padded cross-correlation of the frames fed so far. -/
theorem C01_conv_streams_textbook [Zero X] [AddCommMonoid Y] (c : Conv.Cfg X Y) (hK : 1 ≤ c.K)
    (hS : 1 ≤ c.S) (hP : c.P ≤ c.K - 1) (h1 : 1 < c.K ∨ c.S = 1) (hw : ∀ j, c.w j 0 = 0) :
    StreamsAs (Conv.mod c) (streamOut c.K c.S c.P (c.fill.make 0) (corr c.w c.bias)) :=
  Implements.streamsAs ⟨_, Conv.simRel c ⟨⟨hK, hS, by omega, hw⟩, h1⟩⟩

/-- A convolution with kernel `(1,10,100)`, stride 2, padding 1 and a bias over the integers. -/
def exConv (fill : Fill) : Conv.Cfg Int Int where
  K := 3
  S := 2
  P := 1
  fill := fill
  padMode := fill
  w := fun j x => 10 ^ j * x
  bias := some 7

example (fill : Fill) : StreamsAs (Conv.mod (exConv fill)) (streamOut 3 2 1 (fill.make 0)
    (corr (fun j x => 10 ^ j * x) (some (7 : Int)))) :=
  C01_conv_streams_textbook (exConv fill) (by simp [exConv]) (by simp [exConv]) (by simp [exConv])
    (by simp [exConv])
    (by intro j; show 10 ^ j * (0 : Int) = 0; simp)

example : (callSteps (Conv.mod (exConv .zeros)) (Conv.mod (exConv .zeros)).init [1, 2, 3, 4, 5]).map Prod.fst =
    .ok [none, some 217, none, some 439, none] := by decide

example : streamOut 3 2 1 (Fill.zeros.make 0) (corr (fun j x => 10 ^ j * x) (some (7 : Int))) [1, 2, 3, 4, 5] =
    [217, 439] := by decide

/-- **C02.** On a clean convolution `forward_steps(x, pad_end=True)` is `forward(x)`, the textbook
convolution padded on both sides, for both values of `update_state`; without `pad_end` it is the prefix
consisting of the outputs that do not depend on the end padding.  A clip that is too short makes
`forward` raise. -/
theorem C02_conv_padEnd_eq_forward [Zero X] [AddCommMonoid Y] (c : Conv.Cfg X Y) (hK : 1 ≤ c.K)
    (hS : 1 ≤ c.S) (hP : c.P ≤ c.K - 1) (h1 : 1 < c.K ∨ c.S = 1) (hw : ∀ j, c.w j 0 = 0)
    (hm : c.padMode = c.fill) {i : (Conv.mod c).Inst} (hi : Reach (Conv.mod c) [] i) (u : Bool)
    (xs : List X) (hx : xs ≠ []) :
    if xs.length + 2 * c.P < c.K then (Conv.mod c).fwd i xs = .error .runtime
    else
      (Conv.mod c).fwd i xs = .ok (clipOut c.K c.S c.P (c.fill.make 0) (corr c.w c.bias) xs, i) ∧
      (∃ i', (Conv.mod c).steps i true u xs =
        .ok (some (clipOut c.K c.S c.P (c.fill.make 0) (corr c.w c.bias) xs), i')) ∧
      (∃ i', (Conv.mod c).steps i false u xs =
        .ok (optList (streamOut c.K c.S c.P (c.fill.make 0) (corr c.w c.bias) xs), i')) ∧
      streamOut c.K c.S c.P (c.fill.make 0) (corr c.w c.bias) xs <+:
        clipOut c.K c.S c.P (c.fill.make 0) (corr c.w c.bias) xs := by
  have good : Conv.Good c := ⟨⟨hK, hS, by omega, hw⟩, h1⟩
  have sim := Conv.simRel c good
  obtain ⟨a, ha⟩ : ∃ a, xs.head? = some a := by cases xs with
    | nil => exact absurd rfl hx
    | cons a t => exact ⟨a, rfl⟩
  obtain ⟨b, hb⟩ : ∃ b, xs.getLast? = some b := ⟨_, List.getLast?_eq_some_getLast hx⟩
  by_cases hl : xs.length + 2 * c.P < c.K
  · rw [if_pos hl]
    have : Conv.forward c xs = .error .runtime := by
      unfold Conv.forward
      rw [ha, hb]
      simp only [Conv.torchConv]
      rw [if_pos (by simp; omega)]
    show Except.map _ (Conv.forward c xs) = _
    rw [this]; rfl
  · rw [if_neg hl]
    obtain ⟨ys, hys⟩ : ∃ ys, Conv.forward c xs = .ok ys := by
      unfold Conv.forward
      rw [ha, hb]
      exact ⟨_, Conv.torchConv_eq c _ (by simp; omega)⟩
    have e := (Conv.forward_eq c hm hys).2
    have hf : (Conv.mod c).fwd i xs = .ok (ys, i) := by
      show Except.map _ (Conv.forward c xs) = _
      rw [hys]; rfl
    have pc := Spec.PadRel.padClean sim (Conv.padRel c good hm) (Conv.fwd_nil c)
    have hf0 : (Conv.mod c).fwd (Conv.mod c).init xs =
        .ok (clipOut c.K c.S c.P (c.fill.make 0) (corr c.w c.bias) xs, (Conv.mod c).init) := by
      show Except.map _ (Conv.forward c xs) = _
      rw [hys, e]; rfl
    obtain ⟨k1, k2⟩ := window_calls sim pc hi u hx hl hf0
    exact ⟨by rw [hf, e], k1, k2, streamOut_prefix_clipOut _ _ _ _ _ hx⟩

example (u : Bool) : ∃ i', (Conv.mod (exConv .zeros)).steps (Conv.mod (exConv .zeros)).init true u [1, 2, 3, 4, 5] =
    .ok (some [217, 439, 61], i') := by
  have h := (C02_conv_padEnd_eq_forward (exConv .zeros) (by decide) (by decide) (by decide) (by decide)
    (by intro j; show 10 ^ j * (0 : Int) = 0; simp) rfl .init u [1, 2, 3, 4, 5] (by decide))
  rw [if_neg (by decide)] at h
  obtain ⟨i', hi'⟩ := h.2.1
  exact ⟨i', hi'.trans (congrArg (fun o => Except.ok (some o, i')) (by decide))⟩

/-- **C03.** Feeding frames to `forward_step` of a clean pooling module with temporal dilation 1 yields
exactly the pooled windows of the start-padded frames fed so far.  (`fillIn`, `fillOut` are the module's
fill applied before and after the spatial pooling; they agree for every fill of the library.) -/
theorem C03_pool_streams_windows (c : Pool.Cfg X Y) (hK : 1 ≤ c.K) (hS : 1 ≤ c.S) (hP : c.P ≤ c.K - 1)
    (hd : c.dil = 1) (hfill : ∀ x, c.spatial (c.fillIn x) = c.fillOut (c.spatial x))
    (hpool : OrderFree c.pool) :
    StreamsAs (Pool.mod c) (streamOut c.K c.S c.P c.fillIn fun win => c.pool (win.map c.spatial)) :=
  Implements.streamsAs ⟨_, Pool.simRel c ⟨hK, hS, by omega, hd, hfill, hpool⟩⟩

/-- Sum pooling over integers with kernel 3, stride 2, padding 1, zero fill (a multiple of the average). -/
def exPool : Pool.Cfg Int Int where
  K := 3
  S := 2
  P := 1
  dil := 1
  spatial := fun x => 2 * x
  pool := List.sum
  fillIn := fun _ => 0
  fillOut := fun _ => 0
  refPad := 0

example : StreamsAs (Pool.mod exPool) (streamOut 3 2 1 (fun _ => 0) fun win => (win.map (2 * ·)).sum) :=
  C03_pool_streams_windows exPool (by decide) (by decide) (by decide) rfl (fun _ => rfl)
    (fun _ _ h => h.sum_eq)

example : (callSteps (Pool.mod exPool) (Pool.mod exPool).init [1, 2, 3, 4, 5]).map Prod.fst =
    .ok [none, some 6, none, some 18, none] := by decide

/-- **C04.** On a clean pooling module with dilation 1 whose fill is the padding value of the reference
pooling (or without padding), `forward_steps(x, pad_end=True)` is `forward(x)`, the pooled windows of the
clip padded on both sides. -/
theorem C04_pool_padEnd_eq_forward (c : Pool.Cfg X Y) (hK : 1 ≤ c.K) (hS : 1 ≤ c.S) (hP : c.P ≤ c.K - 1)
    (hd : c.dil = 1) (hfill : ∀ x, c.spatial (c.fillIn x) = c.fillOut (c.spatial x))
    (hpool : OrderFree c.pool) (hpad : c.P = 0 ∨ ∀ x, c.spatial (c.fillIn x) = c.refPad)
    {i : (Pool.mod c).Inst} (hi : Reach (Pool.mod c) [] i) (u : Bool) (xs : List X) (hx : xs ≠ []) :
    if xs.length + 2 * c.P < c.K then (Pool.mod c).fwd i xs = .error .runtime
    else
      (Pool.mod c).fwd i xs =
        .ok (clipOut c.K c.S c.P c.fillIn (fun win => c.pool (win.map c.spatial)) xs, i) ∧
      (∃ i', (Pool.mod c).steps i true u xs =
        .ok (some (clipOut c.K c.S c.P c.fillIn (fun win => c.pool (win.map c.spatial)) xs), i')) ∧
      (∃ i', (Pool.mod c).steps i false u xs =
        .ok (optList (streamOut c.K c.S c.P c.fillIn (fun win => c.pool (win.map c.spatial)) xs), i')) ∧
      streamOut c.K c.S c.P c.fillIn (fun win => c.pool (win.map c.spatial)) xs <+:
        clipOut c.K c.S c.P c.fillIn (fun win => c.pool (win.map c.spatial)) xs := by
  have ok : Pool.Ok c := ⟨hK, hS, by omega, hd, hfill, hpool⟩
  have sim := Pool.simRel c ok
  have hb := Pool.bufLen_eq c ok
  by_cases hl : xs.length + 2 * c.P < c.K
  · rw [if_pos hl]
    have : Pool.forward c xs = .error .runtime := by
      unfold Pool.forward
      simp only [hx, if_false]
      rw [if_pos (by simp [hb]; omega)]
    show Except.map _ (Pool.forward c xs) = _
    rw [this]; rfl
  · rw [if_neg hl]
    obtain ⟨ys, hys⟩ : ∃ ys, Pool.forward c xs = .ok ys := by
      unfold Pool.forward
      simp only [hx, if_false]
      rw [if_neg (by simp [hb]; omega)]
      exact ⟨_, rfl⟩
    have e := (Pool.forward_eq c ok hpad hys).2
    have hf : ∀ i, (Pool.mod c).fwd i xs =
        .ok (clipOut c.K c.S c.P c.fillIn (fun win => c.pool (win.map c.spatial)) xs, i) := by
      intro i
      show Except.map _ (Pool.forward c xs) = _
      rw [hys, e]; rfl
    have pc := Spec.PadRel.padClean sim (Pool.padRel c ok hpad) (Pool.fwd_nil c)
    obtain ⟨k1, k2⟩ := window_calls (K := c.K) (S := c.S) (P := c.P) (fill := c.fillIn)
      (f := fun win => c.pool (win.map c.spatial)) sim pc hi u hx hl (hf _)
    exact ⟨hf i, k1, k2, streamOut_prefix_clipOut _ _ _ _ _ hx⟩

example (u : Bool) : ∃ i', (Pool.mod exPool).steps (Pool.mod exPool).init true u [1, 2, 3, 4, 5] =
    .ok (some [6, 18, 18], i') := by
  have h := (C04_pool_padEnd_eq_forward exPool (by decide) (by decide) (by decide) rfl (fun _ => rfl)
    (fun _ _ h => h.sum_eq) (Or.inr fun _ => rfl) .init u [1, 2, 3, 4, 5] (by decide))
  rw [if_neg (by decide)] at h
  obtain ⟨i', hi'⟩ := h.2.1
  exact ⟨i', hi'.trans (congrArg (fun o => Except.ok (some o, i')) (by decide))⟩

/-- **C06.** On a clean `Delay(d)` (without `auto_shrink=True`) step `t` returns `None` for `t < d` and
frame `t - d` afterwards, for ever. -/
theorem C06_delay_steps (c : Delay.Cfg X) (hs : c.shrink ≠ .on) {i : (Delay.mod c).Inst}
    (hi : Reach (Delay.mod c) [] i) (xs : List X) :
    ∃ os i', callSteps (Delay.mod c) i xs = .ok (os, i') ∧ os.length = xs.length ∧
      ∀ t, t < xs.length → os[t]? = some (if t < c.d then none else xs[t - c.d]?) := by
  have sim := (Delay.implements c).reach
  have hl : Delay.lead c = 0 := by simp [Delay.lead, hs]
  rw [hl] at sim
  obtain ⟨os, i', h1, h2, _, h4⟩ := Spec.SimRel.callSteps_eq sim xs hi
  refine ⟨os, i', h1, h2, fun t ht => ?_⟩
  have h5 := h4 t ht
  simp only [List.nil_append] at h5
  have e : xs.take (t + 1) = xs.take t ++ [xs[t]] := List.take_succ_eq_append_getElem ht
  rw [e, Delay.delayed_snoc] at h5
  have h6 := List.append_cancel_left h5
  have ho : os[t]? = some (os[t]'(by omega)) := List.getElem?_eq_getElem (by omega)
  rw [ho] at h6 ⊢
  have hlt : (xs.take t).length = t := by simp; omega
  rw [hlt, Nat.add_zero] at h6
  congr 1
  by_cases hd : t < c.d
  · rw [if_pos hd]
    rw [if_neg (by omega)] at h6
    cases hq : os[t]'(by omega) with
    | none => rfl
    | some y => rw [hq] at h6; cases h6
  · rw [if_neg hd]
    rw [if_pos (by omega), ← e] at h6
    have hlt2 : t - c.d < xs.length := by omega
    rw [List.getElem?_take_of_lt (by omega), List.getElem?_eq_getElem hlt2] at h6
    rw [List.getElem?_eq_getElem hlt2]
    cases hq : os[t]'(by omega) with
    | none => rw [hq] at h6; cases h6
    | some y => rw [hq] at h6; cases h6; rfl

example : (callSteps (Delay.mod { d := 2, fill := fun _ => (0 : Int) }) ([], 0) [5, 6, 7, 8, 9]).map Prod.fst =
    .ok [none, none, some 5, some 6, some 7] := by decide

/-- **C06.** `forward` of a plain `Delay(d)` is the identity, and so is `forward_steps(x, pad_end=True)` on
a clean module. -/
theorem C06_delay_padEnd (c : Delay.Cfg X) (hs : c.shrink = .off) {i : (Delay.mod c).Inst}
    (hi : Reach (Delay.mod c) [] i) (u : Bool) (xs : List X) (hx : xs ≠ []) :
    (Delay.mod c).fwd i xs = .ok (xs, i) ∧
    ∃ i', (Delay.mod c).steps i true u xs = .ok (some xs, i') := by
  have hf : ∀ i, (Delay.mod c).fwd i xs = .ok (xs, i) := by
    intro i
    show Except.ok (Delay.forward c xs, i) = _
    simp [Delay.forward, hs]
  have sim := Delay.simRel' c
  have pc := (Spec.PadRel.padClean sim (Delay.padRel c hs) (Delay.fwd_nil c)).reach sim
  obtain ⟨i', hi'⟩ := pc.eq u hi hx (hf _)
  refine ⟨hf i, i', ?_⟩
  rw [hi']
  cases xs with
  | nil => exact absurd rfl hx
  | cons => rfl

example (u : Bool) : ∃ i', (Delay.mod { d := 3, fill := fun _ => (0 : Int) }).steps ([], 0) true u [5, 6] =
    .ok (some [5, 6], i') :=
  (C06_delay_padEnd { d := 3, fill := fun _ => (0 : Int) } rfl .init u [5, 6] (by decide)).2

/-- **C06.** `Delay(0)` is the identity in all modes, for all flags and object states. -/
theorem C06_delay_zero (c : Delay.Cfg X) (hd : c.d = 0) (i : (Delay.mod c).Inst) (p u : Bool) (x : X)
    (xs : List X) :
    (Delay.mod c).step i u x = .ok (some x, i) ∧ (Delay.mod c).steps i p u xs = .ok (some xs, i) ∧
    (Delay.mod c).fwd i xs = .ok (xs, i) ∧ ∀ s, (Delay.mod c).pstep x s = .ok (some x, s) := by
  simp [hd, Delay.forward, Delay.pstep]

example : (Delay.mod { d := 0, fill := fun _ => (0 : Int) }).steps ([], 0) true true [1, 2] =
    .ok (some [1, 2], ([], 0)) :=
  (C06_delay_zero { d := 0, fill := fun _ => (0 : Int) } rfl _ _ _ 1 _).2.1

/-- **C07.** On a clean `Skip(n)` step `t` returns `None` for `t < n` and frame `t` itself afterwards;
`forward` and `forward_steps` return the clip without its first `n` frames. -/
theorem C07_skip (n : Nat) {i : (Skip.mod n X).Inst} (hi : Reach (Skip.mod n X) [] i) (xs : List X) :
    (∃ os i', callSteps (Skip.mod n X) i xs = .ok (os, i') ∧ os.length = xs.length ∧
      ∀ t, t < xs.length → os[t]? = some (if t < n then none else xs[t]?)) ∧
    (Skip.mod n X).fwd i xs = .ok (xs.drop n, i) ∧
    ∀ p u, xs ≠ [] → ∃ i', (Skip.mod n X).steps i p u xs = .ok (optList (xs.drop n), i') := by
  have sim := (Skip.implements (X := X) n).reach
  refine ⟨?_, rfl, ?_⟩
  · obtain ⟨os, i', h1, h2, _, h4⟩ := Spec.SimRel.callSteps_eq sim xs hi
    refine ⟨os, i', h1, h2, fun t ht => ?_⟩
    have h5 := h4 t ht
    simp only [List.nil_append] at h5
    have e : xs.take (t + 1) = xs.take t ++ [xs[t]] := List.take_succ_eq_append_getElem ht
    have ho : os[t]? = some (os[t]'(by omega)) := List.getElem?_eq_getElem (by omega)
    have hlt : (xs.take t).length = t := by simp; omega
    rw [e, List.drop_append, hlt, ho] at h5
    have h6 := List.append_cancel_left h5
    rw [ho, List.getElem?_eq_getElem ht]
    congr 1
    by_cases hd : t < n
    · rw [if_pos hd]
      have : n - t = (n - t - 1) + 1 := by omega
      rw [this, List.drop_succ_cons] at h6
      cases hq : os[t]'(by omega) with
      | none => rfl
      | some y => rw [hq] at h6; simp at h6
    · rw [if_neg hd]
      have : n - t = 0 := by omega
      rw [this, List.drop_zero] at h6
      cases hq : os[t]'(by omega) with
      | none => rw [hq] at h6; cases h6
      | some y => rw [hq] at h6; cases h6; rfl
  · intro p u hx
    cases p with
    | false =>
      obtain ⟨ys, i', h1, h2, _⟩ := sim.steps u xs hx hi
      refine ⟨i', ?_⟩
      rw [h1]
      simp at h2
      rw [h2]
    | true =>
      have pc := (Spec.PadRel.padClean (Skip.simRel (X := X) n) (Skip.padRel n) (Skip.fwd_nil n)).reach (Skip.simRel n)
      exact pc.eq u hi hx rfl

example : (callSteps (Skip.mod 2 Int) (-2) [5, 6, 7, 8]).map Prod.fst =
    .ok [none, none, some 7, some 8] := by decide

end CoInf
