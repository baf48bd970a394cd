/-
Properties C12 and C43: length of `forward`, and pointwise modules.
-/
import Verif.Spec.Counts
import Verif.Props.Pad

set_option autoImplicit false

namespace CoInf
open Spec
variable {X Y Z : Type}

/-! ### C12 -/

/-- **C12.** A `Sequential` of any length whose members satisfy the length formula satisfies it too, for the
geometry that the `Sequential` reports; it can hence be a member of another `Sequential`. -/
theorem C12_sequential_length {c : Chain (.stream X) (.stream Y)} (h : CountChain c) :
    Counts (Sequential.mod c) := by
  induction h with
  | single h =>
    exact ⟨by simpa [Chain.geos, Chain.strideOf] using h.stride_pos,
      by simpa [Chain.geos, Chain.rfOf] using h.rf_pos, Sequential.fwdLen_single h.len⟩
  | @cons X Y Z m c h _ ih =>
    have hne := Chain.geos_ne_nil c
    have h1 := ih.stride_pos
    have h2 := ih.rf_pos
    refine ⟨?_, ?_, Sequential.fwdLen_cons h.stride_pos h.len ih.len ih.rf_pos⟩
    · simp only [Chain.geos, Chain.strideOf_cons]
      exact Nat.mul_le_mul h.stride_pos h1
    · simp only [Chain.geos, Chain.rfOf_cons _ hne]
      have := Nat.mul_le_mul_left m.stride h2
      simp only [Nat.mul_one] at this
      have := h.rf_pos
      omega

/-- **C12**, members: convolutions (any padding), dilation-1 pools and frame-wise modules satisfy the
formula. -/
theorem C12_members :
    (∀ {X Y : Type} [Zero X] [AddCommMonoid Y] (c : Conv.Cfg X Y), 1 ≤ c.K → 1 ≤ c.S →
      Counts (Conv.mod c)) ∧
    (∀ {X Y : Type} (c : Pool.Cfg X Y), 1 ≤ c.K → 1 ≤ c.S → c.dil = 1 → Counts (Pool.mod c)) ∧
    (∀ {X Y : Type} (f : X → Y), Counts (Pointwise.mod f)) ∧
    (∀ {X Y : Type} (c : Lambda.Cfg X Y) (f : X → Y), LambdaOk c f → Counts (Lambda.mod c)) := by
  refine ⟨fun c hK hS => ⟨hS, hK, ?_⟩, fun c hK hS hd => ⟨hS, ?_, ?_⟩, fun f => ⟨le_rfl, le_rfl, ?_⟩,
    fun c f hc => ⟨le_rfl, le_rfl, ?_⟩⟩
  · intro i xs ys i' h
    have h : (Conv.forward c xs).map (fun ys => (ys, i)) = .ok (ys, i') := h
    cases hf : Conv.forward c xs with
    | error e => rw [hf] at h; cases h
    | ok zs =>
      rw [hf] at h; cases h
      unfold Conv.forward at hf
      split at hf
      · unfold Conv.torchConv at hf
        split at hf
        · cases hf
        · rename_i hk
          cases hf
          simp only [List.length_append, List.length_replicate] at hk
          simp only [List.length_map, List.length_range, List.length_append, List.length_replicate]
          rw [show (xs.length : Int) + 2 * c.P - c.K = ((c.P + xs.length + c.P - c.K : Nat) : Int) by omega]
          push_cast; rfl
      · cases hf
  · simp only [hd]; omega
  · intro i xs ys i' h
    have h : (Pool.forward c xs).map (fun ys => (ys, i)) = .ok (ys, i') := h
    have hb : Pool.bufLen c = c.K := by simp only [Pool.bufLen, hd]; omega
    cases hf : Pool.forward c xs with
    | error e => rw [hf] at h; cases h
    | ok zs =>
      rw [hf] at h; cases h
      unfold Pool.forward at hf
      simp only [hb] at hf
      split at hf
      · cases hf
      · split at hf
        · cases hf
        · rename_i hk
          cases hf
          simp only [List.length_append, List.length_replicate, List.length_map] at hk
          simp only [List.length_map, List.length_range, List.length_append, List.length_replicate, hd,
            Nat.one_mul]
          rw [show (xs.length : Int) + 2 * c.P - c.K = ((c.P + xs.length + c.P - c.K : Nat) : Int) by omega]
          push_cast; rfl
  · intro i xs ys i' h
    cases h
    simp
  · intro i xs ys i' h
    have h : (Lambda.forward c xs).map (fun ys => (ys, i)) = .ok (ys, i') := h
    cases hx : xs with
    | nil =>
      subst hx
      cases hf : Lambda.forward c [] with
      | error e => rw [hf] at h; cases h
      | ok zs =>
        rw [hf] at h; cases h
        rw [hc.fwd.nil _ hf]; rfl
    | cons a t =>
      rw [hc.fwd.eq xs (by simp [hx])] at h
      cases h
      simp [hx]

/-- A stack of a stride-2 convolution, a frame-wise module and a padded convolution. -/
def exStack : Chain (.stream Int) (.stream Int) :=
  .cons (Conv.mod (exSum 3 2 0)) (.cons (Pointwise.mod fun x => 2 * x) (.single (Conv.mod (exSum 3 1 1))))

theorem exStack_counts : CountChain exStack :=
  .cons (C12_members.1 _ (by decide) (by decide)) (.cons (C12_members.2.2.1 _)
    (.single (C12_members.1 _ (by decide) (by decide))))

example : ((Sequential.mod exStack).rf, (Sequential.mod exStack).stride, (Sequential.mod exStack).padding) =
    (7, 2, 2) := by decide

/-- 9 frames: `(9 + 2*2 - 7)/2 + 1 = 4`. -/
example : ∃ ys i, (Sequential.mod exStack).fwd (Sequential.mod exStack).init [1, 2, 3, 4, 5, 6, 7, 8, 9] = .ok (ys, i) ∧
    ys.length = 4 := ⟨_, _, rfl, rfl⟩

/-- **C12** excludes `Delay`, `Skip` and dilated pools as members: they do not satisfy the formula
themselves, however many frames are passed.  (`Delay(d)` reports `receptive_field = d + 1` but its `forward`
is the identity or drops `2d` frames, `Skip(n)` reports `receptive_field = 1` but drops `n` frames, a pool
reports `dilation * K` instead of `dilation * (K - 1) + 1`.) -/
theorem C12_nonmembers (X : Type) (xs : List X) :
    (∀ c : Delay.Cfg X, 1 ≤ c.d → c.shrink ≠ .lagging → 2 * c.d ≤ xs.length → ∀ i ys j,
      (Delay.mod c).fwd i xs = .ok (ys, j) →
      (ys.length : Int) ≠ (xs.length + 2 * (Delay.mod c).padding - (Delay.mod c).rf) / (Delay.mod c).stride + 1) ∧
    (∀ n, 1 ≤ n → 1 ≤ xs.length → ∀ i ys j, (Skip.mod n X).fwd i xs = .ok (ys, j) →
      (ys.length : Int) ≠ (xs.length + 2 * (Skip.mod n X).padding - (Skip.mod n X).rf) / (Skip.mod n X).stride + 1) ∧
    (∀ (Y : Type) (c : Pool.Cfg X Y), 1 ≤ c.K → c.S = 1 → 2 ≤ c.dil → ∀ i ys j,
      (Pool.mod c).fwd i xs = .ok (ys, j) →
      (ys.length : Int) ≠ (xs.length + 2 * (Pool.mod c).padding - (Pool.mod c).rf) / (Pool.mod c).stride + 1) := by
  refine ⟨?_, ?_, ?_⟩
  · intro c hd hs hl i ys j h
    cases h
    simp only [Delay.forward]
    split
    · simp only [Nat.cast_zero, Nat.cast_one, Int.ediv_one]; omega
    · simp only [hs, if_false, List.length_drop, List.length_take, Nat.cast_zero, Nat.cast_one, Int.ediv_one]
      omega
  · intro n hn hl i ys j h
    cases h
    simp only [List.length_drop, Nat.cast_zero, Nat.cast_one, Int.ediv_one]
    omega
  · intro Y c hK hS hd i ys j h
    have h : (Pool.forward c xs).map (fun ys => (ys, i)) = .ok (ys, j) := h
    cases hf : Pool.forward c xs with
    | error e => rw [hf] at h; cases h
    | ok zs =>
      rw [hf] at h; cases h
      unfold Pool.forward at hf
      split at hf
      · cases hf
      · simp only at hf
        split at hf
        · cases hf
        · rename_i hk
          cases hf
          simp only [List.length_append, List.length_replicate, List.length_map] at hk
          simp only [List.length_map, List.length_range, List.length_append, List.length_replicate, hS,
            Nat.cast_one, Int.ediv_one, Nat.div_one]
          have e : c.dil * c.K = c.dil * (c.K - 1) + c.dil := by
            conv_lhs => rw [show c.K = c.K - 1 + 1 by omega]
            rw [Nat.mul_add, Nat.mul_one]
          rw [e]
          unfold Pool.bufLen at hk ⊢
          generalize c.dil * (c.K - 1) = q at *
          omega

example : (Delay.mod { d := 2, fill := fun _ => 0 : Delay.Cfg Int }).fwd ([], 0) [1, 2, 3, 4] =
    .ok ([1, 2, 3, 4], ([], 0)) := rfl

/-! ### C43 -/

/-- A module computes `f` frame by frame in every mode: `forward`, `forward_step` and `forward_steps` with
any flags, `_forward_step`, on every object, which stays as it is. -/
structure Framewise (m : CoMod (.stream X) (.stream Y)) (f : X → Y) : Prop where
  fwd : ∀ i xs, xs ≠ [] → m.fwd i xs = .ok (xs.map f, i)
  step : ∀ i u x, m.step i u x = .ok (some (f x), i)
  steps : ∀ i p u xs, xs ≠ [] → m.steps i p u xs = .ok (some (xs.map f), i)
  pstep : ∀ x s, m.pstep x s = .ok (some (f x), s)

/-- **C43.** `Lambda` with a frame function (`takes_time=False`) or with a clip function that acts frame by
frame (`takes_time=True`), possibly with mode-specific functions that do the same; `Linear`, `Reshape`; and
a module wrapped by `forward_stepping` whose `forward` acts frame by frame. -/
theorem C43_pointwise_modes_agree (f : X → Y) :
    Framewise (Lambda.mod { fn := some (.frame f) }) f ∧
    (∀ g : List X → List Y, (∀ xs, g xs = xs.map f) → Framewise (Lambda.mod { fn := some (.clip g) }) f) ∧
    (∀ g g' : List X → List Y, (∀ xs, g xs = xs.map f) → (∀ xs, g' xs = xs.map f) → ∀ fn,
      Framewise (Lambda.mod { fn := fn, fwdOnly := some g, stepOnly := some f, stepsOnly := some g' }) f) ∧
    Framewise (Pointwise.mod f) f ∧
    (∀ (g : List X → Except Err (List Y)) (s p : Nat), (∀ xs, xs ≠ [] → g xs = .ok (xs.map f)) →
      Framewise (Stepping.mod g s p) f) := by
  refine ⟨⟨?_, ?_, ?_, ?_⟩, fun g hg => ⟨?_, ?_, ?_, ?_⟩, fun g g' hg hg' fn => ⟨?_, ?_, ?_, ?_⟩,
    ⟨?_, ?_, ?_, ?_⟩, fun g s p hg => ⟨?_, ?_, ?_, ?_⟩⟩
  all_goals intros
  all_goals simp_all [Lambda.forward, Lambda.forwardSteps, Lambda.applyClip, Lambda.stepFn, squeeze, Except.map,
    bind, Except.bind, pure, Except.pure]

/-- **C43**, consequence: repeated `forward_step` returns the frames of `forward`. -/
theorem C43_steps_eq_forward {m : CoMod (.stream X) (.stream Y)} {f : X → Y} (h : Framewise m f) (i : m.Inst)
    (xs : List X) : callSteps m i xs = .ok ((xs.map f).map some, i) := by
  induction xs with
  | nil => rfl
  | cons x xs ih => simp [callSteps, h.step, ih, bind, Except.bind, pure, Except.pure]

example : Framewise (Lambda.mod { fn := some (.clip (List.map fun x : Int => 3 * x)) }) (fun x => 3 * x) :=
  (C43_pointwise_modes_agree (fun x : Int => 3 * x)).2.1 _ fun _ => rfl

example : callSteps (Pointwise.mod fun x : Int => x + 1) () [1, 2, 3] = .ok ([some 2, some 3, some 4], ()) :=
  C43_steps_eq_forward (C43_pointwise_modes_agree _).2.2.2.1 _ _

end CoInf
