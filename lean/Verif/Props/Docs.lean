/-
C112, C113: composition examples of the documentation: the squeeze-and-excitation block (README.md:233-259,
tests/continual/test_example.py:173-196)
`Residual(Sequential(AdaptiveAvgPool3d, Conv3d(1), act, Conv3d(1), act), reduce="mul")`,
and the residual connection spelled out (README.md:184-204).
-/
import Verif.Props.Adaptive
import Verif.Props.Residual
import Verif.Props.Parallel

set_option autoImplicit false

namespace CoInf

/-- A module whose `forward_steps` does the same with and without `pad_end`. -/
def PadIdle {X Y : Type} (m : CoMod (.stream X) (.stream Y)) : Prop :=
  ∀ i u xs, m.steps i true u xs = m.steps i false u xs

theorem Leaf.forwardSteps_idle {X Y : Type} (L : Leaf X Y) (h : L.padding = 0) (i : L.Inst) (u : Bool) (xs : List X) :
    L.forwardSteps i true u xs = L.forwardSteps i false u xs := by
  unfold Leaf.forwardSteps Leaf.endPads
  rw [h]
  cases hl : L.loop (L.get i) xs with
  | error e => rfl
  | ok p => simp [Leaf.loop, bind, Except.bind, pure, Except.pure]

theorem padIdle_cons {X Y Z : Type} {m : CoMod (.stream X) (.stream Y)} {c : Chain (.stream Y) (.stream Z)}
    (h1 : PadIdle m) (h2 : PadIdle (Sequential.mod c)) : PadIdle (Sequential.mod (.cons m c)) := by
  rintro ⟨i1, i2⟩ u xs
  show (Chain.cons m c).steps (i1, i2) true u xs = (Chain.cons m c).steps (i1, i2) false u xs
  rw [Sequential.steps_eq, Sequential.steps_eq, h1]
  congr 1
  funext p
  obtain ⟨o, j⟩ := p
  cases o with
  | none => rfl
  | some y =>
    have := h2 i2 u y
    simp only [Sequential.mod] at this
    simp only [this]

namespace Conv
variable {X Y : Type} [Zero X] [AddCommMonoid Y] (c : Cfg X Y)

/-- Kernel of one frame, no padding, no stride. -/
structure Point : Prop where
  K : c.K = 1
  S : c.S = 1
  P : c.P = 0
  lin : ∀ k, c.w k 0 = 0

/-- What such a convolution does to a frame. -/
def atPoint (x : X) : Y := c.w 0 x + c.bias.getD 0

variable {c}

theorem Point.good (h : Point c) : Good c :=
  { hK := by rw [h.K], hS := by rw [h.S], hP := by rw [h.P, h.K], lin := h.lin, hKS := Or.inr h.S }

theorem Point.phi (h : Point c) (xs : List X) : phi c xs = xs.map (atPoint c) := by
  have hpad : ∀ l : List X, Spec.padStart 0 (c.fill.make 0) l = l := by intro l; cases l <;> rfl
  simp only [Conv.phi, Spec.streamOut, h.K, h.S, h.P, hpad]
  induction xs using List.reverseRecOn with
  | nil => rfl
  | append_singleton l x ih =>
    rw [Attn.slide_one, ih, if_pos (by omega)]
    simp [Spec.lastN, Spec.corr, atPoint]

theorem Point.fwd (h : Point c) (i : (mod c).Inst) {xs : List X} (hx : xs ≠ []) :
    (mod c).fwd i xs = .ok (xs.map (atPoint c), i) := by
  have : forward c xs = .ok (xs.map (atPoint c)) := by
    cases xs with
    | nil => exact absurd rfl hx
    | cons a l =>
      have hl : (a :: l).getLast? = some ((a :: l).getLast (by simp)) := List.getLast?_eq_some_getLast _
      simp only [forward, hl, List.head?_cons, h.P, List.replicate_zero, List.nil_append, List.append_nil, torchConv, h.K, h.S]
      rw [if_neg (by simp)]
      congr 1
      apply List.ext_getElem
      · simp
      · intro n h1 h2
        have hn : n < (a :: l).length := by simpa using h2
        have hg : (a :: l)[n]? = some (a :: l)[n] := List.getElem?_eq_getElem hn
        rw [List.getElem_map, List.getElem_map, List.getElem_range]
        simp only [Nat.mul_one, List.range_one, List.map_cons, List.map_nil, Nat.add_zero, hg, List.sum_cons, List.sum_nil,
          add_zero, atPoint, addBias]
        cases c.bias <;> simp
  show (forward c xs).map _ = _
  rw [this]; rfl

theorem Point.idle (h : Point c) : PadIdle (mod c) := fun i u xs => (leaf c).forwardSteps_idle h.P i u xs

end Conv

namespace Docs
variable {X Y Z : Type} [AddCommMonoid Y] [AddCommMonoid Z]

/-- The branch of the block, README.md:248-256: `pool`, `down`, `act1`, `up`, `act2`.  The pooled frame has one cell per
channel; `act2` stands for the activation followed by the broadcast over the cells of a frame that the multiplication makes
(`Scale refers to a broadcasted element-wise multiplication`, README.md:242). -/
@[reducible] def branch (pool : AdaptivePool.Cfg X Y) (down : Conv.Cfg Y Z) (act1 : Z → Z) (up : Conv.Cfg Z Y) (act2 : Y → X) :
    CoMod (.stream X) (.stream X) :=
  Sequential.mod (.cons (AdaptivePool.mod pool) (.cons (Conv.mod down) (.cons (Pointwise.mod act1)
    (.cons (Conv.mod up) (.single (Pointwise.mod act2))))))

/-- `Residual(branch, reduce=...)`: README.md:247, 257. -/
def block (fill : X → X) (op : X → X → X) (pool : AdaptivePool.Cfg X Y) (down : Conv.Cfg Y Z) (act1 : Z → Z) (up : Conv.Cfg Z Y)
    (act2 : Y → X) : Except Err (CoMod (.stream X) (.stream X)) :=
  Residual.make fill (foldReducer op) .off (branch pool down act1 up act2)

end Docs

namespace Spec
variable {X Y Z : Type} [AddCommMonoid Y] [AddCommMonoid Z]

/-- The excitation: two fully connected layers with their activations. -/
def excite (down : Conv.Cfg Y Z) (act1 : Z → Z) (up : Conv.Cfg Z Y) (act2 : Y → X) (y : Y) : X :=
  act2 (up.w 0 (act1 (down.w 0 y + down.bias.getD 0)) + up.bias.getD 0)

end Spec

namespace Docs
open Spec
variable {X Y Z : Type} [AddCommMonoid Y] [AddCommMonoid Z]

/-- The arguments the documentation uses: the pooling slides frame by frame without padding, the convolutions are pointwise. -/
structure Good (pool : AdaptivePool.Cfg X Y) (down : Conv.Cfg Y Z) (up : Conv.Cfg Z Y) : Prop where
  window : Pool.Ok pool.pool
  splits : AdaptivePool.Splits pool
  S : pool.pool.S = 1
  P : pool.pool.P = 0
  first : Conv.Point down
  second : Conv.Point up

variable {fill : X → X} {op : X → X → X} {pool : AdaptivePool.Cfg X Y} {down : Conv.Cfg Y Z} {act1 : Z → Z}
  {up : Conv.Cfg Z Y} {act2 : Y → X}

theorem slide_congr {A B : Type} (K S : Nat) (f g : List A → B) (hK : 1 ≤ K) (h : ∀ w, w ≠ [] → f w = g w) (zs : List A) :
    slide K S f zs = slide K S g zs := by
  unfold slide
  apply List.map_congr_left
  intro j hj
  apply h
  have := windowCount_bound (List.mem_range.1 hj)
  intro e
  have := congrArg List.length e
  simp at this
  omega

theorem map_slide {A B C : Type} (K S : Nat) (f : List A → B) (g : B → C) (zs : List A) :
    (slide K S f zs).map g = slide K S (fun w => g (f w)) zs := by
  simp [slide]

theorem branch_impl (H : Good pool down up) :
    Implements (branch pool down act1 up act2)
      (slide pool.pool.K 1 fun w => excite down act1 up act2 (pool.clip w)) := by
  have T := Sequential.simRel_cons (AdaptivePool.simRel pool H.window) (Sequential.simRel_cons (Conv.simRel down H.first.good)
    (Sequential.simRel_cons (Pointwise.simRel act1) (Sequential.simRel_cons (Conv.simRel up H.second.good)
      (Sequential.simRel_single (Pointwise.simRel act2)))))
  have hpad : ∀ l : List X, padStart 0 pool.pool.fillIn l = l := by intro l; cases l <;> rfl
  have e : ((((List.map act2 ∘ Conv.phi up) ∘ List.map act1) ∘ Conv.phi down) ∘ Pool.phi pool.pool) =
      slide pool.pool.K 1 fun w => excite down act1 up act2 (pool.clip w) := by
    funext xs
    simp only [Function.comp_apply, H.first.phi, H.second.phi, List.map_map, Pool.phi, streamOut, H.S, H.P, hpad, map_slide]
    refine slide_congr _ _ _ _ H.window.hK (fun w hw => ?_) xs
    simp [excite, Conv.atPoint, H.splits w hw, Pool.win]
  rw [e] at T
  exact ⟨_, T⟩

theorem branch_idle (H : Good pool down up) : PadIdle (branch pool down act1 up act2) :=
  padIdle_cons (fun i u xs => (Pool.leaf pool.pool).forwardSteps_idle H.P i u xs)
    (padIdle_cons H.first.idle (padIdle_cons (fun _ _ _ => rfl) (padIdle_cons H.second.idle fun _ _ _ => rfl)))

theorem branch_fwd (H : Good pool down up) (i : (branch pool down act1 up act2).Inst) {xs : List X} (hx : xs ≠ []) :
    ∃ j, (branch pool down act1 up act2).fwd i xs = .ok ([excite down act1 up act2 (pool.clip xs)], j) := by
  obtain ⟨i1, i2, i3, i4, i5⟩ := i
  have h1 : (AdaptivePool.mod pool).fwd i1 xs = .ok ([pool.clip xs], i1) := if_neg hx
  have h2 := H.first.fwd i2 (xs := [pool.clip xs]) (by simp)
  have h4 := H.second.fwd i4 (xs := [act1 (Conv.atPoint down (pool.clip xs))]) (by simp)
  refine ⟨(i1, i2, i3, i4, i5), ?_⟩
  show Chain.fwd (.cons (AdaptivePool.mod pool) (.cons (Conv.mod down) (.cons (Pointwise.mod act1)
    (.cons (Conv.mod up) (.single (Pointwise.mod act2)))))) (i1, i2, i3, i4, i5) xs = _
  rw [Sequential.fwd_eq, h1]
  simp only [ok_bind]
  rw [Sequential.fwd_eq, h2]
  simp only [ok_bind, List.map_cons, List.map_nil]
  rw [Sequential.fwd_eq]
  simp only [ok_bind, List.map_cons, List.map_nil]
  rw [Sequential.fwd_eq, h4]
  rfl

/-- The module the documentation constructs. -/
@[reducible] def built (fill : X → X) (op : X → X → X) (pool : AdaptivePool.Cfg X Y) (down : Conv.Cfg Y Z) (act1 : Z → Z)
    (up : Conv.Cfg Z Y) (act2 : Y → X) : CoMod (.stream X) (.stream X) :=
  BroadcastReduce.mod (foldReducer op) [Delay.mod { d := pool.pool.K - 1, fill := fill }, branch pool down act1 up act2]

theorem branch_geometry (H : Good pool down up) :
    (branch pool down act1 up act2).rf = pool.pool.K ∧ (branch pool down act1 up act2).stride = 1 ∧
    (branch pool down act1 up act2).padding = 0 ∧
    (branch pool down act1 up act2).delay = ((pool.pool.K - 1 : Nat) : Int) := by
  have hK := H.window.hK
  have hrf : (branch pool down act1 up act2).rf = pool.pool.K := by
    simp [Chain.geos, Chain.rfOf, H.window.hd, H.first.K, H.second.K, H.S, H.first.S, H.second.S]
  have hp : (branch pool down act1 up act2).padding = 0 := by
    simp [Chain.geos, Chain.paddingOf, H.P, H.first.P, H.second.P]
  refine ⟨hrf, by simp [Chain.geos, Chain.strideOf, H.S, H.first.S, H.second.S], hp, ?_⟩
  show ((branch pool down act1 up act2).rf : Int) - 1 - (branch pool down act1 up act2).padding = _
  rw [hrf, hp]; omega

theorem block_eq (H : Good pool down up) :
    block fill op pool down act1 up act2 = .ok (built fill op pool down act1 up act2) := by
  obtain ⟨hrf, hst, hp, hd⟩ := branch_geometry (act1 := act1) (act2 := act2) H
  unfold block Residual.make
  rw [if_neg (by rw [hst]; simp)]
  have he : Residual.effective .off (branch pool down act1 up act2) = .off := by unfold Residual.effective; split <;> rfl
  rw [he, hd]
  have hb : Residual.branch fill .off ((pool.pool.K - 1 : Nat) : Int) =
      .ok (Delay.mod { d := pool.pool.K - 1, fill := fill }) := by
    simp [Residual.branch, Residual.Mode.toShrink]
  simp only [Residual.halved, reduceCtorEq, or_self, if_false]
  rw [hb]
  show BroadcastReduce.make fill false (foldReducer op)
    [Delay.mod { d := pool.pool.K - 1, fill := fill }, branch pool down act1 up act2] = _
  have hall : ([Delay.mod { d := pool.pool.K - 1, fill := fill }, branch pool down act1 up act2].all fun m =>
      m.stride = (built fill op pool down act1 up act2).stride) = true := by
    rw [List.all_cons, List.all_cons, List.all_nil]
    refine Bool.and_eq_true_iff.2 ⟨decide_eq_true rfl, Bool.and_eq_true_iff.2 ⟨decide_eq_true ?_, rfl⟩⟩
    exact hst
  show (if (2 : Nat) ≤ 1 then _ else if _ then _ else _) = _
  rw [if_neg (by decide)]
  exact if_pos hall

theorem lengths_agree (H : Good pool down up) {A : Type} (xs : List X) (g : List X → A) :
    (delayed (pool.pool.K - 1) 0 xs).length = (slide pool.pool.K 1 g xs).length := by
  have hK := H.window.hK
  rw [Residual.delayed_length, slide_length]
  unfold windowCount
  split
  · omega
  · rw [Nat.div_one]; omega

theorem built_impl (H : Good pool down up) (fill : X → X) (op : X → X → X) (act1 : Z → Z) (act2 : Y → X) (x0 : X) :
    Implements (built fill op pool down act1 up act2) fun xs => List.zipWith (fun x y => foldFrame op x0 [x, y])
      (delayed (pool.pool.K - 1) 0 xs) (slide pool.pool.K 1 (fun w => excite down act1 up act2 (pool.clip w)) xs) :=
  Residual.pair_impl (reduceOk_of (by decide) (foldReducer_lawful op x0 2 (by decide)) (foldReducer_sound op))
    (Residual.delay_facts (pool.pool.K - 1) fill).impl (branch_impl H) fun xs => lengths_agree H xs _

theorem scaled (op : X → X → X) (xs : List X) (s : X) : bcast2 op xs [s] = .ok (xs.map fun x => op x s) := by
  match xs with
  | [] => rfl
  | [x] => rfl
  | x :: y :: l => rfl

/-- Both members of the block on a clean block, with end padding. -/
theorem members (H : Good pool down up) {i1 i2} (hi : Reach (built fill op pool down act1 up act2) [] (i1, i2, ())) (u : Bool)
    (xs : List X) (hx : xs ≠ []) :
    ∃ j1 j2 ys, (Delay.mod { d := pool.pool.K - 1, fill := fill }).steps i1 true u xs = .ok (some xs, j1) ∧
      (branch pool down act1 up act2).steps i2 true u xs = .ok (optList ys, j2) ∧
      ys = slide pool.pool.K 1 (fun w => excite down act1 up act2 (pool.clip w)) xs := by
  obtain ⟨x, hx0⟩ := List.exists_mem_of_ne_nil xs hx
  have S := BroadcastReduce.simRel (r := foldReducer op) (f := foldFrame op x)
    (ms := [Delay.mod { d := pool.pool.K - 1, fill := fill }, branch pool down act1 up act2])
    (φs := [delayed (pool.pool.K - 1) 0, slide pool.pool.K 1 (fun w => excite down act1 up act2 (pool.clip w))]) (by simp)
    (.cons (Residual.delay_facts (pool.pool.K - 1) fill).impl (.cons (branch_impl H) .nil))
    (by
      intro p hp q hq xs
      simp only [List.mem_cons, List.not_mem_nil, or_false] at hp hq
      rcases hp with rfl | rfl <;> rcases hq with rfl | rfl <;>
      first | rfl | exact lengths_agree H xs _ | exact (lengths_agree H xs _).symm)
    (foldReducer_lawful op x 2 (by decide))
  obtain ⟨r1, r2, _⟩ := S.of_reach hi
  obtain ⟨_, j1, h1⟩ := C06_delay_padEnd { d := pool.pool.K - 1, fill := fill } rfl r1 u xs hx
  obtain ⟨ys, j2, h2, h3, _⟩ := (branch_impl (act1 := act1) (act2 := act2) H).reach.steps u xs hx r2
  refine ⟨j1, j2, ys, h1, (branch_idle H i2 u xs).trans h2, ?_⟩
  rw [(branch_impl (act1 := act1) (act2 := act2) H).reach.phi_nil] at h3
  exact h3.symm

theorem fwd_pair {a b : CoMod (.stream X) (.stream X)} {ia : a.Inst} {ib : b.Inst} {ja jb} {xs : List X} {s : X}
    (h1 : a.fwd ia xs = .ok (xs, ja)) (h2 : b.fwd ib xs = .ok ([s], jb)) :
    (BroadcastReduce.mod (foldReducer op) [a, b]).fwd (ia, ib, ()) xs = .ok (xs.map fun x => op x s, (ja, jb, ())) := by
  simp [BroadcastReduce.fwd, BroadcastReduce.fwdAll, h1, h2, scaled, foldReducer, bind, Except.bind, pure, Except.pure]

theorem steps_pair_none {a b : CoMod (.stream X) (.stream X)} {ia : a.Inst} {ib : b.Inst} {ja jb} {p u : Bool} {xs ys : List X}
    (h1 : a.steps ia p u xs = .ok (some ys, ja)) (h2 : b.steps ib p u xs = .ok (none, jb)) :
    (BroadcastReduce.mod (foldReducer op) [a, b]).steps (ia, ib, ()) p u xs = .ok (none, (ja, jb, ())) := by
  simp [BroadcastReduce.steps, BroadcastReduce.stepsAll, h1, h2, bind, Except.bind, pure, Except.pure, nonempty, allSome]

end Docs

open Spec Docs
variable {X Y Z : Type} [AddCommMonoid Y] [AddCommMonoid Z] {pool : AdaptivePool.Cfg X Y} {down : Conv.Cfg Y Z}
  {up : Conv.Cfg Z Y}

/-- **C112**, construction and streaming.  The block is accepted; from the `kernel_size`-th frame on, `forward_step` returns the
oldest of the last `kernel_size` frames, scaled by the excitation of the pooling of these frames. -/
theorem C112_stream (H : Good pool down up) (fill : X → X) (op : X → X → X) (act1 : Z → Z) (act2 : Y → X) :
    ∃ M, block fill op pool down act1 up act2 = .ok M ∧ M.delay = (pool.pool.K : Int) - 1 ∧ M.rf = pool.pool.K ∧
      ∀ {h i}, Reach M h i → ∀ u x, ∃ j, M.step i u x = .ok
        (if pool.pool.K ≤ h.length + 1 then (lastN pool.pool.K (h ++ [x])).head?.map fun x0 =>
            op x0 (excite down act1 up act2 (pool.clip (lastN pool.pool.K (h ++ [x]))))
          else none, j) := by
  have hK := H.window.hK
  obtain ⟨hrf, hst, hp, hd⟩ := branch_geometry (act1 := act1) (act2 := act2) H
  refine ⟨_, block_eq H, ?_, ?_, ?_⟩
  · show max ((pool.pool.K - 1 : Nat) : Int) (branch pool down act1 up act2).delay = _
    rw [hd]; omega
  · show max (max 0 _) (branch pool down act1 up act2).rf = _
    rw [hrf]
    simp
    omega
  intro h i hi u x
  obtain ⟨o, j, h1, h2, _⟩ := (built_impl H fill op act1 act2 x).reach.step u x hi
  refine ⟨j, ?_⟩
  rw [h1]
  congr 2
  rw [Attn.slide_one] at h2
  by_cases hl : pool.pool.K ≤ h.length + 1
  · rw [if_pos hl] at h2 ⊢
    have hlt : h.length + 1 - pool.pool.K < (h ++ [x]).length := by simp; omega
    have hx0 : (lastN pool.pool.K (h ++ [x])).head? = some (h ++ [x])[h.length + 1 - pool.pool.K] := by
      simp only [lastN, List.head?_drop, List.length_append, List.length_singleton]
      exact List.getElem?_eq_getElem hlt
    have hdl : delayed (pool.pool.K - 1) 0 (h ++ [x]) =
        delayed (pool.pool.K - 1) 0 h ++ [(h ++ [x])[h.length + 1 - pool.pool.K]] := by
      simp only [delayed, List.drop_zero]
      have e1 : (h ++ [x]).length - (pool.pool.K - 1) = (h.length + 1 - pool.pool.K) + 1 := by simp; omega
      have e2 : h.length - (pool.pool.K - 1) = h.length + 1 - pool.pool.K := by omega
      rw [e1, e2, List.take_succ_eq_append_getElem hlt, List.take_append_of_le_length (by omega)]
    rw [hdl, List.zipWith_append (lengths_agree H h _)] at h2
    have h2 := List.append_cancel_left h2
    rw [hx0]
    cases o with
    | none => cases h2
    | some y => simp [foldFrame] at h2; simp [h2]
  · rw [if_neg hl] at h2 ⊢
    have hdl : delayed (pool.pool.K - 1) 0 (h ++ [x]) = delayed (pool.pool.K - 1) 0 h := by
      simp only [delayed, List.drop_zero]
      have e1 : (h ++ [x]).length - (pool.pool.K - 1) = 0 := by simp; omega
      have e2 : h.length - (pool.pool.K - 1) = 0 := by omega
      rw [e1, e2]; rfl
    rw [hdl, List.append_nil] at h2
    cases o with
    | none => rfl
    | some y => simpa using congrArg List.length h2

/-- **C112**, `forward`: every frame is scaled by the excitation of the pooling of the whole clip. -/
theorem C112_forward (H : Good pool down up) (fill : X → X) (op : X → X → X) (act1 : Z → Z) (act2 : Y → X) :
    ∃ M, block fill op pool down act1 up act2 = .ok M ∧ ∀ i xs, xs ≠ [] → ∃ j,
      M.fwd i xs = .ok (xs.map fun x => op x (excite down act1 up act2 (pool.clip xs)), j) := by
  refine ⟨_, block_eq H, ?_⟩
  rintro ⟨i1, i2, _⟩ xs hx
  obtain ⟨j, hj⟩ := branch_fwd (act1 := act1) (act2 := act2) H i2 hx
  refine ⟨(i1, j, ()), ?_⟩
  have h1 : (Delay.mod { d := pool.pool.K - 1, fill := fill }).fwd i1 xs = .ok (xs, i1) := by
    show Except.ok (Delay.forward _ xs, i1) = _
    simp [Delay.forward]
  exact fwd_pair h1 hj

/-- **C112**, clips of exactly `kernel_size` frames: `forward_steps` with end padding on a clean block gives `forward`. -/
theorem C112_clip_partial (H : Good pool down up) (fill : X → X) (op : X → X → X) (act1 : Z → Z) (act2 : Y → X) :
    ∃ M, block fill op pool down act1 up act2 = .ok M ∧ ∀ {i}, Reach M [] i → ∀ u xs, xs.length = pool.pool.K → ∃ j,
      M.steps i true u xs = .ok (some (xs.map fun x => op x (excite down act1 up act2 (pool.clip xs))), j) := by
  have hK := H.window.hK
  refine ⟨_, block_eq H, ?_⟩
  rintro ⟨i1, i2, _⟩ hi u xs hx
  have hne : xs ≠ [] := by rintro rfl; simp at hx; omega
  obtain ⟨j1, j2, ys, h1, h2, h3⟩ := members H hi u xs hne
  have : ys = [excite down act1 up act2 (pool.clip xs)] := by
    rw [h3]
    simp [slide, windowCount, ← hx]
  subst this
  exact ⟨_, by rw [Residual.steps_pair_fold op h1 h2, scaled]; rfl⟩

/-- **C112**, refuted for every longer clip: end padding raises, although `forward` returns as many frames as it was given. -/
theorem C112_longer_refuted (H : Good pool down up) (fill : X → X) (op : X → X → X) (act1 : Z → Z) (act2 : Y → X)
    (hK : 2 ≤ pool.pool.K) :
    ∃ M, block fill op pool down act1 up act2 = .ok M ∧ ∀ {i}, Reach M [] i → ∀ u xs, pool.pool.K < xs.length →
      M.steps i true u xs = .error .runtime := by
  refine ⟨_, block_eq H, ?_⟩
  rintro ⟨i1, i2, _⟩ hi u xs hx
  have hne : xs ≠ [] := by rintro rfl; simp at hx
  obtain ⟨j1, j2, ys, h1, h2, h3⟩ := members H hi u xs hne
  have hl : ys.length = xs.length - pool.pool.K + 1 := by
    rw [h3, slide_length, windowCount, if_neg (by omega), Nat.div_one]
  cases ys with
  | nil => simp at hl
  | cons y ys =>
    rw [Residual.steps_pair_fold op h1 h2]
    have : bcast2 op xs (y :: ys) = .error .runtime := by
      unfold bcast2
      rw [if_neg (by rw [hl]; omega)]
      match xs, ys with
      | [x], _ => simp at hx; omega
      | x :: x' :: xs, [] => simp at hl hx; omega
      | x :: x' :: xs, y' :: ys => rfl
    rw [this]
    rfl

/-- **C112**, refuted for every shorter clip: end padding gives nothing. -/
theorem C112_shorter_refuted (H : Good pool down up) (fill : X → X) (op : X → X → X) (act1 : Z → Z) (act2 : Y → X) :
    ∃ M, block fill op pool down act1 up act2 = .ok M ∧ ∀ {i}, Reach M [] i → ∀ u xs, xs ≠ [] → xs.length < pool.pool.K →
      ∃ j, M.steps i true u xs = .ok (none, j) := by
  refine ⟨_, block_eq H, ?_⟩
  rintro ⟨i1, i2, _⟩ hi u xs hne hx
  obtain ⟨j1, j2, ys, h1, h2, h3⟩ := members H hi u xs hne
  have : ys = [] := by
    rw [h3]
    simp [slide, windowCount, hx]
  subst this
  exact ⟨_, steps_pair_none h1 h2⟩

/-! ### An instance

Frames with two cells, global average pooling over two frames, a rectified excitation. -/

namespace Docs

def exSqueeze : AdaptivePool.Cfg (Bool → Rat) (Unit → Rat) := AdaptivePool.avg (fun _ => [false, true]) 1 2 1 0

def exLinear (a b : Rat) : Conv.Cfg (Unit → Rat) (Unit → Rat) :=
  { K := 1, S := 1, P := 0, fill := .zeros, padMode := .zeros, w := fun _ x q => a * x q, bias := some fun _ => b }

theorem exLinear_point (a b : Rat) : Conv.Point (exLinear a b) := ⟨rfl, rfl, rfl, fun _ => by funext q; simp [exLinear]⟩

theorem exBlock_good : Good exSqueeze (exLinear 2 1) (exLinear 3 0) where
  window := AdaptivePool.avg_ok _ _ _ _ _ (by decide) (by decide) (by decide)
  splits := AdaptivePool.avg_splits _ _ _ _ _
  S := rfl
  P := rfl
  first := exLinear_point 2 1
  second := exLinear_point 3 0

end Docs

/-- After one frame of ones, the frame `(1, 3)` makes the block return the first frame, scaled by `3 · (2 · 3/2 + 1) = 12`. -/
example : ∃ M, block (fun _ _ => 0) (fun a b p => a p * b p) exSqueeze (exLinear 2 1) (fun z q => max 0 (z q)) (exLinear 3 0)
      (fun y _ => y ()) = .ok M ∧
    ∃ i i' o, M.step M.init true (fun _ => 1) = .ok (none, i) ∧
      M.step i true (fun c => if c then 3 else 1) = .ok (some o, i') ∧ o true = 12 := by
  obtain ⟨M, h1, _, _, h2⟩ := C112_stream exBlock_good (fun _ _ => 0) (fun a b p => a p * b p) (fun z q => max 0 (z q))
    (fun y _ => y ())
  refine ⟨M, h1, ?_⟩
  obtain ⟨i, h3⟩ := h2 .init true (fun _ => 1)
  have h3' : M.step M.init true (fun _ => 1) = .ok (none, i) := h3
  obtain ⟨i', h4⟩ := h2 (.step true _ .init h3') true (fun c => if c then 3 else 1)
  refine ⟨i, i', _, h3', h4, ?_⟩
  simp [lastN, excite, exLinear, exSqueeze, AdaptivePool.avg, AdaptivePool.avgClip]
  norm_num

example : ∃ M, block (fun _ _ => 0) (fun a b p => a p * b p) exSqueeze (exLinear 2 1) (fun z q => max 0 (z q)) (exLinear 3 0)
      (fun y _ => y ()) = .ok M ∧
    M.steps M.init true true [fun _ => 1, fun _ => 2, fun _ => 3] = .error .runtime ∧
    ∃ ys j, M.fwd M.init [fun _ => 1, fun _ => 2, fun _ => 3] = .ok (ys, j) ∧ ys.length = 3 := by
  obtain ⟨M, h1, h2⟩ := C112_longer_refuted exBlock_good (fun _ _ => 0) (fun a b p => a p * b p) (fun z q => max 0 (z q))
    (fun y _ => y ()) (by decide)
  obtain ⟨M', h1', h3⟩ := C112_forward exBlock_good (fun _ _ => 0) (fun a b p => a p * b p) (fun z q => max 0 (z q))
    (fun y _ => y ())
  cases h1.symm.trans h1'
  obtain ⟨j, h4⟩ := h3 M.init [fun _ => 1, fun _ => 2, fun _ => 3] (by simp)
  exact ⟨M, h1, h2 .init true _ (by decide), _, j, h4, rfl⟩

example : ∃ M, block (fun _ _ => 0) (fun a b p => a p * b p) exSqueeze (exLinear 2 1) (fun z q => max 0 (z q)) (exLinear 3 0)
      (fun y _ => y ()) = .ok M ∧
    (∃ j, M.steps M.init true true [fun _ => 1] = .ok (none, j)) ∧
    ∃ ys j, M.steps M.init true true [fun _ => 1, fun _ => 2] = .ok (some ys, j) ∧ ys.length = 2 := by
  obtain ⟨M, h1, h2⟩ := C112_shorter_refuted exBlock_good (fun _ _ => 0) (fun a b p => a p * b p) (fun z q => max 0 (z q))
    (fun y _ => y ())
  obtain ⟨M', h1', h3⟩ := C112_clip_partial exBlock_good (fun _ _ => 0) (fun a b p => a p * b p) (fun z q => max 0 (z q))
    (fun y _ => y ())
  cases h1.symm.trans h1'
  obtain ⟨j, h4⟩ := h3 .init true [fun _ => 1, fun _ => 2] rfl
  exact ⟨M, h1, h2 .init true _ (by simp) (by decide), _, j, h4, rfl⟩

/-! ### C113: the residual connection of the documentation, spelled out -/

namespace Docs
variable {A : Type}

/-- README.md:192-202: `Sequential(Broadcast(2), Parallel(m, Delay(d)), Reduce(...))`. -/
def explicit (fill : A → A) (r : Reducer A A) (m : CoMod (.stream A) (.stream A)) (d : Nat) :
    Except Err (CoMod (.stream A) (.stream A)) :=
  (Parallel.make fill true [m, Delay.mod { d := d, fill := fill }]).map fun p =>
    Sequential.mod (.cons (Broadcast.mod A (some 2)) (.cons p (.single (Reduce.mod r))))

theorem callSteps_commutes {M N : CoMod (.stream A) (.stream A)} {g : M.Inst → N.Inst} (H : Commutes M N g) (xs : List A) :
    ∀ i, callSteps N (g i) xs = (callSteps M i xs).map fun p => (p.1, g p.2) := by
  induction xs with
  | nil => intro i; rfl
  | cons x xs ih =>
    intro i
    simp only [callSteps, H.step]
    cases M.step i true x with
    | error e => rfl
    | ok p =>
      simp only [Except.map, bind, Except.bind, ih]
      cases callSteps M p.2 xs <;> rfl

theorem fold_ok (op : A → A → A) (x0 : A) : ReduceOk (foldReducer op) (foldFrame op x0) 2 :=
  reduceOk_of (by decide) (foldReducer_lawful op x0 2 (by decide)) (foldReducer_sound op)

/-- The container that the spelled-out form amounts to. -/
theorem explicit_eq (fill : A → A) (r : Reducer A A) {m : CoMod (.stream A) (.stream A)} {φ : List A → List A} (G : Geom m φ)
    (hs : m.stride = 1) {d : Nat} (hd : m.delay ≤ d) (hst : (BroadcastReduce.delayTo fill d m).stride = 1) :
    explicit fill r m d =
      .ok (mapReduce r [BroadcastReduce.delayTo fill d m, Delay.mod { d := d, fill := fill }]) := by
  have hm : BroadcastReduce.maxDelay [m, Delay.mod { d := d, fill := fill }] = d := by
    show max m.delay (d : Int) = d
    omega
  have ha : BroadcastReduce.autoDelay fill true [m, Delay.mod { d := d, fill := fill }] =
      [BroadcastReduce.delayTo fill d m, Delay.mod { d := d, fill := fill }] := by
    simp only [BroadcastReduce.autoDelay, if_true, List.map_cons, List.map_nil, hm]
    rw [BroadcastReduce.delayTo_of_not_lt (m := Delay.mod { d := d, fill := fill }) fill (by simp)]
  have hall : ([BroadcastReduce.delayTo fill d m, Delay.mod { d := d, fill := fill }].all fun k =>
      k.stride = (Parallel.mod [BroadcastReduce.delayTo fill d m, Delay.mod { d := d, fill := fill }]).stride) = true := by
    rw [List.all_cons, List.all_cons, List.all_nil]
    exact Bool.and_eq_true_iff.2 ⟨decide_eq_true rfl, Bool.and_eq_true_iff.2 ⟨decide_eq_true hst.symm, rfl⟩⟩
  have hp : Parallel.make fill true [m, Delay.mod { d := d, fill := fill }] =
      .ok (Parallel.mod [BroadcastReduce.delayTo fill d m, Delay.mod { d := d, fill := fill }]) := by
    unfold Parallel.make
    rw [if_neg (by simp), ha]
    exact if_pos hall
  unfold explicit
  rw [hp]
  rfl

end Docs

/-- **C113**.  Let `m` keep the contract, have stride one and 'same' padding `P`, and let the combination `op` be commutative.  The
short-hand `Residual(m)` and the spelled-out form with `Delay(d)`, `P ≤ d`, are both accepted; they agree on `forward`; the delay of
the first is `P`, that of the second is `d`, and in streaming the second returns what the first does, `d - P` calls later. -/
theorem C113_explicit {A : Type} {op : A → A → A} (hop : ∀ a b, op a b = op b a) (fill : A → A)
    {m : CoMod (.stream A) (.stream A)} {φ : List A → List A} (C : Contract m φ) (hs : m.stride = 1)
    (hsame : m.rf = 2 * m.padding + 1) {d : Nat} (hd : m.padding ≤ d) :
    ∃ R E, Residual.make fill (foldReducer op) .off m = .ok R ∧ explicit fill (foldReducer op) m d = .ok E ∧
      R.delay = m.padding ∧ E.delay = d ∧
      (∀ xs ys j, xs ≠ [] → m.fwd m.init xs = .ok (ys, j) → ∃ zs jR jE,
        R.fwd R.init xs = .ok (zs, jR) ∧ E.fwd E.init xs = .ok (zs, jE)) ∧
      ∀ xs, ∃ os jR os' jE, callSteps R R.init xs = .ok (os, jR) ∧ callSteps E E.init xs = .ok (os', jE) ∧
        os'.length = xs.length ∧ (∀ t < xs.length, ∃ o, os[t]? = some o ∧ (o = none ↔ t < m.padding)) ∧
        ∀ t < xs.length, os'[t]? = if t < d - m.padding then some none else os[t - (d - m.padding)]? := by
  have hmd : m.delay = (m.padding : Int) := by rw [C.geom.delay, hsame]; omega
  obtain ⟨ψ, HA⟩ := BroadcastReduce.delayTo_aligns fill (D := d) C.impl C.geom hs (by omega)
  have hE := explicit_eq fill (foldReducer op) C.geom hs (d := d) (by omega) HA.stride
  refine ⟨_, _, Residual.make_same fill _ .off C.geom hs hsame, hE, ?_, ?_, ?_, ?_⟩
  · show max (m.padding : Int) m.delay = _
    omega
  · have hg := C18_geometry (foldReducer op) [BroadcastReduce.delayTo fill d m, Delay.mod { d := d, fill := fill }]
    have h1 : (BroadcastReduce.mod (foldReducer op)
        [BroadcastReduce.delayTo fill d m, Delay.mod { d := d, fill := fill }]).delay = d := by
      show max (BroadcastReduce.delayTo fill d m).delay (d : Int) = d
      rw [HA.delay]; simp
    have h2 := HA.geom.delay
    rw [HA.delay, HA.padding] at h2
    have h3 : (BroadcastReduce.mod (foldReducer op)
        [BroadcastReduce.delayTo fill d m, Delay.mod { d := d, fill := fill }]).rf = d + m.padding + 1 := by
      show max (max 0 (BroadcastReduce.delayTo fill d m).rf) (d + 1) = _
      omega
    have h4 : (BroadcastReduce.mod (foldReducer op)
        [BroadcastReduce.delayTo fill d m, Delay.mod { d := d, fill := fill }]).padding = m.padding := by
      show max (max 0 (BroadcastReduce.delayTo fill d m).padding) 0 = _
      rw [HA.padding]; simp
    rw [hg.2.2.2 (by rw [h1, h3, h4]; omega), h1]
  · intro xs ys j hx hf
    have hl := Residual.fwd_length C hs hf
    have hl' : ys.length = xs.length := by omega
    obtain ⟨x0, _⟩ := List.exists_mem_of_ne_nil xs hx
    have hr := fold_ok op x0
    have hm' := HA.fwd xs
    rw [hf] at hm'
    cases hm2 : (BroadcastReduce.delayTo fill d m).fwd (BroadcastReduce.delayTo fill d m).init xs with
    | error e => rw [hm2] at hm'; cases hm'
    | ok p =>
      obtain ⟨ys', j'⟩ := p
      rw [hm2] at hm'
      cases hm'
      have hR := Residual.pair_fwd hr (a := Delay.mod { d := m.padding, fill := fill }) (b := m) (as := xs) (ja := ([], 0))
        (ia := ([], 0)) (by simp [Delay.forward]) hf hl'.symm
      have hE' := Residual.pair_fwd hr (a := BroadcastReduce.delayTo fill d m) (b := Delay.mod { d := d, fill := fill })
        (bs := xs) (jb := ([], 0)) (ib := ([], 0)) hm2 (by simp [Delay.forward]) hl'
      refine ⟨_, _, ((), (j', ([], 0), ()), ()), hR, ?_⟩
      refine ((mapReduce_commutes (foldReducer op) _).fwd _ _).trans ((congrArg _ hE').trans ?_)
      show Except.ok (_, _) = _
      congr 2
      rw [List.zipWith_comm]
      show List.zipWith _ xs ys = List.zipWith _ xs ys
      congr 1
      funext x y
      exact hop y x
  · intro xs
    by_cases hx : xs = []
    · subst hx
      exact ⟨[], _, [], _, rfl, rfl, rfl, fun t ht => absurd ht (by simp), fun t ht => absurd ht (by simp)⟩
    obtain ⟨x0, _⟩ := List.exists_mem_of_ne_nil xs hx
    have hr := fold_ok op x0
    have hlen : ∀ xs, (delayed m.padding 0 xs).length = (φ xs).length := by
      intro xs
      rw [Residual.phi_length C.geom hs, Residual.delayed_length]
      omega
    have hψ : ∀ xs, (ψ xs).length = xs.length - d := by
      intro xs
      have h1 := HA.geom.delay
      have h2 := HA.geom.geo.hP
      rw [HA.delay] at h1
      rw [Residual.phi_length HA.geom HA.stride]
      congr 1
      omega
    have IR := Residual.pair_impl hr (Residual.delay_facts m.padding fill).impl C.impl hlen
    have IE := Residual.pair_impl hr HA.impl (Residual.delay_facts d fill).impl
      (by intro xs; rw [hψ, Residual.delayed_length])
    obtain ⟨os, jR, a1, a2, a3⟩ := step_at IR (d := m.padding)
      (by intro xs; rw [List.length_zipWith, hlen, Nat.min_self, ← hlen, Residual.delayed_length]) .init xs
    obtain ⟨os', jE, b1, b2, b3⟩ := step_at IE (d := d)
      (by intro xs; rw [List.length_zipWith, hψ, Residual.delayed_length, Nat.min_self]) .init xs
    refine ⟨os, jR, os', ((), jE, ()), a1, ?_, b2, ?_, ?_⟩
    · have hc := mapReduce_commutes (foldReducer op)
        [BroadcastReduce.delayTo fill d m, Delay.mod { d := d, fill := fill }]
      have h := callSteps_commutes hc xs (BroadcastReduce.init _)
      rw [b1] at h
      exact h
    · intro t ht
      refine ⟨_, a3 t ht, ?_⟩
      by_cases h : t < m.padding
      · simp [h]
      · rw [if_neg h]
        constructor
        · intro e
          rw [List.getElem?_eq_none_iff, List.length_zipWith, ← hlen, Residual.delayed_length] at e
          omega
        · intro e; exact absurd e h
    · intro t ht
      rw [b3 t ht]
      by_cases h1 : t < d - m.padding
      · rw [if_pos h1, if_pos (by omega)]
      · rw [if_neg h1, a3 _ (by omega)]
        by_cases h2 : t < d
        · rw [if_pos h2, if_pos (by omega)]
        · rw [if_neg h2, if_neg (by omega)]
          have e : t - (d - m.padding) - m.padding = t - d := by omega
          rw [e]
          have hp := HA.pre xs
          obtain ⟨rest, hrest⟩ := hp
          have l1 : t - d < (ψ xs).length := by rw [hψ]; omega
          have e1 : (φ xs)[t - d]? = (ψ xs)[t - d]? := by rw [← hrest, List.getElem?_append_left l1]
          have e2 : (delayed d 0 xs)[t - d]? = (delayed m.padding 0 xs)[t - d]? := by
            simp only [delayed, List.drop_zero]
            rw [List.getElem?_take_of_lt (by omega), List.getElem?_take_of_lt (by omega)]
          rw [List.getElem?_zipWith, List.getElem?_zipWith, e1, e2]
          cases (ψ xs)[t - d]? <;> cases (delayed m.padding 0 xs)[t - d]? <;> simp [foldFrame, hop]

/-- **C113**, documentation: the spelled-out residual of README.md:192-202 has `Delay(2)` next to `Conv3d(kernel_size=3, padding=1)`; it
answers one call later than the short-hand given as equivalent. -/
theorem C113_readme_refuted {A : Type} {op : A → A → A} (hop : ∀ a b, op a b = op b a) (fill : A → A)
    {m : CoMod (.stream A) (.stream A)} {φ : List A → List A} (C : Contract m φ) (hs : m.stride = 1) (hK : m.rf = 3)
    (hP : m.padding = 1) (xs : List A) (h2 : 2 ≤ xs.length) :
    ∃ R E, Residual.make fill (foldReducer op) .off m = .ok R ∧ explicit fill (foldReducer op) m 2 = .ok E ∧
      R.delay = 1 ∧ E.delay = 2 ∧ ∃ os jR os' jE y, callSteps R R.init xs = .ok (os, jR) ∧
        callSteps E E.init xs = .ok (os', jE) ∧ os[1]? = some (some y) ∧ os'[1]? = some none := by
  obtain ⟨R, E, h3, h4, h5, h6, _, h7⟩ := C113_explicit hop fill C hs (by omega) (d := 2) (by omega)
  obtain ⟨os, jR, os', jE, k1, k2, _, k3, k4⟩ := h7 xs
  obtain ⟨o, k5, k6⟩ := k3 1 (by omega)
  have k7 := k4 0 (by omega)
  have k8 := k4 1 (by omega)
  rw [hP] at k6 k8
  obtain ⟨o0, k9, k10⟩ := k3 0 (by omega)
  have : o0 = none := k10.2 (by omega)
  subst this
  refine ⟨R, E, h3, h4, by rw [h5, hP]; rfl, h6, os, jR, os', jE, ?_⟩
  cases o with
  | none => exact absurd (k6.1 rfl) (by omega)
  | some y => exact ⟨y, k1, k2, k5, by rw [k8]; exact k9⟩

example : ∃ R E, Residual.make (fun _ => 0) (foldReducer (· + ·)) .off (Conv.mod (exSum 3 1 1)) = .ok R ∧
    explicit (fun _ => 0) (foldReducer (· + ·)) (Conv.mod (exSum 3 1 1)) 2 = .ok E ∧ R.delay = 1 ∧ E.delay = 2 ∧
    ∃ os jR os' jE y, callSteps R R.init [1, 10, 100] = .ok (os, jR) ∧ callSteps E E.init [1, 10, 100] = .ok (os', jE) ∧
      os[1]? = some (some y) ∧ os'[1]? = some none := by
  obtain ⟨φ, C⟩ := exSum_contract 1
  exact C113_readme_refuted (fun a b => Int.add_comm a b) (fun _ => 0) C rfl rfl rfl [1, 10, 100] (by decide)

end CoInf
