/-
Properties C15-C17, C26, C45: end padding, functional steps and finite memory of networks.
-/
import Verif.Props.Net

set_option autoImplicit false

namespace CoInf
open Spec
variable {X Y Z : Type}

/-! ### C15 -/

/-- **C15**, the part that holds: stream a clip in chunks of any kind (`forward_step`, `forward_steps`) into
a clean network and pass the last chunk with `pad_end=True`; if `forward` accepts the clip then the
concatenated outputs are `forward` of the clip.  Networks with `k.pad ≥ 2`: no strided member is followed
by another member.  Missing: strided members inside, where the claim is false
(`C15_chunked_forward_refuted`). -/
theorem C15_chunked_forward_partial {k : Cls} (hk : 2 ≤ k.pad) {m : CoMod (.stream X) (.stream Y)}
    {φ : List X → List Y} (hn : Net k m φ) {i : m.Inst} (hi : Reach m [] i) (ops : List (Op X))
    (hf : ∀ op ∈ ops, op.feeds) {last : List X} (hl : last ≠ []) {ys : List Y}
    (hfwd : ∃ j, m.fwd i (framesOf ops ++ last) = .ok (ys, j)) :
    ∃ rs j o j', run m i ops = .ok (rs, j) ∧ m.steps j true true last = .ok (o, j') ∧
      outsOf rs ++ o.getD [] = ys := by
  have F := net_facts hn
  obtain ⟨rs, j, h1, h2, h3⟩ := F.impl.feed ops hi hf
  obtain ⟨j0, hfwd⟩ := hfwd
  obtain ⟨j1, hfwd⟩ := map_fst_ok (F.impl.reach.fwd_indep _ hi) hfwd
  rw [List.nil_append] at h2 h3
  obtain ⟨rest, j', h4, h5⟩ := (F.padRel hk).finish h2 hl hfwd
  refine ⟨rs, j, _, j', h1, h5, ?_⟩
  rw [h4, h3, F.impl.reach.phi_nil, List.nil_append]
  congr 1
  cases rest <;> rfl

example : ∃ rs j o j', run exNet exNet.init [.step true 1, .steps true [2, 3]] = .ok (rs, j) ∧
    exNet.steps j true true [4, 5] = .ok (o, j') ∧
    outsOf rs ++ o.getD [] = [70381, 95457, 120321, 25185, 2449] := by
  obtain ⟨φ, hn⟩ := exNet_net ⟨true, 2⟩
  exact C15_chunked_forward_partial (by decide) hn .init [.step true 1, .steps true [2, 3]]
    (by simp [Op.feeds]) (by decide) ⟨_, rfl⟩

/-- Sum of `K` frames (a convolution with all-one kernel). -/
def exSum (K S P : Nat) : Conv.Cfg Int Int where
  K := K
  S := S
  P := P
  fill := .zeros
  padMode := .zeros
  w := fun _ x => x
  bias := none

/-- A strided convolution followed by a padded one. -/
def exStrided : CoMod (.stream Int) (.stream Int) :=
  Sequential.mod (.cons (Conv.mod (exSum 2 2 0)) (.single (Conv.mod (exSum 3 1 1))))

theorem exStrided_net : ∃ φ, Net ⟨true, 1⟩ exStrided φ := by
  refine ⟨_, Net.cons (Net.conv _ ?_) (Net.single (Net.conv _ ?_))⟩ <;>
  exact ⟨by decide, by decide, by decide, by decide, fun _ => rfl, fun _ => rfl, by decide⟩

/-- **C15** fails for a network with a strided member inside: four frames, then one more frame with
`pad_end=True`: the last frame produces no output of the first member, so that the end padding of the
second member never happens and an output is lost. -/
theorem C15_chunked_forward_refuted :
    ∃ (k : Cls) (m : CoMod (.stream Int) (.stream Int)) (φ : List Int → List Int), 1 ≤ k.pad ∧ Net k m φ ∧
      ∃ xs last ys j, xs ≠ [] ∧ last ≠ [] ∧ m.fwd m.init (xs ++ last) = .ok (ys, j) ∧
        ∀ o1 j1 o2 j2, m.steps m.init false true xs = .ok (o1, j1) →
          m.steps j1 true true last = .ok (o2, j2) → o1.getD [] ++ o2.getD [] ≠ ys := by
  obtain ⟨φ, hn⟩ := exStrided_net
  refine ⟨_, exStrided, φ, by decide, hn, [1, 2, 3, 4], [5], [10, 10], _, by decide, by decide, rfl, ?_⟩
  intro o1 j1 o2 j2 h1 h2
  cases h1
  cases h2
  decide

/-! ### C16 -/

/-- The end padding of a call is forgotten: the object is the same as after the call without it. -/
def PadForgets {I O : Sig} (m : CoMod I O) : Prop :=
  ∀ {i u xs o i' o' i''}, m.steps i true u xs = .ok (o, i') → m.steps i false u xs = .ok (o', i'') → i' = i''

/-- **C16**, the part that holds: convolution, pooling, delay and skip (any constructor arguments, any
object) and every `BroadcastReduce` of modules that forget their end padding.  Missing: `Sequential`, where
the claim is false (`C16_sequential_padEnd_refuted`). -/
theorem C16_padEnd_not_saved_partial :
    (∀ {X Y : Type} [Zero X] [AddCommMonoid Y] (c : Conv.Cfg X Y), PadForgets (Conv.mod c)) ∧
    (∀ {X Y : Type} (c : Pool.Cfg X Y), PadForgets (Pool.mod c)) ∧
    (∀ {X : Type} (c : Delay.Cfg X), PadForgets (Delay.mod c)) ∧
    (∀ {X : Type} (n : Nat), PadForgets (Skip.mod n X)) ∧
    (∀ {X Y Z : Type} (r : Reducer Y Z) (ms : List (CoMod (.stream X) (.stream Y))),
      (∀ m ∈ ms, PadForgets m) → PadForgets (BroadcastReduce.mod r ms)) := by
  refine ⟨fun c => Leaf.steps_pad_state _, fun c => Leaf.steps_pad_state _, fun c => ?_,
    fun n => Leaf.steps_pad_state _, fun {X Y Z} r ms hms => ?_⟩
  · intro i u xs o i' o' i'' h h'
    by_cases hd : c.d = 0
    · simp only [hd, if_true] at h h'; cases h; cases h'; rfl
    · simp only [hd, if_false] at h h'; exact Leaf.steps_pad_state _ h h'
  · have key : ∀ (ms : List (CoMod (.stream X) (.stream Y))), (∀ m ∈ ms, PadForgets m) →
        ∀ {i u xs os i' os' i''}, BroadcastReduce.stepsAll ms i true u xs = .ok (os, i') →
          BroadcastReduce.stepsAll ms i false u xs = .ok (os', i'') → i' = i'' := by
      intro ms
      induction ms with
      | nil => intro _ i u xs os i' os' i'' h h'; cases h; cases h'; rfl
      | cons m ms ih =>
        rintro hms ⟨i1, i2⟩ u xs os i' os' i'' h h'
        rw [BroadcastReduce.stepsAll] at h h'
        cases h1 : m.steps i1 true u xs with
        | error e => rw [h1, err_bind] at h; cases h
        | ok p =>
          cases h1' : m.steps i1 false u xs with
          | error e => rw [h1', err_bind] at h'; cases h'
          | ok p' =>
            rw [h1, ok_bind] at h
            rw [h1', ok_bind] at h'
            simp only at h h'
            cases h2 : BroadcastReduce.stepsAll ms i2 true u xs with
            | error e => rw [h2, err_bind] at h; cases h
            | ok q =>
              cases h2' : BroadcastReduce.stepsAll ms i2 false u xs with
              | error e => rw [h2', err_bind] at h'; cases h'
              | ok q' =>
                rw [h2, ok_bind] at h
                rw [h2', ok_bind] at h'
                cases h; cases h'
                have e1 : p.2 = p'.2 := hms m (by simp) (o := p.1) (o' := p'.1) h1 h1'
                have e2 : q.2 = q'.2 := ih (fun m' h' => hms m' (by simp [h'])) (os := q.1) (os' := q'.1) h2 h2'
                rw [e1, e2]
    intro i u xs o i' o' i'' h h'
    have h : BroadcastReduce.steps r ms i true u xs = .ok (o, i') := h
    have h' : BroadcastReduce.steps r ms i false u xs = .ok (o', i'') := h'
    unfold BroadcastReduce.steps at h h'
    cases h1 : BroadcastReduce.stepsAll ms i true u xs with
    | error e => rw [h1, err_bind] at h; cases h
    | ok p =>
      cases h1' : BroadcastReduce.stepsAll ms i false u xs with
      | error e => rw [h1', err_bind] at h'; cases h'
      | ok p' =>
        rw [h1, ok_bind] at h
        rw [h1', ok_bind] at h'
        simp only at h h'
        cases h2 : nonempty r.clip p.1 with
        | error e => rw [h2, err_bind] at h; cases h
        | ok z =>
          cases h2' : nonempty r.clip p'.1 with
          | error e => rw [h2', err_bind] at h'; cases h'
          | ok z' =>
            rw [h2, ok_bind] at h
            rw [h2', ok_bind] at h'
            cases h; cases h'
            exact key ms hms h1 h1'

/-- Two padded convolutions in a row. -/
def exTwoConv : CoMod (.stream Int) (.stream Int) :=
  Sequential.mod (.cons (Conv.mod (exSum 3 1 1)) (.single (Conv.mod (exSum 2 1 0))))

/-- **C16** fails for `Sequential`: the outputs of the first member that stem from its end padding are
consumed by the second member for good.  The step after `forward_steps([1,2,3], pad_end=True)` returns
something else than after `forward_steps([1,2,3])`. -/
theorem C16_sequential_padEnd_refuted :
    ∃ (m : CoMod (.stream Int) (.stream Int)) (φ : List Int → List Int), Net ⟨true, 3⟩ m φ ∧
      ∃ xs o i o' i', m.steps m.init true true xs = .ok (o, i) ∧ m.steps m.init false true xs = .ok (o', i') ∧
        ∃ x, (m.step i true x).map Prod.fst ≠ (m.step i' true x).map Prod.fst := by
  have hn : ∃ φ, Net ⟨true, 3⟩ exTwoConv φ := by
    refine ⟨_, Net.cons (Net.conv _ ?_) (Net.single (Net.conv _ ?_))⟩ <;>
    exact ⟨by decide, by decide, by decide, by decide, fun _ => rfl, fun _ => rfl, fun _ => rfl⟩
  obtain ⟨φ, hn⟩ := hn
  exact ⟨exTwoConv, φ, hn, [1, 2, 3], _, _, _, _, rfl, rfl, 4, by decide⟩

/-! ### C17 -/

/-- **C17**, the part that holds: on a clean network both values of `update_state` give the same outputs
under `pad_end=True` (namely `forward`'s, if `forward` accepts the clip).  Missing: modules that hold a
state, where the claim is false (`C17_padEnd_probe_refuted`). -/
theorem C17_padEnd_probe_partial {k : Cls} (hk : 1 ≤ k.pad) {m : CoMod (.stream X) (.stream Y)}
    {φ : List X → List Y} (hn : Net k m φ) {i : m.Inst} (hi : Reach m [] i) {xs : List X} {ys : List Y}
    (hx : xs ≠ []) (hf : ∃ j, m.fwd i xs = .ok (ys, j)) :
    (m.steps i true false xs).map Prod.fst = (m.steps i true true xs).map Prod.fst := by
  obtain ⟨j, h1⟩ := C14_padEnd_eq_forward hk hn hi false hx hf
  obtain ⟨j', h2⟩ := C14_padEnd_eq_forward hk hn hi true hx hf
  rw [h1, h2]; rfl

example : (exNet.steps exNet.init true false [1, 2, 3]).map Prod.fst =
    (exNet.steps exNet.init true true [1, 2, 3]).map Prod.fst :=
  let ⟨_, hn⟩ := exNet_net ⟨true, 1⟩
  C17_padEnd_probe_partial (by decide) hn .init (by decide) ⟨_, rfl⟩

/-- **C17** fails on a convolution that holds a state: with `update_state=False` the end padding runs from
the state before the call. -/
theorem C17_padEnd_probe_refuted :
    ∃ (m : CoMod (.stream Int) (.stream Int)) (φ : List Int → List Int), Net ⟨true, 3⟩ m φ ∧
      ∃ h i xs, Reach m h i ∧ xs ≠ [] ∧
        (m.steps i true false xs).map Prod.fst ≠ (m.steps i true true xs).map Prod.fst := by
  refine ⟨Conv.mod (exSum 3 1 1), _, Net.conv _ ⟨by decide, by decide, by decide, by decide, fun _ => rfl,
    fun _ => rfl, fun _ => rfl⟩, [1, 2], _, [3, 4],
    .steps true [1, 2] (by decide) .init rfl, by decide, by decide⟩

/-! ### C26 -/

/-- **C26.** Threading the state through `_forward_step`, starting with `None`, gives the same result list
as calling `forward_step` on a clean network. -/
theorem C26_functional_step {k : Cls} {m : CoMod (.stream X) (.stream Y)} {φ : List X → List Y}
    (hn : Net k m φ) {i : m.Inst} (hi : Reach m [] i) (xs : List X) :
    ∃ os s' i', threadSteps m none xs = .ok (os, s') ∧ callSteps m i xs = .ok (os, i') := by
  have F := net_facts hn
  obtain ⟨os, i', h1, h2, _, h4⟩ := Spec.SimRel.callSteps_eq F.impl.reach xs hi
  obtain ⟨os', s', h1', h2', h4'⟩ := F.pimpl.threadSteps_eq xs
  have := outs_unique (φ := φ) (h := []) h2 h2' h4 (by simpa using h4')
  subst this
  exact ⟨os, s', i', h1', h1⟩

example : ∃ s', threadSteps exNet none [1, 2, 3] = .ok ([none, none, some 70381], s') := ⟨_, rfl⟩

/-! ### C45 -/

/-- **C45.** Take two objects of a network that have consumed streams `h` and `h'` (of at least
`receptive_field - 1` frames) whose last `receptive_field - 1` frames agree and whose lengths agree modulo
the stride: no sequence of calls tells them apart. -/
theorem C45_finite_memory {k : Cls} (hk : k.geo = true) {m : CoMod (.stream X) (.stream Y)}
    {φ : List X → List Y} (hn : Net k m φ) {h h' : List X} {i i' : m.Inst} (hi : Reach m h i)
    (hi' : Reach m h' i') (hl : m.rf ≤ h.length + 1) (hl' : m.rf ≤ h'.length + 1)
    (hm : h.length % m.stride = h'.length % m.stride)
    (hlast : lastN (m.rf - 1) h = lastN (m.rf - 1) h') : Same m i i' := by
  have F := net_facts hn
  exact F.impl.same_of_future hi hi' ((F.geom hk).geo.forget hl hl' hm hlast)

example : ∃ i i', Reach exNet [9, 8, 7, 1, 2, 3, 4] i ∧ Reach exNet [1, 2, 3, 4] i' ∧ Same exNet i i' := by
  obtain ⟨φ, hn⟩ := exNet_net ⟨true, 1⟩
  have r : Reach exNet ([] ++ [9, 8, 7, 1, 2, 3, 4]) _ := .steps true _ (by decide) .init rfl
  have r' : Reach exNet ([] ++ [1, 2, 3, 4]) _ := .steps true _ (by decide) .init rfl
  exact ⟨_, _, r, r', C45_finite_memory rfl hn r r' (by decide) (by decide) (by decide) (by decide)⟩

end CoInf
