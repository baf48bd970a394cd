/-
C110: chunks without frames.
-/
import Verif.Model.Broadcast
import Verif.Model.Closure
import Verif.Model.Conv
import Verif.Model.Pool
import Verif.Model.Rnn
import Verif.Model.Attention
import Verif.Spec.Observe

set_option autoImplicit false

namespace CoInf

namespace Spec

/-- What `forward_steps` may do with a clip without frames: return `None`, return a clip without frames, raise. -/
inductive Fate where
  | silent
  | hollow
  | refusing
  deriving DecidableEq

/-- What that means: for any state, and whether it is to be updated or not. -/
def DoesNothing {X Y : Type} (m : CoMod (.stream X) (.stream Y)) : Fate → Prop
  | .silent => ∀ i u, m.steps i false u [] = .ok (none, i)
  | .hollow => ∀ i u, m.steps i false u [] = .ok (some [], i)
  | .refusing => ∀ i u, ∃ e, m.steps i false u [] = .error e

/-- Together: members that are all given the same clip. -/
def Fate.both : Fate → Fate → Fate
  | .refusing, _ => .refusing
  | _, .refusing => .refusing
  | .silent, _ => .silent
  | _, .silent => .silent
  | .hollow, .hollow => .hollow

mutual
/-- The networks, and what becomes of a clip without frames. -/
inductive OnNothing : {X Y : Type} → CoMod (.stream X) (.stream Y) → Fate → Prop
  | conv {X Y : Type} [Zero X] [Zero Y] [Add Y] (c : Conv.Cfg X Y) : OnNothing (Conv.mod c) .silent
  | pool {X Y : Type} (c : Pool.Cfg X Y) : OnNothing (Pool.mod c) .silent
  | delay {X : Type} (c : Delay.Cfg X) : OnNothing (Delay.mod c) (if c.d = 0 then .hollow else .silent)
  | skip {X : Type} (n : Nat) : OnNothing (Skip.mod n X) .silent
  | pointwise {X Y : Type} (f : X → Y) : OnNothing (Pointwise.mod f) .hollow
  | elementwise {X Y : Type} (f : X → Y) : OnNothing (Lambda.mod (Lambda.elementwise f)) .hollow
  | framewise {X Y : Type} (f : X → Y) : OnNothing (Lambda.mod { fn := some (.frame f) }) .refusing
  | stepping {X Y : Type} (g : List X → Except Err (List Y)) (s p : Nat) (h : g [] = .ok []) : OnNothing (Stepping.mod g s p) .hollow
  | rnn {V S : Type} (c : Rnn.Cfg V S) : OnNothing (Rnn.mod c) .refusing
  | attention {X O : Type} (b : Attn.Base X O) : OnNothing b.mod .refusing
  | seq {X Y : Type} {c : Chain (.stream X) (.stream Y)} {k : Fate} : OnNothingRow c k → OnNothing (Sequential.mod c) k
  | reduce {X Y Z : Type} {r : Reducer Y Z} {ms : List (CoMod (.stream X) (.stream Y))} {k : Fate} : OnNothingAll ms k →
      r.clip (ms.map fun _ => []) = .ok [] → OnNothing (BroadcastReduce.mod r ms) k

/-- One after the other: the first that is not hollow decides. -/
inductive OnNothingRow : {X Y : Type} → Chain (.stream X) (.stream Y) → Fate → Prop
  | single {X Y : Type} {m : CoMod (.stream X) (.stream Y)} {k : Fate} : OnNothing m k → OnNothingRow (.single m) k
  | stop {X Y Z : Type} {m : CoMod (.stream X) (.stream Y)} {c : Chain (.stream Y) (.stream Z)} {k : Fate} : OnNothing m k → k ≠ .hollow →
      OnNothingRow (.cons m c) k
  | next {X Y Z : Type} {m : CoMod (.stream X) (.stream Y)} {c : Chain (.stream Y) (.stream Z)} {k : Fate} : OnNothing m .hollow →
      OnNothingRow c k → OnNothingRow (.cons m c) k

/-- Next to each other. -/
inductive OnNothingAll : {X Y : Type} → List (CoMod (.stream X) (.stream Y)) → Fate → Prop
  | nil {X Y : Type} : OnNothingAll ([] : List (CoMod (.stream X) (.stream Y))) .hollow
  | cons {X Y : Type} {m : CoMod (.stream X) (.stream Y)} {ms : List (CoMod (.stream X) (.stream Y))} {k l : Fate} : OnNothing m k →
      OnNothingAll ms l → OnNothingAll (m :: ms) (k.both l)
end

/-- The chunks that have frames. -/
def withFrames {X : Type} : Op X → Bool
  | .steps _ xs => !xs.isEmpty
  | _ => true

end Spec

open Spec

namespace Empty

/-- A module with a loop over the frames. -/
theorem leaf_nothing {X Y : Type} (L : Leaf X Y) (h : ∀ i s, L.get i = some s → L.set s i = i) (i : L.Inst) (u : Bool) :
    L.forwardSteps i false u [] = .ok (none, i) := by
  cases hg : L.get i with
  | none => cases u <;> simp [Leaf.forwardSteps, Leaf.loop, Leaf.save, hg, optList, bind, Except.bind, pure, Except.pure]
  | some s => cases u <;> simp [Leaf.forwardSteps, Leaf.loop, Leaf.save, hg, optList, bind, Except.bind, pure, Except.pure, h i s hg]

/-- What the members of a chain, all together, do. -/
def RowDoes {X Y : Type} (c : Chain (.stream X) (.stream Y)) : Fate → Prop
  | .silent => ∀ i u, c.steps i false u [] = .ok (none, i)
  | .hollow => ∀ i u, c.steps i false u [] = .ok (some [], i)
  | .refusing => ∀ i u, ∃ e, c.steps i false u [] = .error e

/-- What the loop over branches does. -/
def AllDo {X Y : Type} (ms : List (CoMod (.stream X) (.stream Y))) : Fate → Prop
  | .silent => ∀ i u, ∃ os, BroadcastReduce.stepsAll ms i false u [] = .ok (os, i) ∧ allSome os = none
  | .hollow => ∀ i u, BroadcastReduce.stepsAll ms i false u [] = .ok (ms.map fun _ => some [], i)
  | .refusing => ∀ i u, ∃ e, BroadcastReduce.stepsAll ms i false u [] = .error e

theorem allSome_hollow {X : Type 1} {Y : Type} (ms : List X) : allSome (ms.map fun _ => some ([] : List Y)) = some (ms.map fun _ => []) := by
  induction ms with
  | nil => rfl
  | cons m ms ih => simp only [List.map_cons, allSome, ih, Option.map_some]

theorem row_cons {X Y Z : Type} {m : CoMod (.stream X) (.stream Y)} {c : Chain (.stream Y) (.stream Z)} (i : m.Inst) (j : c.Inst) (u : Bool) :
    (Chain.cons m c).steps (i, j) false u [] = (match m.steps i false u [] with
      | .error e => .error e
      | .ok (none, i1) => .ok (none, (i1, j))
      | .ok (some y, i1) => match c.steps j false u y with
        | .error e => .error e
        | .ok (z, i2) => .ok (z, (i1, i2))) := by
  simp only [Chain.steps, bind, Except.bind, pure, Except.pure]
  cases m.steps i false u [] with
  | error e => rfl
  | ok r =>
    obtain ⟨o, i1⟩ := r
    cases o with
    | none => rfl
    | some y =>
      show _ = _
      cases hc : c.steps j false u y with
      | error e => simp [hc]
      | ok q => simp [hc]

theorem all_cons {X Y : Type} (m : CoMod (.stream X) (.stream Y)) (ms : List (CoMod (.stream X) (.stream Y))) (i : m.Inst)
    (j : BroadcastReduce.Inst ms) (u : Bool) :
    BroadcastReduce.stepsAll (m :: ms) (i, j) false u [] = (match m.steps i false u [] with
      | .error e => .error e
      | .ok (o, i1) => match BroadcastReduce.stepsAll ms j false u [] with
        | .error e => .error e
        | .ok (os, i2) => .ok (o :: os, (i1, i2))) := by
  simp only [BroadcastReduce.stepsAll, bind, Except.bind, pure, Except.pure]
  cases m.steps i false u [] with
  | error e => rfl
  | ok r =>
    show _ = _
    cases hc : BroadcastReduce.stepsAll ms j false u [] with
    | error e => simp [hc]
    | ok q => simp [hc]

theorem both_do {X Y : Type} {m : CoMod (.stream X) (.stream Y)} {ms : List (CoMod (.stream X) (.stream Y))} {k l : Fate}
    (h : DoesNothing m k) (H : AllDo ms l) : AllDo (m :: ms) (k.both l) := by
  cases k <;> cases l <;> simp only [Fate.both, AllDo, DoesNothing] at h H ⊢ <;> rintro ⟨i, j⟩ u <;> rw [all_cons]
  · obtain ⟨os, h1, h2⟩ := H j u
    exact ⟨none :: os, by rw [h, h1], rfl⟩
  · exact ⟨none :: ms.map fun _ => some [], by rw [h, H], rfl⟩
  · obtain ⟨e, he⟩ := H j u
    exact ⟨e, by rw [h, he]⟩
  · obtain ⟨os, h1, h2⟩ := H j u
    exact ⟨some [] :: os, by rw [h, h1], by rw [allSome, h2]; rfl⟩
  · rw [h, H]; rfl
  · obtain ⟨e, he⟩ := H j u
    exact ⟨e, by rw [h, he]⟩
  all_goals
    obtain ⟨e, he⟩ := h i u
    exact ⟨e, by rw [he]⟩

theorem reduce_does {X Y Z : Type} {r : Reducer Y Z} {ms : List (CoMod (.stream X) (.stream Y))} {k : Fate} (H : AllDo ms k)
    (hr : r.clip (ms.map fun _ => []) = .ok []) : DoesNothing (BroadcastReduce.mod r ms) k := by
  cases k <;> simp only [AllDo, DoesNothing] at H ⊢ <;> intro i u <;> simp only [BroadcastReduce.steps, bind, Except.bind]
  · obtain ⟨os, h1, h2⟩ := H i u
    rw [h1]
    simp only [nonempty, h2]
    rfl
  · rw [H]
    simp only [nonempty, allSome_hollow, hr]
    rfl
  · obtain ⟨e, he⟩ := H i u
    exact ⟨e, by rw [he]⟩

end Empty

open Empty

/-- C110: what a network does with a clip without frames is decided by its members; if it does not raise, it leaves its state alone. -/
theorem C110_exact {X Y : Type} {m : CoMod (.stream X) (.stream Y)} {k : Fate} (h : OnNothing m k) : DoesNothing m k := by
  refine OnNothing.rec (motive_1 := fun {X Y} m k _ => DoesNothing m k) (motive_2 := fun {X Y} c k _ => RowDoes c k)
    (motive_3 := fun {X Y} ms k _ => AllDo ms k) ?_ ?_ ?_ ?_ ?_ ?_ ?_ ?_ ?_ ?_ ?_ ?_ ?_ ?_ ?_ ?_ ?_ h
  · intro X Y _ _ _ c i u
    refine leaf_nothing (Conv.leaf c) (fun i s hs => ?_) i u
    simp only at hs
    split at hs <;> cases hs
    rfl
  · intro X Y c i u
    refine leaf_nothing (Pool.leaf c) (fun i s hs => ?_) i u
    simp only at hs
    split at hs <;> cases hs
    rfl
  · intro X c
    by_cases hd : c.d = 0
    · rw [if_pos hd]
      intro i u
      simp only [hd, if_true]
    · rw [if_neg hd]
      intro i u
      simp only [hd, if_false]
      refine leaf_nothing (Delay.leaf c) (fun i s hs => ?_) i u
      simp only at hs
      split at hs <;> cases hs
      rfl
  · intro X n i u
    refine leaf_nothing (Skip.leaf n X) (fun i s hs => ?_) i u
    cases hs
    rfl
  · intro X Y f i u; rfl
  · intro X Y f i u; rfl
  · intro X Y f i u; exact ⟨_, rfl⟩
  · intro X Y g s p hg i u
    simp only [hg]
    rfl
  · intro V S c i u; exact ⟨_, rfl⟩
  · intro X O b i u
    show ∃ e, Attn.steps b i false u [] = .error e
    cases i <;> cases u <;> exact ⟨_, rfl⟩
  · intro X Y c k _ h
    cases k <;> exact h
  · intro X Y Z r ms k _ hr H
    exact reduce_does H hr
  · intro X Y m k _ h
    cases k <;> exact h
  · intro X Y Z m c k _ hk h
    cases k
    · rintro ⟨i, j⟩ u
      have h : ∀ i u, _ := h
      rw [row_cons, h]
    · exact absurd rfl hk
    · rintro ⟨i, j⟩ u
      obtain ⟨e, he⟩ := h i u
      exact ⟨e, by rw [row_cons, he]⟩
  · intro X Y Z m c k _ _ h H
    have h : ∀ i u, m.steps i false u [] = .ok (some [], i) := h
    cases k
    · rintro ⟨i, j⟩ u
      have H : ∀ i u, c.steps i false u [] = .ok (none, i) := H
      rw [row_cons, h]
      simp only [H]
    · rintro ⟨i, j⟩ u
      have H : ∀ i u, c.steps i false u [] = .ok (some [], i) := H
      rw [row_cons, h]
      simp only [H]
    · rintro ⟨i, j⟩ u
      obtain ⟨e, he⟩ := H j u
      refine ⟨e, ?_⟩
      rw [row_cons, h]
      simp only [he]
  · intro X Y i u; rfl
  · intro X Y m ms k l _ _ h H
    exact both_do h H

/-- C110: in a network that does not refuse them, chunks without frames may be left out of any script: the frames that are returned and
the state in the end are the same, and so are exceptions. -/
theorem C110_dropped_partial {X Y : Type} {m : CoMod (.stream X) (.stream Y)} {k : Fate} (h : OnNothing m k) (hk : k ≠ .refusing)
    (ops : List (Op X)) (i : m.Inst) :
    (run m i ops).map (fun r => (outsOf r.1, r.2)) = (run m i (ops.filter withFrames)).map (fun r => (outsOf r.1, r.2)) := by
  have hd : ∀ i u, ∃ o, m.steps i false u [] = .ok (o, i) ∧ o.getD [] = [] := by
    intro i u
    have := C110_exact h
    cases k
    · exact ⟨_, this i u, rfl⟩
    · exact ⟨_, this i u, rfl⟩
    · exact absurd rfl hk
  induction ops generalizing i with
  | nil => rfl
  | cons op ops ih =>
    by_cases hw : withFrames op = true
    · rw [List.filter_cons_of_pos hw]
      simp only [run, bind, Except.bind]
      cases run1 m i op with
      | error e => rfl
      | ok r =>
        have := ih r.2
        simp only
        cases h1 : run m r.2 ops <;> cases h2 : run m r.2 (ops.filter withFrames) <;> rw [h1, h2] at this <;>
          simp_all [Except.map, pure, Except.pure, outsOf]
    · rw [List.filter_cons_of_neg hw, ← ih i]
      cases op with
      | steps u xs =>
        have hx : xs = [] := by simpa [withFrames] using hw
        subst hx
        obtain ⟨o, h1, h2⟩ := hd i u
        simp only [run, run1, h1, bind, Except.bind, Except.map, pure, Except.pure]
        cases hr : run m i ops with
        | error e => rfl
        | ok r => simp [outsOf, Res.outs, h2]
      | _ => exact absurd rfl hw

/-- C110: recurrent modules, attention and functions of single frames raise; so do all networks that give them such a chunk. -/
theorem C110_refuted {V S X Y O : Type} (c : Rnn.Cfg V S) (b : Attn.Base X O) (f : X → Y) (i : (Rnn.mod c).Inst) (j : b.mod.Inst) (u : Bool) :
    (∃ e, (Rnn.mod c).steps i false u [] = .error e) ∧ (∃ e, b.mod.steps j false u [] = .error e) ∧
    (∃ e, (Lambda.mod { fn := some (.frame f) }).steps () false u [] = .error e) :=
  ⟨C110_exact (.rnn c) i u, C110_exact (.attention b) j u, C110_exact (.framewise f) () u⟩

/-- C110: with `pad_end`, a chunk without frames does not give the results for the padding: a convolution, pooling or delay that pads
raises, in every state. -/
theorem C110_flush_refuted {X Y : Type} [Zero X] [Zero Y] [Add Y] (u : Bool) :
    (∀ (c : Conv.Cfg X Y) i, 0 < c.P → (Conv.mod c).steps i true u [] = .error .index) ∧
    (∀ (c : Pool.Cfg X Y) i, 0 < c.P → (Pool.mod c).steps i true u [] = .error .index) ∧
    (∀ (c : Delay.Cfg X) i, 0 < c.d → (Delay.mod c).steps i true u [] = .error .index) := by
  have key : ∀ (L : Leaf X Y) i, 0 < L.padding → L.forwardSteps i true u [] = .error .index := by
    intro L i h
    obtain ⟨p, hp⟩ := Nat.exists_eq_succ_of_ne_zero (Nat.pos_iff_ne_zero.mp h)
    simp only [Leaf.forwardSteps, Leaf.loop, bind, Except.bind, Leaf.endPads, hp, if_true, List.getLast?_nil]
  have key' : ∀ (L : Leaf X X) i, 0 < L.padding → L.forwardSteps i true u [] = .error .index := by
    intro L i h
    obtain ⟨p, hp⟩ := Nat.exists_eq_succ_of_ne_zero (Nat.pos_iff_ne_zero.mp h)
    simp only [Leaf.forwardSteps, Leaf.loop, bind, Except.bind, Leaf.endPads, hp, if_true, List.getLast?_nil]
  refine ⟨fun c i h => key (Conv.leaf c) i h, fun c i h => key (Pool.leaf c) i h, fun c i h => ?_⟩
  simp only [Nat.pos_iff_ne_zero.mp h, if_false]
  exact key' (Delay.leaf c) i h

/-- C110: the reductions give a clip without frames for such clips (so that the condition on reductions is met by those of the library). -/
theorem C110_reductions {Y Z : Type} (op : Y → Y → Y) (cat : List Y → Z) (n : Nat) :
    (foldReducer op).clip (List.replicate (n + 2) []) = .ok [] ∧ (catReducer cat).clip (List.replicate (n + 1) []) = .ok [] := by
  constructor
  · show (List.replicate (n + 1) []).foldlM (bcast2 op) [] = .ok []
    induction n + 1 with
    | zero => rfl
    | succ n ih => exact ih
  · show (if (List.replicate n ([] : List Y)).all (fun c' => c'.length = 0) then _ else _) = _
    rw [if_pos (by simp)]
    rfl

/-! ### Examples -/

/-- A residual connection with a linear layer around it. -/
example (c : Conv.Cfg Int Int) (f : Int → Int) : OnNothing
    (Sequential.mod (.cons (Pointwise.mod f) (.single (BroadcastReduce.mod (foldReducer (· + ·)) [Delay.mod { d := 2, fill := id }, Conv.mod c]))))
    .silent :=
  .seq (.next (.pointwise f) (.single (.reduce (.cons (.delay _) (.cons (.conv c) .nil)) rfl)))

/-- The same with a recurrent module in a branch. -/
example (c : Conv.Cfg Int Int) (r : Rnn.Cfg Int Int) : OnNothing
    (BroadcastReduce.mod (foldReducer (· + ·)) [Conv.mod c, Rnn.mod r]) .refusing :=
  .reduce (.cons (.conv c) (.cons (.rnn r) .nil)) rfl

end CoInf
