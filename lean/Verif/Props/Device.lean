/-
C97: moving a module to another device.
-/
import Verif.Model.Device
import Verif.Model.Closure
import Verif.Lemmas.Sequential

set_option autoImplicit false

namespace CoInf
open Device

namespace Spec
variable {X Y : Type}

/-- What happens to an object: a frame is fed (on the device to which the object was moved last), the object is moved, or cleaned. -/
inductive DevOp (X : Type) where
  | feed (x : X)
  | move (d : Dev)
  | clean

/-- The results of the steps, while the object lies on the device `d`. -/
def runOps (M : Mov X Y) : M.Inst → Dev → List (DevOp X) → Except Err (List (Option (T Y)))
  | _, _, [] => .ok []
  | i, d, .feed x :: ops =>
    match M.step i ⟨d, x⟩ with
    | .error e => .error e
    | .ok (o, i') =>
      match runOps M i' d ops with
      | .error e => .error e
      | .ok os => .ok (o :: os)
  | i, _, .move d :: ops => runOps M (M.move d i) d ops
  | i, d, .clean :: ops => runOps M (M.clean i) d ops

/-- What is expected: the results of the module as if there were one device only, each on the device to which the object was moved
last. -/
def unmoved (m : CoMod (.stream X) (.stream Y)) : m.Inst → Dev → List (DevOp X) → Except Err (List (Option (T Y)))
  | _, _, [] => .ok []
  | j, d, .feed x :: ops =>
    match m.step j true x with
    | .error e => .error e
    | .ok (o, j') =>
      match unmoved m j' d ops with
      | .error e => .error e
      | .ok os => .ok (o.map (T.mk d) :: os)
  | j, _, .move d :: ops => unmoved m j d ops
  | j, d, .clean :: ops => unmoved m (m.clean j) d ops

/-- When is an object moved: at any time; in the middle of a stream only to the CPU; only before the first frame and after
`clean_state`. -/
inductive When where
  | anytime
  | home
  | between
  deriving DecidableEq

/-- May an object be moved to `d`?  `fresh`: no frame was fed since construction or the last `clean_state`. -/
def When.allows : When → (fresh : Bool) → (d : Dev) → Prop
  | .anytime, _, _ => True
  | .home, fresh, d => fresh = true ∨ d = .cpu
  | .between, fresh, _ => fresh = true

/-- The object is moved only when allowed. -/
def Movings (w : When) : (fresh : Bool) → List (DevOp X) → Prop
  | _, [] => True
  | _, .feed _ :: ops => Movings w false ops
  | fresh, .move d :: ops => w.allows fresh d ∧ Movings w fresh ops
  | _, .clean :: ops => Movings w true ops

/-- Networks, with and without devices, that may be moved at these times. -/
inductive Placed (w : When) : {X Y : Type} → Mov X Y → CoMod (.stream X) (.stream Y) → Type 1 where
  | conv {X Y : Type} [Zero X] [Zero Y] [Add Y] (c : Conv.Cfg X Y) (h : w ≠ .anytime ∨ Conv.stateless c = true) :
    Placed w (Device.conv c) (Conv.mod c)
  | pool {X Y : Type} (c : Pool.Cfg X Y) (h : c.dil = 1) : Placed w (Device.pool c) (Pool.mod c)
  | delay {X : Type} (c : Delay.Cfg X) : Placed w (Device.delay c) (Delay.mod c)
  | skip {X : Type} (n : Nat) : Placed w (Device.skip n X) (Skip.mod n X)
  | framewise {X Y : Type} (params : Bool) (f : X → Y) : Placed w (Device.framewise params f) (Pointwise.mod f)
  | rnn {V S : Type} (c : Rnn.Cfg V S) (h : w = .between) : Placed w (Device.rnn c) (Rnn.mod c)
  | static {V : Type} (c : PosEnc.Cfg V) : Placed w (Device.pos c false) (PosEnc.mod c)
  | attn {X Y : Type} (b : Attn.Base X Y) : Placed w (Device.attn b) b.mod
  | single {X Y : Type} {M : Mov X Y} {m : CoMod (.stream X) (.stream Y)} (h : Placed w M m) :
    Placed w M (Sequential.mod (.single m))
  | seq {X Y Z : Type} {M : Mov X Y} {m : CoMod (.stream X) (.stream Y)} {N : Mov Y Z} {c : Chain (.stream Y) (.stream Z)}
    (h1 : Placed w M m) (h2 : Placed w N (Sequential.mod c)) : Placed w (Device.seq M N) (Sequential.mod (.cons m c))
  | branches {X Y Z : Type} (r : Reducer Y Z) {Ms : List (Mov X Y)} {ms : List (CoMod (.stream X) (.stream Y))} (hne : ms ≠ [])
    (hl : Ms.length = ms.length) (h : ∀ k (h1 : k < Ms.length) (h2 : k < ms.length), Placed w Ms[k] ms[k]) :
    Placed w (Device.branches r Ms) (BroadcastReduce.mod r ms)
  | conditional {X : Type} (p : Conditional.Pred X) {M N : Mov X X} {m n : CoMod (.stream X) (.stream X)} (rf : Nat) (d : Int)
    (hw : w = .anytime) (h1 : Placed w M m) (h2 : Placed w N n) : Placed w (Device.conditional p M N) (Conditional.both p m n rf d)
  | conditionalOnly {X : Type} (p : Conditional.Pred X) {M : Mov X X} {m : CoMod (.stream X) (.stream X)} (rf : Nat) (d : Int)
    (hw : w = .anytime) (h : Placed w M m) : Placed w (Device.conditionalOnly p M) (Conditional.only p m rf d)

/-- The history without the calls of `clean_state`. -/
def uncleaned {X : Type} : List (DevOp X) → List (DevOp X)
  | [] => []
  | .clean :: ops => uncleaned ops
  | op :: ops => op :: uncleaned ops

end Spec

namespace Device
open Spec
variable {X Y Z : Type}

/-- A relation between the objects with and without devices which all calls respect. -/
structure Follows (w : When) (M : Mov X Y) (m : CoMod (.stream X) (.stream Y)) (R : Bool → Dev → M.Inst → m.Inst → Prop) : Prop where
  init : R true .cpu M.init m.init
  clean : ∀ f d i j, R f d i j → R true d (M.clean i) (m.clean j)
  move : ∀ f d d' i j, w.allows f d' → R f d i j → R f d' (M.move d' i) j
  ok : ∀ f d i j x (o : Option Y) j', R f d i j → m.step j true x = .ok (o, j') →
    ∃ i', M.step i ⟨d, x⟩ = .ok (o.map (T.mk d), i') ∧ R false d i' j'
  err : ∀ f d i j x e, R f d i j → m.step j true x = .error e → M.step i ⟨d, x⟩ = .error e

theorem Follows.run {w : When} {M : Mov X Y} {m : CoMod (.stream X) (.stream Y)} {R : Bool → Dev → M.Inst → m.Inst → Prop}
    (h : Follows w M m R) (ops : List (DevOp X)) : ∀ f d i j, R f d i j → Movings w f ops → runOps M i d ops = unmoved m j d ops := by
  induction ops with
  | nil => intros; rfl
  | cons a ops ih =>
    intro f d i j hR hm
    cases a with
    | feed x =>
      cases hs : m.step j true x with
      | error e => simp only [runOps, unmoved, hs, h.err f d i j x e hR hs]
      | ok p =>
        obtain ⟨o, j'⟩ := p
        obtain ⟨i', h1, h2⟩ := h.ok f d i j x o j' hR hs
        simp only [runOps, unmoved, hs, h1, ih false d i' j' h2 hm]
    | move d' => exact ih f d' _ j (h.move f d d' i j hm.1 hR) hm.2
    | clean => exact ih true d _ _ (h.clean f d i j hR) hm


theorem stateless_none [Zero X] [Zero Y] [Add Y] {c : Conv.Cfg X Y} (h : Conv.stateless c = true) {x : X} {s : Option (Conv.St Y)}
    {o : Option Y} {s' : Option (Conv.St Y)} (e : Conv.pstep c x s = .ok (o, s')) : s' = s := by
  unfold Conv.pstep at e
  rw [if_pos h] at e
  cases hf : Conv.forward c [x] with
  | error e1 => rw [hf] at e; simp [bind, Except.bind] at e
  | ok ys =>
    rw [hf] at e
    cases hg : pyGet ys 0 with
    | error e1 => simp [bind, Except.bind, hg] at e
    | ok y =>
      simp [bind, Except.bind, hg, pure, Except.pure] at e
      exact e.2.symm

theorem stateful_some [Zero X] [Zero Y] [Add Y] {c : Conv.Cfg X Y} (h : ¬ Conv.stateless c = true) {x : X} {s : Option (Conv.St Y)}
    {o : Option Y} {s' : Option (Conv.St Y)} (e : Conv.pstep c x s = .ok (o, s')) : ∃ st, s' = some st := by
  unfold Conv.pstep at e
  rw [if_neg h] at e
  simp only [bind, Except.bind, pure, Except.pure] at e
  repeat' split at e
  all_goals first
    | (cases e; done)
    | (injection e with e; injection e with e1 e2; exact ⟨_, e2.symm⟩)

theorem conv_get {X Y : Type} [Zero X] [Zero Y] [Add Y] (c : Conv.Cfg X Y) (j : Conv.St Y) :
    (Conv.leaf c).get j = if j.buffer.length > 0 then some j else none := rfl

/-- How the objects of a convolution with and without devices are related. -/
def convRel (Y : Type) (f : Bool) (d : Dev) (i : ConvInst Y) (j : Conv.St Y) : Prop :=
  i.w = d ∧ i.st = j ∧ (f = true → j.buffer = []) ∧ (j.buffer ≠ [] → i.buf = d ∧ i.idx = .cpu)

theorem conv_follows_stateful [Zero X] [Zero Y] [Add Y] (w : When) (c : Conv.Cfg X Y) (hw' : w ≠ .anytime)
    (hs : ¬ Conv.stateless c = true) : Follows w (conv c) (Conv.mod c) (convRel Y) := by
  refine ⟨⟨rfl, rfl, fun _ => rfl, fun h => absurd rfl h⟩, ?_, ?_, ?_, ?_⟩
  · rintro f d i j ⟨h1, h2, h3, h4⟩
    exact ⟨h1, rfl, fun _ => rfl, fun h => absurd rfl h⟩
  · rintro f d d' i j ha ⟨h1, h2, h3, h4⟩
    refine ⟨rfl, h2, h3, fun hb => ⟨rfl, ?_⟩⟩
    show d' = .cpu
    cases w with
    | anytime => exact absurd rfl hw'
    | home =>
      rcases ha with ha | ha
      · exact absurd (h3 ha) hb
      · exact ha
    | between => exact absurd (h3 ha) hb
  · rintro f d i j x o j' ⟨h1, rfl, h3, h4⟩ e
    have e' : (do let (o, s) ← Conv.pstep c x ((Conv.leaf c).get i.st); return (o, (Conv.leaf c).save true s i.st)) =
      Except.ok (o, j') := e
    cases hp : Conv.pstep c x ((Conv.leaf c).get i.st) with
    | error e1 => rw [hp] at e'; simp [bind, Except.bind] at e'
    | ok p =>
      rw [hp] at e'
      obtain ⟨o1, s1⟩ := p
      obtain ⟨st, rfl⟩ := stateful_some hs hp
      simp [bind, Except.bind, pure, Except.pure, Leaf.save] at e'
      obtain ⟨rfl, rfl⟩ := e'
      by_cases hb : 0 < i.st.buffer.length
      · have h4' := h4 (by intro h; simp [h] at hb)
        refine ⟨⟨i.w, st, i.buf, i.idx, i.str⟩, ?_, h1, rfl, fun h => absurd h (by decide), fun _ => h4'⟩
        show convStep c i ⟨d, x⟩ = _
        unfold convStep
        rw [if_neg hs]
        have hp' := hp
        rw [conv_get, if_pos hb] at hp'
        simp only [hb, if_true, h4'.1, h4'.2, h1, withScalar, indexBy, same]
        simp [hp']
      · refine ⟨⟨i.w, st, i.w, .cpu, .cpu⟩, ?_, h1, rfl, fun h => absurd h (by decide), fun _ => ⟨h1, rfl⟩⟩
        show convStep c i ⟨d, x⟩ = _
        unfold convStep
        rw [if_neg hs]
        have hp' := hp
        rw [conv_get, if_neg hb] at hp'
        simp only [hb, if_false, h1, withScalar, indexBy, same]
        simp [hp']
  · rintro f d i j x e ⟨h1, rfl, h3, h4⟩ he
    have e' : (do let (o, s) ← Conv.pstep c x ((Conv.leaf c).get i.st); return (o, (Conv.leaf c).save true s i.st)) =
      Except.error e := he
    cases hp : Conv.pstep c x ((Conv.leaf c).get i.st) with
    | ok p => rw [hp] at e'; simp [bind, Except.bind, pure, Except.pure] at e'
    | error e1 =>
      rw [hp] at e'
      simp [bind, Except.bind] at e'
      subst e'
      show convStep c i ⟨d, x⟩ = _
      unfold convStep
      rw [if_neg hs]
      by_cases hb : 0 < i.st.buffer.length
      · have h4' := h4 (by intro h; simp [h] at hb)
        have hp' := hp
        rw [conv_get, if_pos hb] at hp'
        simp only [hb, if_true, h4'.1, h4'.2, h1, withScalar, indexBy, same]
        simp [hp']
      · have hp' := hp
        rw [conv_get, if_neg hb] at hp'
        simp only [hb, if_false, h1, withScalar, indexBy, same]
        simp [hp']

theorem conv_follows [Zero X] [Zero Y] [Add Y] (w : When) (c : Conv.Cfg X Y) (hw : w ≠ .anytime ∨ Conv.stateless c = true) :
    ∃ R, Follows w (conv c) (Conv.mod c) R := by
  by_cases hs : Conv.stateless c = true
  · refine ⟨fun _ d i j => i.w = d ∧ i.st = j ∧ j.buffer = [], ⟨rfl, rfl, rfl⟩, ?_, ?_, ?_, ?_⟩
    · rintro f d i j ⟨h1, h2, h3⟩
      exact ⟨h1, rfl, rfl⟩
    · rintro f d d' i j - ⟨h1, h2, h3⟩
      exact ⟨rfl, h2, h3⟩
    · rintro f d i j x o j' ⟨h1, rfl, h3⟩ e
      have e' : (do let (o, s) ← Conv.pstep c x ((Conv.leaf c).get i.st); return (o, (Conv.leaf c).save true s i.st)) =
        Except.ok (o, j') := e
      refine ⟨i, ?_, h1, ?_⟩
      · show convStep c i ⟨d, x⟩ = _
        unfold convStep
        rw [if_pos hs]
        cases hp : Conv.pstep c x ((Conv.leaf c).get i.st) with
        | error e1 => rw [hp] at e'; simp [bind, Except.bind] at e'
        | ok p =>
          rw [hp] at e'
          obtain ⟨o1, s1⟩ := p
          simp [bind, Except.bind, pure, Except.pure] at e'
          simp [h1, e'.1]
      · cases hp : Conv.pstep c x ((Conv.leaf c).get i.st) with
        | error e1 => rw [hp] at e'; simp [bind, Except.bind] at e'
        | ok p =>
          rw [hp] at e'
          obtain ⟨o1, s1⟩ := p
          have hn := stateless_none hs hp
          have hg : (Conv.leaf c).get i.st = none := by simp [h3]
          rw [hg] at hn
          subst hn
          simp [bind, Except.bind, pure, Except.pure, Leaf.save] at e'
          rw [← e'.2]
          exact ⟨rfl, h3⟩
    · rintro f d i j x e ⟨h1, rfl, h3⟩ he
      have e' : (do let (o, s) ← Conv.pstep c x ((Conv.leaf c).get i.st); return (o, (Conv.leaf c).save true s i.st)) =
        Except.error e := he
      show convStep c i ⟨d, x⟩ = _
      unfold convStep
      rw [if_pos hs]
      cases hp : Conv.pstep c x ((Conv.leaf c).get i.st) with
      | error e1 => rw [hp] at e'; simp [bind, Except.bind] at e'; simp [e']
      | ok p => rw [hp] at e'; simp [bind, Except.bind, pure, Except.pure] at e'
  · exact ⟨convRel Y, conv_follows_stateful w c (hw.resolve_right hs) hs⟩

theorem pool_some {c : Pool.Cfg X Y} {x : X} {s : Option (Pool.St Y)}
    {o : Option Y} {s' : Option (Pool.St Y)} (e : Pool.pstep c x s = .ok (o, s')) : ∃ st, s' = some st := by
  unfold Pool.pstep at e
  simp only [bind, Except.bind, pure, Except.pure] at e
  repeat' split at e
  all_goals first
    | (cases e; done)
    | (injection e with e; injection e with e1 e2; exact ⟨_, e2.symm⟩)

theorem pool_get (c : Pool.Cfg X Y) (j : Pool.St Y) :
    (Pool.leaf c).get j = if j.buffer.length > 0 then some j else none := rfl

theorem pool_follows (w : When) (c : Pool.Cfg X Y) (hd : c.dil = 1) : ∃ R, Follows w (pool c) (Pool.mod c) R := by
  refine ⟨fun _ d i j => i.st = j ∧ (j.buffer ≠ [] → i.buf = d), ⟨rfl, fun h => absurd rfl h⟩, ?_, ?_, ?_, ?_⟩
  · rintro f d i j ⟨h1, h2⟩
    exact ⟨rfl, fun h => absurd rfl h⟩
  · rintro f d d' i j - ⟨h1, h2⟩
    exact ⟨h1, fun _ => rfl⟩
  · rintro f d i j x o j' ⟨rfl, h4⟩ e
    have e' : (do let (o, s) ← Pool.pstep c x ((Pool.leaf c).get i.st); return (o, (Pool.leaf c).save true s i.st)) =
      Except.ok (o, j') := e
    cases hp : Pool.pstep c x ((Pool.leaf c).get i.st) with
    | error e1 => rw [hp] at e'; simp [bind, Except.bind] at e'
    | ok p =>
      rw [hp] at e'
      obtain ⟨o1, s1⟩ := p
      obtain ⟨st, rfl⟩ := pool_some hp
      simp [bind, Except.bind, pure, Except.pure, Leaf.save] at e'
      obtain ⟨rfl, rfl⟩ := e'
      by_cases hb : 0 < i.st.buffer.length
      · have h4' := h4 (by intro h; simp [h] at hb)
        refine ⟨⟨st, i.buf, i.idx, i.str⟩, ?_, rfl, fun _ => h4'⟩
        show poolStep c i ⟨d, x⟩ = _
        unfold poolStep
        have hp' := hp
        rw [pool_get, if_pos hb] at hp'
        simp only [hb, if_true, h4', hd]
        simp [hp']
      · refine ⟨⟨st, d, .cpu, .cpu⟩, ?_, rfl, fun _ => rfl⟩
        show poolStep c i ⟨d, x⟩ = _
        unfold poolStep
        have hp' := hp
        rw [pool_get, if_neg hb] at hp'
        simp only [hb, if_false, hd]
        simp [hp']
  · rintro f d i j x e ⟨rfl, h4⟩ he
    have e' : (do let (o, s) ← Pool.pstep c x ((Pool.leaf c).get i.st); return (o, (Pool.leaf c).save true s i.st)) =
      Except.error e := he
    cases hp : Pool.pstep c x ((Pool.leaf c).get i.st) with
    | ok p => rw [hp] at e'; simp [bind, Except.bind, pure, Except.pure] at e'
    | error e1 =>
      rw [hp] at e'
      simp [bind, Except.bind] at e'
      subst e'
      show poolStep c i ⟨d, x⟩ = _
      unfold poolStep
      by_cases hb : 0 < i.st.buffer.length
      · have hp' := hp
        rw [pool_get, if_pos hb] at hp'
        simp only [hb, if_true, hd]
        simp [hp']
      · have hp' := hp
        rw [pool_get, if_neg hb] at hp'
        simp only [hb, if_false, hd]
        simp [hp']

theorem delay_some {c : Delay.Cfg X} (hd : c.d ≠ 0) {x : X} {s : Option (Delay.St X)}
    {o : Option X} {s' : Option (Delay.St X)} (e : Delay.pstep c x s = .ok (o, s')) : ∃ st, s' = some st := by
  unfold Delay.pstep at e
  rw [if_neg hd] at e
  simp only [bind, Except.bind, pure, Except.pure] at e
  repeat' split at e
  all_goals first
    | (cases e; done)
    | (injection e with e; injection e with e1 e2; exact ⟨_, e2.symm⟩)

theorem delay_get (c : Delay.Cfg X) (j : Delay.St X) :
    (Delay.leaf c).get j = if j.1.length > 0 then some j else none := rfl

theorem delay_follows (w : When) (c : Delay.Cfg X) : ∃ R, Follows w (delay c) (Delay.mod c) R := by
  refine ⟨fun _ d i j => i.1 = j ∧ (j.1 ≠ [] → i.2 = d), ⟨rfl, fun h => absurd rfl h⟩, ?_, ?_, ?_, ?_⟩
  · rintro f d i j ⟨h1, h2⟩
    exact ⟨rfl, fun h => absurd rfl h⟩
  · rintro f d d' i j - ⟨h1, h2⟩
    exact ⟨h1, fun _ => rfl⟩
  · rintro f d ⟨j, b⟩ j0 x o j' ⟨rfl, h4⟩ e
    by_cases h0 : c.d = 0
    · have e' : (if c.d = 0 then Except.ok (some x, j) else (Delay.leaf c).forwardStep j true x) = Except.ok (o, j') := e
      rw [if_pos h0] at e'
      injection e' with e'
      injection e' with e1 e2
      subst e1 e2
      refine ⟨(j, b), ?_, rfl, h4⟩
      show delayStep c (j, b) ⟨d, x⟩ = _
      unfold delayStep
      rw [if_pos h0]
      rfl
    · have e' : (if c.d = 0 then Except.ok (some x, j) else
        (do let (o, s) ← Delay.pstep c x ((Delay.leaf c).get j); return (o, (Delay.leaf c).save true s j))) =
        Except.ok (o, j') := e
      rw [if_neg h0] at e'
      cases hp : Delay.pstep c x ((Delay.leaf c).get j) with
      | error e1 => rw [hp] at e'; simp [bind, Except.bind] at e'
      | ok p =>
        rw [hp] at e'
        obtain ⟨o1, s1⟩ := p
        obtain ⟨st, rfl⟩ := delay_some h0 hp
        simp [bind, Except.bind, pure, Except.pure, Leaf.save] at e'
        obtain ⟨rfl, rfl⟩ := e'
        by_cases hb : 0 < j.1.length
        · have h4' : b = d := h4 (fun h => by rw [show j.1 = [] from h] at hb; exact Nat.lt_irrefl _ hb)
          refine ⟨(st, b), ?_, rfl, fun _ => h4'⟩
          show delayStep c (j, b) ⟨d, x⟩ = _
          unfold delayStep
          rw [if_neg h0]
          have hp' := hp
          rw [delay_get, if_pos hb] at hp'
          simp only [hb, if_true, h4']
          simp [hp']
        · refine ⟨(st, d), ?_, rfl, fun _ => rfl⟩
          show delayStep c (j, b) ⟨d, x⟩ = _
          unfold delayStep
          rw [if_neg h0]
          have hp' := hp
          rw [delay_get, if_neg hb] at hp'
          simp only [hb, if_false]
          simp [hp']
  · rintro f d ⟨j, b⟩ j0 x e ⟨rfl, h4⟩ he
    have e' : (if c.d = 0 then Except.ok (some x, j) else
      (do let (o, s) ← Delay.pstep c x ((Delay.leaf c).get j); return (o, (Delay.leaf c).save true s j))) =
      Except.error e := he
    by_cases h0 : c.d = 0
    · rw [if_pos h0] at e'; cases e'
    · rw [if_neg h0] at e'
      cases hp : Delay.pstep c x ((Delay.leaf c).get j) with
      | ok p => rw [hp] at e'; simp [bind, Except.bind, pure, Except.pure] at e'
      | error e1 =>
        rw [hp] at e'
        simp [bind, Except.bind] at e'
        subst e'
        show delayStep c (j, b) ⟨d, x⟩ = _
        unfold delayStep
        rw [if_neg h0]
        simp only [hp]

theorem skip_follows (w : When) (n : Nat) : ∃ R, Follows w (skip n X) (Skip.mod n X) R := by
  refine ⟨fun _ _ i j => i = j, rfl, fun _ _ _ _ h => by rw [h], fun _ _ _ _ _ _ h => h, ?_, ?_⟩
  · rintro f d i j x o j' rfl e
    have e' : (do let (o, s) ← Skip.pstep n x (some i); return (o, (Skip.leaf n X).save true s i)) = Except.ok (o, j') := e
    by_cases hi : (0 : Int) ≤ i
    · simp [Skip.pstep, hi, bind, Except.bind, pure, Except.pure, Leaf.save] at e'
      obtain ⟨rfl, rfl⟩ := e'
      exact ⟨i, by simp [Skip.pstep, hi], rfl⟩
    · simp [Skip.pstep, hi, bind, Except.bind, pure, Except.pure, Leaf.save] at e'
      obtain ⟨rfl, rfl⟩ := e'
      exact ⟨i + 1, by simp [Skip.pstep, hi], rfl⟩
  · rintro f d i j x e rfl he
    have e' : (do let (o, s) ← Skip.pstep n x (some i); return (o, (Skip.leaf n X).save true s i)) = Except.error e := he
    by_cases hi : (0 : Int) ≤ i <;> simp [Skip.pstep, hi, bind, Except.bind, pure, Except.pure, Leaf.save] at e'

theorem framewise_follows (w : When) (params : Bool) (g : X → Y) : ∃ R, Follows w (framewise params g) (Pointwise.mod g) R := by
  refine ⟨fun _ d i _ => i = d, rfl, fun _ _ _ _ h => h, fun _ _ _ _ _ _ _ => rfl, ?_, ?_⟩
  · rintro f d i j x o j' rfl e
    injection e with e
    injection e with e1 e2
    subst e1 e2
    exact ⟨i, by simp, rfl⟩
  · rintro f d i j x e rfl he
    cases he

/-- How the objects of a recurrent layer with and without devices are related. -/
def rnnRel (S : Type) (f : Bool) (d : Dev) (i : RnnInst S) (j : Option (List S)) : Prop :=
  i.w = d ∧ i.hidden = j ∧ (f = true → j = none) ∧ (j ≠ none → i.h = d)

theorem rnn_follows {V S : Type} (c : Rnn.Cfg V S) : Follows .between (rnn c) (Rnn.mod c) (rnnRel S) := by
  refine ⟨⟨rfl, rfl, fun _ => rfl, fun h => absurd rfl h⟩, ?_, ?_, ?_, ?_⟩
  · rintro f d i j ⟨h1, h2, h3, h4⟩
    exact ⟨h1, rfl, fun _ => rfl, fun h => absurd rfl h⟩
  · rintro f d d' i j ha ⟨h1, h2, h3, h4⟩
    exact ⟨rfl, h2, h3, fun h => absurd (h3 ha) h⟩
  · rintro f d i j x o j' ⟨h1, rfl, h3, h4⟩ e
    refine ⟨⟨i.w, j', d⟩, ?_, h1, rfl, fun h => absurd h (by decide), fun _ => rfl⟩
    have e' : Rnn.forwardStep c i.hidden true x = .ok (o, j') := e
    show rnnStep c i ⟨d, x⟩ = _
    unfold rnnStep
    cases hh : i.hidden with
    | none => rw [hh] at e'; simp [same, h1, e']
    | some s => rw [hh] at e' h4; simp [same, h1, h4, e']
  · rintro f d i j x e ⟨h1, rfl, h3, h4⟩ he
    have e' : Rnn.forwardStep c i.hidden true x = .error e := he
    show rnnStep c i ⟨d, x⟩ = _
    unfold rnnStep
    cases hh : i.hidden with
    | none => rw [hh] at e'; simp [same, h1, e']
    | some s => rw [hh] at e' h4; simp [same, h1, h4, e']

theorem attn_follows (w : When) (b : Attn.Base X Y) : ∃ R, Follows w (attn b) b.mod R := by
  refine ⟨fun _ d i j => i.w = d ∧ i.st = j ∧ (j ≠ none → i.mem = d), ⟨rfl, rfl, fun h => absurd rfl h⟩, ?_, ?_, ?_, ?_⟩
  · rintro f d i j ⟨h1, h2, h3⟩
    exact ⟨h1, rfl, fun h => absurd rfl h⟩
  · rintro f d d' i j - ⟨h1, h2, h3⟩
    exact ⟨rfl, h2, fun _ => rfl⟩
  · rintro f d i j x o j' ⟨h1, rfl, h4⟩ e
    refine ⟨⟨i.w, j', d⟩, ?_, h1, rfl, fun _ => rfl⟩
    have e' : Attn.step b i.st true x = .ok (o, j') := e
    show attnStep b i ⟨d, x⟩ = _
    unfold attnStep
    cases hh : i.st with
    | none => rw [hh] at e'; simp [same, h1, e']
    | some s => rw [hh] at e' h4; simp [same, h1, h4, e']
  · rintro f d i j x e ⟨h1, rfl, h4⟩ he
    have e' : Attn.step b i.st true x = .error e := he
    show attnStep b i ⟨d, x⟩ = _
    unfold attnStep
    cases hh : i.st with
    | none => rw [hh] at e'; simp [same, h1, e']
    | some s => rw [hh] at e' h4; simp [same, h1, h4, e']

theorem static_follows {V : Type} (w : When) (c : PosEnc.Cfg V) : ∃ R, Follows w (pos c false) (PosEnc.mod c) R := by
  refine ⟨fun _ d i j => i.w = d ∧ i.s = j ∧ (i.idx = .cpu ∨ i.idx = d), ⟨rfl, rfl, .inl rfl⟩, ?_, ?_, ?_, ?_⟩
  · rintro f d i j ⟨h1, h2, h3⟩
    exact ⟨h1, rfl, .inl rfl⟩
  · rintro f d d' i j - ⟨h1, h2, h3⟩
    exact ⟨rfl, h2, .inr rfl⟩
  · rintro f d i j x o j' ⟨h1, rfl, h4⟩ e
    refine ⟨⟨i.w, j', i.idx⟩, ?_, h1, rfl, h4⟩
    have e' : PosEnc.forwardStep c i.s true x = .ok (o, j') := e
    show posStep c false i ⟨d, x⟩ = _
    unfold posStep
    simp [indexBy, same, h1, h4, e']
  · rintro f d i j x e ⟨h1, rfl, h4⟩ he
    have e' : PosEnc.forwardStep c i.s true x = .error e := he
    show posStep c false i ⟨d, x⟩ = _
    unfold posStep
    simp [indexBy, same, h1, h4, e']

theorem single_follows {w : When} {M : Mov X Y} {m : CoMod (.stream X) (.stream Y)} {R : Bool → Dev → M.Inst → m.Inst → Prop}
    (h : Follows w M m R) : Follows w M (Sequential.mod (.single m)) R :=
  ⟨h.init, h.clean, h.move, h.ok, h.err⟩

theorem seq_follows {w : When} {M : Mov X Y} {m : CoMod (.stream X) (.stream Y)} {R : Bool → Dev → M.Inst → m.Inst → Prop}
    {N : Mov Y Z} {c : Chain (.stream Y) (.stream Z)} {Q : Bool → Dev → N.Inst → c.Inst → Prop}
    (h : Follows w M m R) (k : Follows w N (Sequential.mod c) Q) :
    ∃ P, Follows w (seq M N) (Sequential.mod (.cons m c)) P := by
  -- the second member may be fresh although the first is not
  refine ⟨fun f d i (j : m.Inst × c.Inst) => R f d i.1 j.1 ∧ ∃ g, (f = true → g = true) ∧ Q g d i.2 j.2, ?_, ?_, ?_, ?_, ?_⟩
  · exact ⟨h.init, true, fun _ => rfl, k.init⟩
  · rintro f d i j ⟨h1, g, h2, h3⟩
    exact ⟨h.clean f d _ _ h1, true, fun _ => rfl, k.clean g d _ _ h3⟩
  · rintro f d d' i j ha ⟨h1, g, h2, h3⟩
    refine ⟨h.move f d d' _ _ ha h1, g, h2, k.move g d d' _ _ ?_ h3⟩
    cases w with
    | anytime => trivial
    | home => exact ha.imp h2 id
    | between => exact h2 ha
  · rintro f d ⟨i1, i2⟩ ⟨j1, j2⟩ x o j' ⟨h1, g, h2, h3⟩ e
    have e' : (Chain.cons m c).step (j1, j2) true x = .ok (o, j') := e
    rw [Sequential.step_eq] at e'
    cases hs : m.step j1 true x with
    | error e1 => rw [hs] at e'; simp [bind, Except.bind] at e'
    | ok p =>
      obtain ⟨y, j1'⟩ := p
      rw [hs] at e'
      obtain ⟨i1', s1, s2⟩ := h.ok f d i1 j1 x y j1' h1 hs
      cases y with
      | none =>
        simp [bind, Except.bind, pure, Except.pure] at e'
        obtain ⟨rfl, rfl⟩ := e'
        exact ⟨(i1', i2), by simp [s1], s2, g, (fun hf => absurd hf (by decide)), h3⟩
      | some y =>
        cases ht : c.step j2 true y with
        | error e1 => simp [bind, Except.bind, ht] at e'
        | ok p =>
          obtain ⟨z, j2'⟩ := p
          simp [bind, Except.bind, pure, Except.pure, ht] at e'
          obtain ⟨rfl, rfl⟩ := e'
          obtain ⟨i2', t1, t2⟩ := k.ok g d i2 j2 y z j2' h3 ht
          exact ⟨(i1', i2'), by simp [s1, t1], s2, false, (fun hf => hf), t2⟩
  · rintro f d ⟨i1, i2⟩ ⟨j1, j2⟩ x e ⟨h1, g, h2, h3⟩ he
    have e' : (Chain.cons m c).step (j1, j2) true x = .error e := he
    rw [Sequential.step_eq] at e'
    cases hs : m.step j1 true x with
    | error e1 =>
      rw [hs] at e'
      simp [bind, Except.bind] at e'
      subst e'
      simp [h.err f d i1 j1 x e1 h1 hs]
    | ok p =>
      obtain ⟨y, j1'⟩ := p
      rw [hs] at e'
      obtain ⟨i1', s1, s2⟩ := h.ok f d i1 j1 x y j1' h1 hs
      cases y with
      | none => simp [bind, Except.bind, pure, Except.pure] at e'
      | some y =>
        cases ht : c.step j2 true y with
        | error e1 =>
          simp [bind, Except.bind, ht] at e'
          subst e'
          simp [s1, k.err g d i2 j2 y e1 h3 ht]
        | ok p => simp [bind, Except.bind, pure, Except.pure, ht] at e'

/-- The same for the branches of a `BroadcastReduce`. -/
structure FollowsAll (w : When) (Ms : List (Mov X Y)) (ms : List (CoMod (.stream X) (.stream Y)))
    (R : Bool → Dev → Branches.Inst Ms → BroadcastReduce.Inst ms → Prop) : Prop where
  init : R true .cpu (Branches.init Ms) (BroadcastReduce.init ms)
  clean : ∀ f d i j, R f d i j → R true d (Branches.clean Ms i) (BroadcastReduce.clean ms j)
  move : ∀ f d d' i j, w.allows f d' → R f d i j → R f d' (Branches.move d' Ms i) j
  ok : ∀ f d i j x (os : List (Option Y)) j', R f d i j → BroadcastReduce.stepAll ms j true x = .ok (os, j') →
    ∃ i', Branches.stepAll Ms i ⟨d, x⟩ = .ok (os.map (Option.map (T.mk d)), i') ∧ R false d i' j'
  err : ∀ f d i j x e, R f d i j → BroadcastReduce.stepAll ms j true x = .error e → Branches.stepAll Ms i ⟨d, x⟩ = .error e

theorem all_follows {w : When} : ∀ (Ms : List (Mov X Y)) (ms : List (CoMod (.stream X) (.stream Y))), Ms.length = ms.length →
    (∀ k (h1 : k < Ms.length) (h2 : k < ms.length), ∃ R, Follows w (Ms[k]'h1) (ms[k]'h2) R) → ∃ R, FollowsAll w Ms ms R
  | [], [], _, _ => ⟨fun _ _ _ _ => True, trivial, fun _ _ _ _ _ => trivial, fun _ _ _ _ _ _ _ => trivial,
    fun _ _ _ _ _ os _ _ e => by cases e; exact ⟨(), rfl, trivial⟩, fun _ _ _ _ _ _ _ e => by cases e⟩
  | M :: Ms, m :: ms, hl, h => by
    obtain ⟨R, hR⟩ := h 0 (by simp) (by simp)
    obtain ⟨Q, hQ⟩ := all_follows Ms ms (by simpa using hl) fun k h1 h2 => h (k + 1) (by simpa using h1) (by simpa using h2)
    have hR : Follows w M m R := hR
    refine ⟨fun f d i j => R f d i.1 j.1 ∧ Q f d i.2 j.2, ⟨hR.init, hQ.init⟩, fun f d i j k => ⟨hR.clean f d _ _ k.1, hQ.clean f d _ _ k.2⟩,
      fun f d d' i j ha k => ⟨hR.move f d d' _ _ ha k.1, hQ.move f d d' _ _ ha k.2⟩, ?_, ?_⟩
    · rintro f d ⟨i1, i2⟩ ⟨j1, j2⟩ x os j' ⟨k1, k2⟩ e
      simp only [BroadcastReduce.stepAll, bind, Except.bind] at e
      cases hs : m.step j1 true x with
      | error e1 => rw [hs] at e; cases e
      | ok p =>
        obtain ⟨o, j1'⟩ := p
        rw [hs] at e
        cases ht : BroadcastReduce.stepAll ms j2 true x with
        | error e1 => rw [ht] at e; cases e
        | ok p =>
          obtain ⟨os', j2'⟩ := p
          rw [ht] at e
          cases e
          obtain ⟨i1', a1, a2⟩ := hR.ok f d i1 j1 x o j1' k1 hs
          obtain ⟨i2', b1, b2⟩ := hQ.ok f d i2 j2 x os' j2' k2 ht
          exact ⟨(i1', i2'), by simp [Branches.stepAll, a1, b1], a2, b2⟩
    · rintro f d ⟨i1, i2⟩ ⟨j1, j2⟩ x e ⟨k1, k2⟩ he
      simp only [BroadcastReduce.stepAll, bind, Except.bind] at he
      cases hs : m.step j1 true x with
      | error e1 =>
        rw [hs] at he
        cases he
        simp [Branches.stepAll, hR.err f d i1 j1 x e k1 hs]
      | ok p =>
        obtain ⟨o, j1'⟩ := p
        rw [hs] at he
        obtain ⟨i1', a1, a2⟩ := hR.ok f d i1 j1 x o j1' k1 hs
        cases ht : BroadcastReduce.stepAll ms j2 true x with
        | error e1 =>
          rw [ht] at he
          cases he
          simp [Branches.stepAll, a1, hQ.err f d i2 j2 x e k2 ht]
        | ok p => rw [ht] at he; cases he

theorem allSome_places {α : Type} (d : Dev) : ∀ os : List (Option α),
    allSome (os.map (Option.map (T.mk d))) = (allSome os).map (List.map (T.mk d))
  | [] => rfl
  | none :: _ => rfl
  | some a :: os => by
    simp only [List.map_cons, Option.map_some, allSome, allSome_places d os]
    cases allSome os <;> rfl

theorem allSome_length {α : Type} : ∀ {os : List (Option α)} {l : List α}, allSome os = some l → l.length = os.length
  | [], _, h => by cases h; rfl
  | none :: _, _, h => by cases h
  | some a :: os, l, h => by
    cases e : allSome os with
    | none => simp [allSome, e] at h
    | some l' =>
      simp [allSome, e] at h
      subst h
      simp [allSome_length e]

theorem stepAll_length : ∀ (ms : List (CoMod (.stream X) (.stream Y))) (j : BroadcastReduce.Inst ms) (x : X) {os j'},
    BroadcastReduce.stepAll ms j true x = .ok (os, j') → os.length = ms.length
  | [], _, _, _, _, h => by cases h; rfl
  | m :: ms, j, x, os, j', h => by
    simp only [BroadcastReduce.stepAll, bind, Except.bind] at h
    cases hs : m.step j.1 true x with
    | error e => rw [hs] at h; cases h
    | ok p =>
      rw [hs] at h
      cases ht : BroadcastReduce.stepAll ms j.2 true x with
      | error e => rw [ht] at h; cases h
      | ok q =>
        rw [ht] at h
        cases h
        simp [stepAll_length ms j.2 x ht]

/-- Results that lie on one device are reduced there. -/
theorem reduce_places (r : Reducer Y Z) (d : Dev) (os : List (Option Y)) (hne : os ≠ []) :
    nonempty (Branches.reduce r) (os.map (Option.map (T.mk d))) = (nonempty r.frame os).map (Option.map (T.mk d)) := by
  unfold nonempty
  rw [allSome_places]
  cases h : allSome os with
  | none => rfl
  | some l =>
    have hl := allSome_length h
    cases l with
    | nil => exact absurd (List.length_eq_zero_iff.1 hl.symm) hne
    | cons y l =>
      have e : ((y :: l).map (T.mk d)).map T.val = y :: l := by rw [List.map_map]; exact List.map_id _
      show Except.map some (Branches.reduce r (T.mk d y :: l.map (T.mk d))) = _
      rw [Branches.reduce, if_pos (by simp)]
      show Except.map some (Except.map (T.mk d) (r.frame (((y :: l).map (T.mk d)).map T.val))) = _
      rw [e]
      show _ = Except.map (Option.map (T.mk d)) (Except.map some (r.frame (y :: l)))
      cases r.frame (y :: l) <;> rfl

theorem branches_follows {w : When} (r : Reducer Y Z) {Ms : List (Mov X Y)} {ms : List (CoMod (.stream X) (.stream Y))} (hne : ms ≠ [])
    {R : Bool → Dev → Branches.Inst Ms → BroadcastReduce.Inst ms → Prop} (h : FollowsAll w Ms ms R) :
    Follows w (branches r Ms) (BroadcastReduce.mod r ms) R where
  init := h.init
  clean := h.clean
  move := h.move
  ok := by
    intro f d i j x o j' hR e
    have e' : BroadcastReduce.step r ms j true x = .ok (o, j') := e
    simp only [BroadcastReduce.step, bind, Except.bind] at e'
    cases hs : BroadcastReduce.stepAll ms j true x with
    | error e1 => rw [hs] at e'; cases e'
    | ok p =>
      obtain ⟨os, j1⟩ := p
      rw [hs] at e'
      obtain ⟨i', a1, a2⟩ := h.ok f d i j x os j1 hR hs
      have hos : os ≠ [] := fun h0 => hne (List.length_eq_zero_iff.1 (by rw [← stepAll_length ms j x hs, h0]; rfl))
      cases ht : nonempty r.frame os with
      | error e1 => simp only [ht] at e'; cases e'
      | ok z =>
        simp only [ht] at e'
        cases e'
        refine ⟨i', ?_, a2⟩
        simp only [a1, reduce_places r d os hos, ht, Except.map]
  err := by
    intro f d i j x e hR he
    have e' : BroadcastReduce.step r ms j true x = .error e := he
    simp only [BroadcastReduce.step, bind, Except.bind] at e'
    cases hs : BroadcastReduce.stepAll ms j true x with
    | error e1 =>
      rw [hs] at e'
      cases e'
      simp only [h.err f d i j x e hR hs]
    | ok p =>
      obtain ⟨os, j1⟩ := p
      rw [hs] at e'
      obtain ⟨i', a1, a2⟩ := h.ok f d i j x os j1 hR hs
      have hos : os ≠ [] := fun h0 => hne (List.length_eq_zero_iff.1 (by rw [← stepAll_length ms j x hs, h0]; rfl))
      cases ht : nonempty r.frame os with
      | error e1 =>
        simp only [ht] at e'
        cases e'
        simp only [a1, reduce_places r d os hos, ht, Except.map]
      | ok z => simp only [ht] at e'; cases e'

/-- `clean_state` does nothing, so that the members may hold a state after it; they may still be moved if they may be moved at any
time. -/
theorem conditional_follows {p : Conditional.Pred X} {M N : Mov X X} {m n : CoMod (.stream X) (.stream X)} {R Q} (rf : Nat) (dl : Int)
    (hR : Follows .anytime M m R) (hQ : Follows .anytime N n Q) :
    Follows .anytime (conditional p M N) (Conditional.both p m n rf dl)
      fun _ d i j => (∃ f, R f d i.1 j.1) ∧ ∃ f, Q f d i.2 j.2 where
  init := ⟨⟨_, hR.init⟩, ⟨_, hQ.init⟩⟩
  clean := fun _ _ _ _ h => h
  move := fun _ d d' i j _ h => ⟨⟨_, hR.move _ d d' _ _ trivial h.1.choose_spec⟩, ⟨_, hQ.move _ d d' _ _ trivial h.2.choose_spec⟩⟩
  ok := by
    intro _ d i j x o j' ⟨⟨f, h1⟩, ⟨g, h2⟩⟩ e
    have e : (if p.frame x then (m.step j.1 true x).map fun q => (q.1, (q.2, j.2))
      else (n.step j.2 true x).map fun q => (q.1, (j.1, q.2))) = .ok (o, j') := e
    show ∃ i', (if p.frame x then (M.step i.1 ⟨d, x⟩).map fun q => (q.1, (q.2, i.2))
      else (N.step i.2 ⟨d, x⟩).map fun q => (q.1, (i.1, q.2))) = .ok (o.map (T.mk d), i') ∧ _
    by_cases hp : p.frame x = true
    · rw [if_pos hp] at e ⊢
      cases hs : m.step j.1 true x with
      | error x => rw [hs] at e; cases e
      | ok q =>
        rw [hs] at e
        cases e
        obtain ⟨i', a1, a2⟩ := hR.ok f d i.1 j.1 x q.1 q.2 h1 hs
        exact ⟨(i', i.2), by rw [a1]; rfl, ⟨_, a2⟩, ⟨_, h2⟩⟩
    · rw [if_neg hp] at e ⊢
      cases hs : n.step j.2 true x with
      | error x => rw [hs] at e; cases e
      | ok q =>
        rw [hs] at e
        cases e
        obtain ⟨i', a1, a2⟩ := hQ.ok g d i.2 j.2 x q.1 q.2 h2 hs
        exact ⟨(i.1, i'), by rw [a1]; rfl, ⟨_, h1⟩, ⟨_, a2⟩⟩
  err := by
    intro _ d i j x e ⟨⟨f, h1⟩, ⟨g, h2⟩⟩ he
    have he : (if p.frame x then (m.step j.1 true x).map fun q => (q.1, (q.2, j.2))
      else (n.step j.2 true x).map fun q => (q.1, (j.1, q.2))) = .error e := he
    show (if p.frame x then (M.step i.1 ⟨d, x⟩).map fun q => (q.1, (q.2, i.2))
      else (N.step i.2 ⟨d, x⟩).map fun q => (q.1, (i.1, q.2))) = .error e
    by_cases hp : p.frame x = true
    · rw [if_pos hp] at he ⊢
      cases hs : m.step j.1 true x with
      | error x => rw [hs] at he; cases he; rw [hR.err f d i.1 j.1 _ _ h1 hs]; rfl
      | ok q => rw [hs] at he; cases he
    · rw [if_neg hp] at he ⊢
      cases hs : n.step j.2 true x with
      | error x => rw [hs] at he; cases he; rw [hQ.err g d i.2 j.2 _ _ h2 hs]; rfl
      | ok q => rw [hs] at he; cases he

theorem conditionalOnly_follows {p : Conditional.Pred X} {M : Mov X X} {m : CoMod (.stream X) (.stream X)} {R} (rf : Nat) (dl : Int)
    (hR : Follows .anytime M m R) :
    Follows .anytime (conditionalOnly p M) (Conditional.only p m rf dl) fun _ d i j => ∃ f, R f d i j where
  init := ⟨_, hR.init⟩
  clean := fun _ _ _ _ h => h
  move := fun _ d d' i j _ h => ⟨_, hR.move _ d d' _ _ trivial h.choose_spec⟩
  ok := by
    intro _ d i j x o j' ⟨f, h1⟩ e
    have e : (if p.frame x then m.step j true x else .ok (some x, j)) = .ok (o, j') := e
    show ∃ i', (if p.frame x then M.step i ⟨d, x⟩ else .ok (some ⟨d, x⟩, i)) = .ok (o.map (T.mk d), i') ∧ _
    by_cases hp : p.frame x = true
    · rw [if_pos hp] at e ⊢
      obtain ⟨i', a1, a2⟩ := hR.ok f d i j x o j' h1 e
      exact ⟨_, a1, _, a2⟩
    · rw [if_neg hp] at e ⊢
      cases e
      exact ⟨_, rfl, _, h1⟩
  err := by
    intro _ d i j x e ⟨f, h1⟩ he
    have he : (if p.frame x then m.step j true x else .ok (some x, j)) = .error e := he
    show (if p.frame x then M.step i ⟨d, x⟩ else .ok (some ⟨d, x⟩, i)) = .error e
    by_cases hp : p.frame x = true
    · rw [if_pos hp] at he ⊢
      exact hR.err f d i j x e h1 he
    · rw [if_neg hp] at he
      cases he

/-- With a predicate that is true, a `Conditional` is its branch, except that `clean_state` does nothing. -/
theorem conditionalOnly_run {p : Conditional.Pred X} (hp : ∀ x, p.frame x = true) (M : Mov X X) : ∀ (ops : List (DevOp X)) (i : M.Inst)
    (d : Dev), runOps (conditionalOnly p M) i d ops = runOps M i d (uncleaned ops)
  | [], _, _ => rfl
  | .feed x :: ops, i, d => by
    have e : (conditionalOnly p M).step i ⟨d, x⟩ = M.step i ⟨d, x⟩ := if_pos (hp x)
    cases hs : M.step i ⟨d, x⟩ with
    | error e' =>
      rw [hs] at e
      simp only [uncleaned]
      rw [runOps, runOps, e, hs]
    | ok q =>
      rw [hs] at e
      simp only [uncleaned]
      rw [runOps, runOps, e, hs]
      simp only [conditionalOnly_run hp M ops q.2 d]
  | .move d' :: ops, i, d => conditionalOnly_run hp M ops _ _
  | .clean :: ops, i, d => conditionalOnly_run hp M ops _ _

theorem uncleaned_append {X : Type} : ∀ ops ops' : List (DevOp X), uncleaned (ops ++ ops') = uncleaned ops ++ uncleaned ops'
  | [], _ => rfl
  | .feed x :: ops, ops' => congrArg (DevOp.feed x :: ·) (uncleaned_append ops ops')
  | .move d :: ops, ops' => congrArg (DevOp.move d :: ·) (uncleaned_append ops ops')
  | .clean :: ops, ops' => uncleaned_append ops ops'

theorem placed_follows {w : When} {X Y : Type} {M : Mov X Y} {m : CoMod (.stream X) (.stream Y)} (h : Placed w M m) :
    ∃ R, Follows w M m R := by
  induction h with
  | conv c h => exact conv_follows w c h
  | pool c h => exact pool_follows w c h
  | delay c => exact delay_follows w c
  | skip n => exact skip_follows w n
  | framewise p f => exact framewise_follows w p f
  | rnn c h => subst h; exact ⟨_, rnn_follows c⟩
  | static c => exact static_follows w c
  | attn b => exact attn_follows w b
  | single h ih =>
    obtain ⟨R, hR⟩ := ih
    exact ⟨R, single_follows hR⟩
  | seq h1 h2 ih1 ih2 =>
    obtain ⟨R, hR⟩ := ih1
    obtain ⟨Q, hQ⟩ := ih2
    exact seq_follows hR hQ
  | branches r hne hl h ih =>
    obtain ⟨R, hR⟩ := all_follows _ _ hl ih
    exact ⟨R, branches_follows r hne hR⟩
  | conditional p rf d hw _ _ ih1 ih2 =>
    subst hw
    obtain ⟨R, hR⟩ := ih1
    obtain ⟨Q, hQ⟩ := ih2
    exact ⟨_, conditional_follows rf d hR hQ⟩
  | conditionalOnly p rf d hw _ ih =>
    subst hw
    obtain ⟨R, hR⟩ := ih
    exact ⟨_, conditionalOnly_follows rf d hR⟩

theorem Follows.after {w : When} {M : Mov X Y} {m : CoMod (.stream X) (.stream Y)} {R : Bool → Dev → M.Inst → m.Inst → Prop}
    (h : Follows w M m R) (tl : List (DevOp X)) (ops : List (DevOp X)) : ∀ f d i j r, R f d i j → Movings w f ops →
      unmoved m j d (ops ++ tl) = .ok r →
    ∃ f' d' i' j' r0 r1, R f' d' i' j' ∧ unmoved m j' d' tl = .ok r1 ∧ r = r0 ++ r1 ∧
      ∀ tl', runOps M i d (ops ++ tl') = (runOps M i' d' tl').map (r0 ++ ·) := by
  induction ops with
  | nil =>
    intro f d i j r hR hm hr
    exact ⟨f, d, i, j, [], r, hR, hr, rfl, fun tl' => by
      simp only [List.nil_append]
      cases runOps M i d tl' <;> rfl⟩
  | cons a ops ih =>
    intro f d i j r hR hm hr
    cases a with
    | feed x =>
      simp only [List.cons_append, unmoved] at hr
      cases hs : m.step j true x with
      | error e => rw [hs] at hr; cases hr
      | ok p =>
        obtain ⟨o, j'⟩ := p
        rw [hs] at hr
        obtain ⟨i', h1, h2⟩ := h.ok f d i j x o j' hR hs
        cases hu : unmoved m j' d (ops ++ tl) with
        | error e => simp only [hu] at hr; cases hr
        | ok r' =>
          simp only [hu] at hr
          injection hr with hr
          obtain ⟨f', d', i'', j'', r0, r1, q1, q2, q3, q4⟩ := ih false d i' j' r' h2 hm hu
          refine ⟨f', d', i'', j'', o.map (T.mk d) :: r0, r1, q1, q2, by rw [← hr, q3]; rfl, fun tl' => ?_⟩
          simp only [List.cons_append, runOps, h1, q4]
          cases runOps M i'' d' tl' <;> rfl
    | move d' => exact ih f d' _ j r (h.move f d d' i j hm.1 hR) hm.2 hr
    | clean => exact ih true d _ _ r (h.clean f d i j hR) hm hr

theorem run_err {M : Mov X Y} {i : M.Inst} {d : Dev} {x : X} {ops : List (DevOp X)} {e : Err} (h : M.step i ⟨d, x⟩ = .error e) :
    runOps M i d (.feed x :: ops) = .error e := by
  simp only [runOps, h]

theorem run_ok {M : Mov X Y} {i i' : M.Inst} {d : Dev} {x : X} {o : Option (T Y)} {ops : List (DevOp X)}
    (h : M.step i ⟨d, x⟩ = .ok (o, i')) : runOps M i d (.feed x :: ops) = (runOps M i' d ops).map (o :: ·) := by
  simp only [runOps, h]
  cases runOps M i' d ops <;> rfl

theorem unmoved_ok {m : CoMod (.stream X) (.stream Y)} {j j' : m.Inst} {d : Dev} {x : X} {o : Option Y} {ops : List (DevOp X)}
    (h : m.step j true x = .ok (o, j')) : unmoved m j d (.feed x :: ops) = (unmoved m j' d ops).map (o.map (T.mk d) :: ·) := by
  simp only [unmoved, h]
  cases unmoved m j' d ops <;> rfl

theorem unmoved_err {m : CoMod (.stream X) (.stream Y)} {j : m.Inst} {d : Dev} {x : X} {e : Err} {ops : List (DevOp X)}
    (h : m.step j true x = .error e) : unmoved m j d (.feed x :: ops) = .error e := by
  simp only [unmoved, h]

theorem unmoved_inv {m : CoMod (.stream X) (.stream Y)} {j : m.Inst} {d : Dev} {x : X} {ops : List (DevOp X)}
    {r : List (Option (T Y))} (h : unmoved m j d (.feed x :: ops) = .ok r) : ∃ (o : Option Y) (j' : m.Inst) (r' : List (Option (T Y))),
      m.step j true x = .ok (o, j') ∧ unmoved m j' d ops = .ok r' ∧ r = o.map (T.mk d) :: r' := by
  cases hs : m.step j true x with
  | error e => rw [unmoved_err hs] at h; cases h
  | ok p =>
    obtain ⟨o, j'⟩ := p
    rw [unmoved_ok hs] at h
    cases hu : unmoved m j' d ops with
    | error e => rw [hu] at h; cases h
    | ok r' =>
      rw [hu] at h
      injection h with h
      exact ⟨o, j', r', rfl, hu, h.symm⟩

theorem unmoved_two {m : CoMod (.stream X) (.stream Y)} {j : m.Inst} {d : Dev} {x0 x : X} {r : List (Option (T Y))}
    (h : unmoved m j d [.feed x0, .feed x] = .ok r) : ∃ (o1 : Option Y) (j1 : m.Inst) (o2 : Option Y) (j2 : m.Inst),
      m.step j true x0 = .ok (o1, j1) ∧ m.step j1 true x = .ok (o2, j2) ∧ r = [o1.map (T.mk d), o2.map (T.mk d)] := by
  simp only [unmoved] at h
  cases h1 : m.step j true x0 with
  | error e => rw [h1] at h; cases h
  | ok p =>
    obtain ⟨o1, j1⟩ := p
    rw [h1] at h
    simp only [] at h
    cases h2 : m.step j1 true x with
    | error e => rw [h2] at h; cases h
    | ok p =>
      obtain ⟨o2, j2⟩ := p
      rw [h2] at h
      injection h with h
      exact ⟨o1, j1, o2, j2, rfl, h2, h.symm⟩

theorem unmoved_one {m : CoMod (.stream X) (.stream Y)} {j : m.Inst} {d : Dev} {x0 : X} {r : List (Option (T Y))}
    (h : unmoved m j d [.feed x0] = .ok r) : ∃ (o1 : Option Y) (j1 : m.Inst),
      m.step j true x0 = .ok (o1, j1) ∧ r = [o1.map (T.mk d)] := by
  simp only [unmoved] at h
  cases h1 : m.step j true x0 with
  | error e => rw [h1] at h; cases h
  | ok p =>
    obtain ⟨o1, j1⟩ := p
    rw [h1] at h
    injection h with h
    exact ⟨o1, j1, rfl, h.symm⟩

theorem pySet_length {α : Type} {l : List α} {i : Int} {x : α} {l' : List α} (h : pySet l i x = .ok l') : l'.length = l.length := by
  unfold pySet at h
  extract_lets j at h
  split at h
  · cases h
  · split at h
    · injection h with h
      rw [← h, List.length_set]
    · cases h

theorem conv_due [Zero X] [Zero Y] [Add Y] {c : Conv.Cfg X Y} (hs : ¬ Conv.stateless c = true) {x : X} {st : Conv.St Y}
    {y : Y} {s' : Option (Conv.St Y)} (e : Conv.pstep c x (some st) = .ok (some y, s')) : st.strideIndex = (c.S : Int) - 1 := by
  by_contra hn
  unfold Conv.pstep at e
  rw [if_neg hs] at e
  simp only [bind, Except.bind, pure, Except.pure, Conv.output, if_neg hn] at e
  repeat' split at e
  all_goals first
    | (cases e; done)
    | (injection e with e; injection e with e1 e2
       rename_i h _ _ _
       first
         | (injection h with h; rw [← h] at e1; cases e1; done)
         | skip)
  all_goals simp_all

theorem conv_kept_aux [Zero X] [Zero Y] [Add Y] {c : Conv.Cfg X Y} (hK : 2 ≤ c.K) {x : X} {xo : Y} {st st' : Conv.St Y} {o : Option Y}
    (hne : st.buffer ≠ [])
    (e : (do
      let out ← Conv.output c st xo
      let next ← Conv.writeBack c st ((Conv.taps c x).drop 1)
      return (out, some (⟨next.1, next.2, Conv.nextStride c.S st.strideIndex⟩ : Conv.St Y))) = Except.ok (o, some st')) :
    st'.buffer ≠ [] := by
  simp only [bind, Except.bind, pure, Except.pure] at e
  cases ho : Conv.output c st xo with
  | error e1 => rw [ho] at e; cases e
  | ok out =>
    rw [ho] at e
    simp only [Conv.writeBack, if_pos (show c.K > 1 by omega), bind, Except.bind, pure, Except.pure] at e
    cases hp : pySet st.buffer st.index ((Conv.taps c x).drop 1) with
    | error e1 => rw [hp] at e; cases e
    | ok b =>
      rw [hp] at e
      injection e with e
      injection e with e1 e2
      injection e2 with e2
      rw [← e2]
      intro h
      have h' : b = [] := h
      have := pySet_length hp
      rw [h'] at this
      exact hne (List.length_eq_zero_iff.mp this.symm)

theorem conv_kept [Zero X] [Zero Y] [Add Y] {c : Conv.Cfg X Y} (hK : 2 ≤ c.K) {x : X} {s : Option (Conv.St Y)}
    (hb : ∀ st, s = some st → st.buffer ≠ []) {o : Option Y} {st' : Conv.St Y} (e : Conv.pstep c x s = .ok (o, some st')) :
    st'.buffer ≠ [] := by
  have hs : ¬ Conv.stateless c = true := by simp [Conv.stateless]; omega
  unfold Conv.pstep at e
  rw [if_neg hs] at e
  cases hx : pyGet (Conv.taps c x) 0 with
  | error e1 => rw [hx] at e; simp [bind, Except.bind] at e
  | ok xo =>
    rw [hx] at e
    cases s with
    | none =>
      refine conv_kept_aux hK (st := Conv.initState c ((Conv.taps c x).drop 1)) ?_ e
      intro h
      have := congrArg List.length h
      simp [Conv.initState] at this
      omega
    | some st0 => exact conv_kept_aux hK (hb st0 rfl) e

end Device

open Device Spec

/-- **C97**, where it holds: a network of any members — convolutions, poolings without dilation, delays, skips,
frame-wise layers, attention, and the fixed positional encoding — goes on with its stream on whatever device it is moved to, if it
is moved at the times that suit its members: recurrent layers only before the first frame of a stream, convolutions also to the
CPU, all others at any time. -/
theorem C97_moved_partial (w : When) {X Y : Type} {M : Mov X Y} {m : CoMod (.stream X) (.stream Y)} (h : Placed w M m)
    (ops : List (DevOp X)) (hm : Movings w true ops) : runOps M M.init .cpu ops = unmoved m m.init .cpu ops := by
  obtain ⟨R, hR⟩ := placed_follows h
  exact hR.run ops true .cpu _ _ hR.init hm

/-- **C97**, violated by convolutions over time: if the object is moved to a GPU after a frame, then the next frame for which there
would be an output raises. -/
theorem C97_conv_refuted {X Y : Type} [Zero X] [Zero Y] [Add Y] (c : Conv.Cfg X Y) (hK : 2 ≤ c.K) (ops : List (DevOp X))
    (hm : Movings .home true ops) (x0 x : X) (n : Nat) (os : List (Option (T Y))) (y : T Y)
    (h : unmoved (Conv.mod c) (Conv.mod c).init .cpu (ops ++ [.feed x0, .feed x]) = .ok (os ++ [some y])) :
    runOps (Device.conv c) (Device.conv c).init .cpu (ops ++ [.feed x0, .move (.gpu n), .feed x]) = .error .runtime := by
  have hs : ¬ Conv.stateless c = true := by simp [Conv.stateless]; omega
  have hF := conv_follows_stateful .home c (by decide) hs
  obtain ⟨f, d, i, j, r0, r1, q1, q2, q3, q4⟩ := hF.after [.feed x0, .feed x] ops true .cpu _ _ _ hF.init hm h
  rw [q4]
  obtain ⟨o1, j1, o2, j2, h1, h2, q2⟩ := unmoved_two q2
  obtain ⟨i1, s1, s2⟩ := hF.ok f d i j x0 o1 j1 q1 h1
  -- the last result is an output
  have ho2 : o2.map (T.mk d) = some y := by
    have := congrArg List.getLast? q3
    rw [q2] at this
    simpa using this.symm
  have hj1 : j1.buffer ≠ [] := by
    have e' : (do let (o, s) ← Conv.pstep c x0 ((Conv.leaf c).get j); return (o, (Conv.leaf c).save true s j)) =
      Except.ok (o1, j1) := h1
    cases hp : Conv.pstep c x0 ((Conv.leaf c).get j) with
    | error e1 => rw [hp] at e'; simp [bind, Except.bind] at e'
    | ok p =>
      rw [hp] at e'
      obtain ⟨o, s⟩ := p
      obtain ⟨st, rfl⟩ := stateful_some hs hp
      simp [bind, Except.bind, pure, Except.pure, Leaf.save] at e'
      rw [← e'.2]
      refine conv_kept hK ?_ hp
      intro st0 hst0
      rw [conv_get] at hst0
      split at hst0
      · injection hst0 with hst0
        rw [← hst0]
        rename_i hl
        exact fun h => by simp [h] at hl
      · cases hst0
  have hlen : 0 < j1.buffer.length := List.length_pos_iff.mpr hj1
  have hdue : j1.strideIndex = (c.S : Int) - 1 := by
    have e' : (do let (o, s) ← Conv.pstep c x ((Conv.leaf c).get j1); return (o, (Conv.leaf c).save true s j1)) =
      Except.ok (o2, j2) := h2
    rw [conv_get, if_pos hlen] at e'
    cases hp : Conv.pstep c x (some j1) with
    | error e1 => rw [hp] at e'; simp [bind, Except.bind] at e'
    | ok p =>
      rw [hp] at e'
      obtain ⟨o, s⟩ := p
      simp [bind, Except.bind, pure, Except.pure] at e'
      cases o with
      | none => rw [← e'.1] at ho2; cases ho2
      | some y' => exact conv_due hs hp
  have hmv : convStep c ((Device.conv c).move (.gpu n) i1) ⟨.gpu n, x⟩ = .error .runtime := by
    unfold convStep
    rw [if_neg hs]
    have hst : i1.st = j1 := s2.2.1
    simp [hst, hlen, hdue, withScalar]
  have hmv' : (Device.conv c).step ((Device.conv c).move (.gpu n) i1) ⟨.gpu n, x⟩ = .error .runtime := hmv
  rw [run_ok s1]
  show Except.map _ (Except.map _ (runOps _ _ _ [.feed x])) = _
  rw [run_err hmv']
  rfl

/-- **C97**, violated by `Conditional`, even between two streams: its `clean_state` does nothing, so a convolution in a branch that runs
keeps its state when the network is cleaned and moved to a GPU, and raises.  (In the histories of the theorem above, the convolution
alone may be moved after `clean_state`.) -/
theorem C97_conditional_refuted {X : Type} [Zero X] [Add X] (p : Conditional.Pred X) (hp : ∀ x, p.frame x = true) (c : Conv.Cfg X X)
    (hK : 2 ≤ c.K) (ops : List (DevOp X)) (hm : Movings .home true (uncleaned ops)) (x0 x : X) (n : Nat) (os : List (Option (T X))) (y : T X)
    (h : unmoved (Conv.mod c) (Conv.mod c).init .cpu (uncleaned ops ++ [.feed x0, .feed x]) = .ok (os ++ [some y])) :
    runOps (Device.conditionalOnly p (Device.conv c)) (Device.conditionalOnly p (Device.conv c)).init .cpu
      (ops ++ [.feed x0, .clean, .move (.gpu n), .feed x]) = .error .runtime ∧
    Movings .between true ([.feed x0, .clean, .move (.gpu n), .feed x] : List (DevOp X)) := by
  refine ⟨?_, rfl, trivial⟩
  rw [conditionalOnly_run hp, uncleaned_append]
  exact C97_conv_refuted c hK (uncleaned ops) hm x0 x n os y h

/-- **C97**, violated by recurrent layers: moved after a frame to another device, whichever, the next frame raises. -/
theorem C97_rnn_refuted {V S : Type} (c : Rnn.Cfg V S) (ops : List (DevOp V)) (hm : Movings .between true ops) (x0 x : V)
    (d : Dev) (os : List (Option (T V))) (o : T V)
    (h : unmoved (Rnn.mod c) none .cpu (ops ++ [.feed x0]) = .ok (os ++ [some o])) (hd : d ≠ o.dev) :
    runOps (Device.rnn c) (Device.rnn c).init .cpu (ops ++ [.feed x0, .move d, .feed x]) = .error .runtime := by
  have hF := rnn_follows c
  obtain ⟨f, d0, i, j, r0, r1, q1, q2, q3, q4⟩ := hF.after [.feed x0] ops true .cpu _ _ _ hF.init hm h
  rw [q4]
  obtain ⟨o1, j1, h1, q2⟩ := unmoved_one q2
  obtain ⟨i1, s1, s2⟩ := hF.ok f d0 i j x0 o1 j1 q1 h1
  have ho : o1.map (T.mk d0) = some o := by
    have := congrArg List.getLast? q3
    rw [q2] at this
    simpa using this.symm
  have hdev : o.dev = d0 := by
    cases o1 with
    | none => cases ho
    | some v => injection ho with ho; rw [← ho]
  obtain ⟨st, hst⟩ : ∃ st, j1 = some st := by
    have e' : Rnn.forwardStep c j true x0 = .ok (o1, j1) := h1
    unfold Rnn.forwardStep Rnn.pstep at e'
    cases ht : Rnn.torchForward c [x0] j with
    | error e => rw [ht] at e'; cases e'
    | ok p =>
      rw [ht] at e'
      injection e' with e'
      injection e' with e1 e2
      exact ⟨_, e2.symm⟩
  have hh : i1.h = d0 := s2.2.2.2 (by rw [hst]; exact Option.some_ne_none _)
  have hhid : i1.hidden = some st := s2.2.1.trans hst
  have hmv : rnnStep c ((Device.rnn c).move d i1) ⟨d, x⟩ = .error .runtime := by
    unfold rnnStep
    have hne : ¬ d = d0 := fun h => hd (h.trans hdev.symm)
    simp [same, hhid, hh, hne]
  have hmv' : (Device.rnn c).step ((Device.rnn c).move d i1) ⟨d, x⟩ = .error .runtime := hmv
  rw [run_ok s1]
  show Except.map _ (Except.map _ (runOps _ _ _ [.feed x])) = _
  rw [run_err hmv']
  rfl

theorem pool_due {X Y : Type} {c : Pool.Cfg X Y} {x : X} {s : Option (Pool.St Y)} {y : Y} {s' : Option (Pool.St Y)}
    (e : Pool.pstep c x s = .ok (some y, s')) :
    (match s with
      | some st => st.strideIndex
      | none => (c.S : Int) - Pool.bufLen c + c.P) = (c.S : Int) - 1 := by
  by_contra hn
  unfold Pool.pstep at e
  cases s with
  | none =>
    have hn' : ¬ (Pool.initState c (c.spatial x)).strideIndex = (c.S : Int) - 1 := hn
    simp only [bind, Except.bind, pure, Except.pure, if_neg hn'] at e
    split at e
    · cases e
    · injection e with e; injection e with e1 e2; cases e1
  | some st =>
    have hn' : ¬ st.strideIndex = (c.S : Int) - 1 := hn
    simp only [bind, Except.bind, pure, Except.pure, if_neg hn'] at e
    split at e
    · cases e
    · injection e with e; injection e with e1 e2; cases e1

theorem dilated_raises {X Y : Type} (c : Pool.Cfg X Y) (hd : c.dil ≠ 1) (n : Nat) (xs : List X) :
    ∀ (i : PoolInst Y) (j : Pool.St Y) (r : List (Option (T Y))), i.st = j → (j.buffer ≠ [] → i.buf = .gpu n ∧ i.idx = .cpu) →
      unmoved (Pool.mod c) j (.gpu n) (xs.map .feed) = .ok r → (∃ y, some y ∈ r) →
      runOps (Device.pool c) i (.gpu n) (xs.map .feed) = .error .runtime := by
  induction xs with
  | nil =>
    intro i j r _ _ hr hy
    injection hr with hr
    rw [← hr] at hy
    obtain ⟨y, hy⟩ := hy
    cases hy
  | cons x xs ih =>
    rintro i j r rfl hb hr ⟨y, hy⟩
    obtain ⟨o, j', r', hs, hu, hr⟩ := unmoved_inv hr
    have e' : (do let (o, s) ← Pool.pstep c x ((Pool.leaf c).get i.st); return (o, (Pool.leaf c).save true s i.st)) =
      Except.ok (o, j') := hs
    cases hp : Pool.pstep c x ((Pool.leaf c).get i.st) with
    | error e1 => rw [hp] at e'; simp [bind, Except.bind] at e'
    | ok p =>
      rw [hp] at e'
      obtain ⟨o1, s1⟩ := p
      obtain ⟨st, rfl⟩ := pool_some hp
      simp [bind, Except.bind, pure, Except.pure, Leaf.save] at e'
      obtain ⟨rfl, rfl⟩ := e'
      -- the step with devices
      by_cases hl : 0 < i.st.buffer.length
      · have hb' := hb (by intro h; simp [h] at hl)
        have hp' := hp
        rw [pool_get, if_pos hl] at hp'
        by_cases hdue : i.st.strideIndex = (c.S : Int) - 1
        · have hm : (Device.pool c).step i ⟨.gpu n, x⟩ = .error .runtime := by
            show poolStep c i _ = _
            unfold poolStep
            simp [hl, hb', hd, hdue, withScalar, selectBy]
          exact run_err hm
        · have hm : (Device.pool c).step i ⟨.gpu n, x⟩ = .ok (o1.map (T.mk (.gpu n)), ⟨st, .gpu n, .cpu, i.str⟩) := by
            show poolStep c i _ = _
            unfold poolStep
            simp [hl, hb', hdue, hp']
          have hn : o1 = none := by
            cases o1 with
            | none => rfl
            | some y => exact absurd (pool_due hp') hdue
          rw [List.map_cons, run_ok hm]
          rw [ih ⟨st, .gpu n, .cpu, i.str⟩ st r' rfl (fun _ => ⟨rfl, rfl⟩) hu ⟨y, by
            rw [hr, hn] at hy
            simpa using hy⟩]
          rfl
      · have hp' := hp
        rw [pool_get, if_neg hl] at hp'
        by_cases hdue : (c.S : Int) - Pool.bufLen c + c.P = (c.S : Int) - 1
        · have hm : (Device.pool c).step i ⟨.gpu n, x⟩ = .error .runtime := by
            show poolStep c i _ = _
            unfold poolStep
            simp only [hl, if_false, hdue]
            simp [hd, withScalar, selectBy]
          exact run_err hm
        · have hm : (Device.pool c).step i ⟨.gpu n, x⟩ = .ok (o1.map (T.mk (.gpu n)), ⟨st, .gpu n, .cpu, .cpu⟩) := by
            show poolStep c i _ = _
            unfold poolStep
            simp only [hl, if_false, hdue]
            simp [hp']
          have hn : o1 = none := by
            cases o1 with
            | none => rfl
            | some y => exact absurd (pool_due hp') hdue
          rw [List.map_cons, run_ok hm]
          rw [ih ⟨st, .gpu n, .cpu, .cpu⟩ st r' rfl (fun _ => ⟨rfl, rfl⟩) hu ⟨y, by
            rw [hr, hn] at hy
            simpa using hy⟩]
          rfl

/-- **C97**, violated by poolings with temporal dilation: moved to a GPU before the first frame, they raise instead of giving their
first output. -/
theorem C97_dilated_refuted {X Y : Type} (c : Pool.Cfg X Y) (hd : c.dil ≠ 1) (n : Nat) (xs : List X) (r : List (Option (T Y)))
    (h : unmoved (Pool.mod c) (Pool.mod c).init .cpu (.move (.gpu n) :: xs.map .feed) = .ok r) (hy : ∃ y, some y ∈ r) :
    runOps (Device.pool c) (Device.pool c).init .cpu (.move (.gpu n) :: xs.map .feed) = .error .runtime :=
  dilated_raises c hd n xs _ _ r rfl (fun h => absurd rfl h) h hy

/-- **C97** for the learned positional encoding, as long as it is not cleaned: it may be moved at any time. -/
theorem C97_learned_partial {V : Type} (c : PosEnc.Cfg V) (ops : List (DevOp V)) (hc : DevOp.clean ∉ ops) :
    runOps (Device.pos c true) (Device.pos c true).init .cpu ops = unmoved (PosEnc.mod c) (PosEnc.mod c).init .cpu ops := by
  have key : ∀ (ops : List (DevOp V)) (d : Dev) (i : PosInst), DevOp.clean ∉ ops → i.w = d → i.idx = d →
      runOps (Device.pos c true) i d ops = unmoved (PosEnc.mod c) i.s d ops := by
    intro ops
    induction ops with
    | nil => intros; rfl
    | cons a ops ih =>
      intro d i hc h1 h2
      have hc' : DevOp.clean ∉ ops := fun h => hc (List.mem_cons_of_mem _ h)
      cases a with
      | clean => exact absurd List.mem_cons_self hc
      | move d' => exact ih d' ⟨d', i.s, d'⟩ hc' rfl rfl
      | feed x =>
        have hm : (Device.pos c true).step i ⟨d, x⟩ = (match PosEnc.forwardStep c i.s true x with
          | .error e => .error e
          | .ok (o, s) => .ok (o.map (T.mk d), ⟨d, s, d⟩)) := by
          show posStep c true i _ = _
          unfold posStep
          simp only [selectBy, same, h1, h2, if_true]
          cases PosEnc.forwardStep c i.s true _ <;> rfl
        cases hs : PosEnc.forwardStep c i.s true x with
        | error e =>
          rw [hs] at hm
          rw [run_err hm, unmoved_err (m := PosEnc.mod c) hs]
        | ok p =>
          obtain ⟨o, s⟩ := p
          rw [hs] at hm
          rw [run_ok hm, unmoved_ok (m := PosEnc.mod c) hs, ih d ⟨d, s, d⟩ hc' rfl rfl]
  exact key ops .cpu _ hc rfl rfl

/-- **C97**, violated by the learned positional encoding: on a GPU, it raises at the first frame after `clean_state`. -/
theorem C97_learned_refuted {V : Type} (c : PosEnc.Cfg V) (ops : List (DevOp V)) (hc : DevOp.clean ∉ ops) (n : Nat) (x : V)
    (r : List (Option (T V))) (h : unmoved (PosEnc.mod c) (PosEnc.mod c).init .cpu ops = .ok r) :
    runOps (Device.pos c true) (Device.pos c true).init .cpu (ops ++ [.move (.gpu n), .clean, .feed x]) = .error .runtime := by
  have key : ∀ (ops : List (DevOp V)) (d : Dev) (i : PosInst) (r : List (Option (T V))), DevOp.clean ∉ ops → i.w = d → i.idx = d →
      unmoved (PosEnc.mod c) i.s d ops = .ok r →
      runOps (Device.pos c true) i d (ops ++ [.move (.gpu n), .clean, .feed x]) = .error .runtime := by
    intro ops
    induction ops with
    | nil =>
      intro d i r _ _ _ _
      refine run_err (M := Device.pos c true) (i := ⟨.gpu n, 0, .cpu⟩) (d := .gpu n) (x := x) (ops := []) ?_
      simp [posStep, selectBy]
    | cons a ops ih =>
      intro d i r hc h1 h2 hr
      have hc' : DevOp.clean ∉ ops := fun h => hc (List.mem_cons_of_mem _ h)
      cases a with
      | clean => exact absurd List.mem_cons_self hc
      | move d' => exact ih d' ⟨d', i.s, d'⟩ r hc' rfl rfl hr
      | feed y =>
        have hm : (Device.pos c true).step i ⟨d, y⟩ = (match PosEnc.forwardStep c i.s true y with
          | .error e => .error e
          | .ok (o, s) => .ok (o.map (T.mk d), ⟨d, s, d⟩)) := by
          show posStep c true i _ = _
          unfold posStep
          simp only [selectBy, same, h1, h2, if_true]
          cases PosEnc.forwardStep c i.s true _ <;> rfl
        obtain ⟨o, s, r', hs, hu, -⟩ := unmoved_inv hr
        have hs' : PosEnc.forwardStep c i.s true y = .ok (o, s) := hs
        rw [hs'] at hm
        rw [List.cons_append, run_ok hm, ih d ⟨d, s, d⟩ r' hc' rfl rfl hu]
        rfl
  exact key ops .cpu _ r hc rfl rfl h

/-! ### The hypotheses are satisfiable -/

/-- A convolution of two frames. -/
def devConv : Conv.Cfg Int Int := { K := 2, S := 1, P := 0, fill := .zeros, padMode := .zeros, w := fun _ x => x, bias := none }

/-- Fed, moved to a GPU while the convolution is empty, fed, cleaned, fed, moved home in the middle of the stream, fed. -/
def devOps : List (DevOp Int) := [.feed 1, .feed 2, .clean, .move (.gpu 0), .feed 3, .feed 4, .move .cpu, .feed 5]

/-- A sequence of a delay and a convolution over two frames, in the history above. -/
example : ∃ (M : Mov Int Int) (m : CoMod (.stream Int) (.stream Int)) (_ : Placed .home M m), Movings .home true devOps ∧
    unmoved m m.init .cpu devOps = .ok [none, none, none, none, some ⟨.cpu, 7⟩] :=
  ⟨_, _, .seq (.delay ⟨1, id, .off⟩) (.single (.conv devConv (.inl (by decide)))),
    by simp [Movings, devOps, When.allows], rfl⟩

/-- A residual connection around the convolution, in the same history. -/
example : ∃ (M : Mov Int Int) (m : CoMod (.stream Int) (.stream Int)) (_ : Placed .home M m), Movings .home true devOps ∧
    m = BroadcastReduce.mod (foldReducer (· + ·)) [Conv.mod devConv, Delay.mod ⟨1, id, .off⟩] ∧
    unmoved m m.init .cpu devOps = .ok [none, some ⟨.cpu, 4⟩, none, some ⟨.gpu 0, 10⟩, some ⟨.cpu, 13⟩] :=
  ⟨_, _, .branches (foldReducer (· + ·)) (Ms := [Device.conv devConv, Device.delay ⟨1, id, .off⟩])
      (ms := [Conv.mod devConv, Delay.mod ⟨1, id, .off⟩]) (by simp) rfl fun k h1 h2 => match k, h1, h2 with
      | 0, _, _ => .conv devConv (.inl (by decide))
      | 1, _, _ => .delay ⟨1, id, .off⟩,
    by simp [Movings, devOps, When.allows], rfl, rfl⟩

example : unmoved (Conv.mod devConv) (Conv.mod devConv).init .cpu ([] ++ [.feed 1, .feed 2]) = .ok ([none] ++ [some ⟨.cpu, 3⟩]) := rfl

example : unmoved (Rnn.mod (⟨[fun x s => (x + s, x + s)], 0⟩ : Rnn.Cfg Int Int)) none .cpu ([.feed 1] ++ [.feed 2]) =
    .ok ([some ⟨.cpu, 1⟩] ++ [some ⟨.cpu, 3⟩]) := rfl

/-- A dilated pooling over the frames 0 and 2 of three. -/
example : unmoved (Pool.mod (⟨2, 1, 0, 2, id, List.sum, id, fun _ => 0, 0⟩ : Pool.Cfg Int Int)) ⟨[], 0, 0⟩ .cpu
    (.move (.gpu 0) :: [1, 2, 3].map .feed) = .ok [none, none, some ⟨.gpu 0, 5⟩] := rfl

example : unmoved (PosEnc.mod (⟨[10, 20], (· + ·), 0⟩ : PosEnc.Cfg Int)) 0 .cpu [.feed 1, .move (.gpu 0), .feed 2] =
    .ok [some ⟨.cpu, 11⟩, some ⟨.gpu 0, 22⟩] := rfl

/-- A `Conditional` of two delays, moved in the middle of the stream. -/
example : ∃ (M : Mov Int Int) (m : CoMod (.stream Int) (.stream Int)) (_ : Placed .anytime M m), Movings .anytime true devOps ∧
    m = Conditional.both ⟨fun x => x < 3, fun _ => true⟩ (Delay.mod ⟨1, id, .off⟩) (Delay.mod ⟨1, id, .off⟩) 2 1 ∧
    unmoved m m.init .cpu devOps = .ok [none, some ⟨.cpu, 1⟩, none, some ⟨.gpu 0, 3⟩, some ⟨.cpu, 4⟩] :=
  ⟨_, _, .conditional ⟨fun x => x < 3, fun _ => true⟩ 2 1 rfl (.delay ⟨1, id, .off⟩) (.delay ⟨1, id, .off⟩),
    by simp [Movings, devOps, When.allows], rfl, rfl⟩

example : unmoved (Conv.mod devConv) (Conv.mod devConv).init .cpu (uncleaned [] ++ [.feed 1, .feed 2]) = .ok ([none] ++ [some ⟨.cpu, 3⟩]) :=
  rfl

end CoInf
