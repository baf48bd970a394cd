/-
C107: the type and the device of the frames of a stream, and `warm_up`.
-/
import Verif.Model.Typed
import Verif.Model.Broadcast
import Verif.Model.Rnn
import Verif.Model.Attention
import Verif.Lemmas.Sequential
import Verif.Lemmas.Conv
import Verif.Lemmas.Residual

set_option autoImplicit false

namespace CoInf
open Typed
open CoInf.Carry (DType)
open CoInf.Device (Dev)

namespace Spec
variable {X Y V : Type}

/-- What happens to an object: a frame is fed, the state is cleaned, `warm_up` is called (with a delay of `k`). -/
inductive TypedOp (X : Type) where
  | feed (x : X)
  | clean
  | warm (k : Nat)

/-- The results of the steps for frames of the place `p`. -/
def typedRun [Zero X] (M : TMod X Y) (p : Place) : M.Inst → List (TypedOp X) → Except Err (List (Option (T Y)))
  | _, [] => .ok []
  | i, .feed x :: ops =>
    match M.step i ⟨p, x⟩ with
    | .error e => .error e
    | .ok (o, i') =>
      match typedRun M p i' ops with
      | .error e => .error e
      | .ok os => .ok (o :: os)
  | i, .clean :: ops => typedRun M p (M.clean i) ops
  | i, .warm k :: ops =>
    match warmUp M k i with
    | .error e => .error e
    | .ok i' => typedRun M p i' ops

/-- `k` frames of zeros, the results of which nobody looks at. -/
def zerosFed [Zero X] (m : CoMod (.stream X) (.stream Y)) : Nat → m.Inst → Except Err m.Inst
  | 0, j => .ok j
  | k + 1, j =>
    match m.step j true 0 with
    | .error e => .error e
    | .ok (_, j) => zerosFed m k j

/-- What is expected: the results of the module as if there were one type and one device only, all of them of the place `p`. -/
def untyped [Zero X] (m : CoMod (.stream X) (.stream Y)) (p : Place) : m.Inst → List (TypedOp X) → Except Err (List (Option (T Y)))
  | _, [] => .ok []
  | j, .feed x :: ops =>
    match m.step j true x with
    | .error e => .error e
    | .ok (o, j') =>
      match untyped m p j' ops with
      | .error e => .error e
      | .ok os => .ok (o.map (T.mk p) :: os)
  | j, .clean :: ops => untyped m p (m.clean j) ops
  | j, .warm k :: ops =>
    match zerosFed m k j with
    | .error e => .error e
    | .ok j' => untyped m p j' ops

/-- The results of the steps for frames of any places, one after the other. -/
def fedFrames (M : TMod X Y) : M.Inst → List (T X) → Except Err (List (Option (T Y)))
  | _, [] => .ok []
  | i, x :: xs =>
    match M.step i x with
    | .error e => .error e
    | .ok (o, i') =>
      match fedFrames M i' xs with
      | .error e => .error e
      | .ok os => .ok (o :: os)

/-- The results of a module without types for some frames. -/
def fedValues (m : CoMod (.stream X) (.stream Y)) : m.Inst → List X → Except Err (List (Option Y))
  | _, [] => .ok []
  | j, x :: xs =>
    match m.step j true x with
    | .error e => .error e
    | .ok (o, j') =>
      match fedValues m j' xs with
      | .error e => .error e
      | .ok os => .ok (o :: os)

/-- All these results are tensors of the place `p`. -/
def allAt (p : Place) (r : Except Err (List (Option Y))) : Except Err (List (Option (T Y))) :=
  r.map fun os => os.map fun o => o.map (T.mk p)

/-- No call of `warm_up`. -/
def NoWarm (ops : List (TypedOp X)) : Prop := ∀ k, TypedOp.warm k ∉ ops

/-- Networks, with and without types, all parameters of which lie at `p`. -/
inductive LiesAt (p : Place) : {X Y : Type} → TMod X Y → CoMod (.stream X) (.stream Y) → Type 1 where
  | conv {X Y : Type} [Zero X] [Zero Y] [Add Y] (c : Conv.Cfg X Y) : LiesAt p (Typed.conv p c) (Conv.mod c)
  | pool {X : Type} [Casts X] (c : Pool.Cfg X X) (h : c.dil = 1) : LiesAt p (Typed.buffered (Pool.mod c)) (Pool.mod c)
  | delay {X : Type} [Casts X] (c : Delay.Cfg X) (h : c.d ≠ 0) : LiesAt p (Typed.buffered (Delay.mod c)) (Delay.mod c)
  | layer {X Y : Type} (f : X → Y) : LiesAt p (Typed.framewise (some p) f) (Pointwise.mod f)
  | plain {X Y : Type} (f : X → Y) : LiesAt p (Typed.framewise none f) (Pointwise.mod f)
  | rnn {V S : Type} (c : Rnn.Cfg V S) : LiesAt p (Typed.strict p (Rnn.mod c)) (Rnn.mod c)
  | attention {X O : Type} (b : Attn.Base X O) : LiesAt p (Typed.strict p b.mod) b.mod
  | single {X Y : Type} {M : TMod X Y} {m : CoMod (.stream X) (.stream Y)} (h : LiesAt p M m) :
    LiesAt p M (Sequential.mod (.single m))
  | seq {X Y Z : Type} {M : TMod X Y} {m : CoMod (.stream X) (.stream Y)} {N : TMod Y Z} {c : Chain (.stream Y) (.stream Z)}
    (h1 : LiesAt p M m) (h2 : LiesAt p N (Sequential.mod c)) : LiesAt p (Typed.seq M N) (Sequential.mod (.cons m c))
  | sum {X V : Type} [Add V] [Casts V] {M N : TMod X V} {m n : CoMod (.stream X) (.stream V)} (h1 : LiesAt p M m) (h2 : LiesAt p N n) :
    LiesAt p (Typed.both M N) (BroadcastReduce.mod (foldReducer (· + ·)) [m, n])

end Spec

namespace Typed
open Spec
variable {X Y Z V : Type}

/-- A relation between the objects with and without types which all calls respect. -/
structure Tracks (p : Place) (M : TMod X Y) (m : CoMod (.stream X) (.stream Y)) (R : M.Inst → m.Inst → Prop) : Prop where
  init : R M.init m.init
  clean : ∀ i j, R i j → R (M.clean i) (m.clean j)
  ok : ∀ i j x (o : Option Y) j', R i j → m.step j true x = .ok (o, j') → ∃ i', M.step i ⟨p, x⟩ = .ok (o.map (T.mk p), i') ∧ R i' j'
  err : ∀ i j x e, R i j → m.step j true x = .error e → M.step i ⟨p, x⟩ = .error e

theorem buffered_tracks [Casts V] (p : Place) (m : CoMod (.stream V) (.stream V)) :
    Tracks p (buffered m) m fun i j => i.1 = j ∧ (i.2 = none ∨ i.2 = some p) := by
  have key : ∀ (i : m.Inst × Option Place) (x : V), (i.2 = none ∨ i.2 = some p) → i.2.getD (T.mk p x).place = p ∧
      (T.mk p x).as p.dtype = x := by
    intro i x h
    refine ⟨?_, by simp [T.as]⟩
    rcases h with h | h <;> simp [h]
  constructor
  · exact ⟨rfl, .inl rfl⟩
  · rintro i j ⟨rfl, _⟩
    exact ⟨rfl, .inl rfl⟩
  · rintro i j x o j' ⟨rfl, h⟩ e
    obtain ⟨h1, h2⟩ := key i x h
    refine ⟨(j', some p), ?_, rfl, .inr rfl⟩
    simp only [h1, h2, e]
  · rintro i j x e ⟨rfl, h⟩ he
    obtain ⟨h1, h2⟩ := key i x h
    simp only [h1, h2, he]

theorem conv_tracks [Zero X] [Zero Y] [Add Y] (p : Place) (c : Conv.Cfg X Y) : Tracks p (conv p c) (Conv.mod c) Eq := by
  constructor
  · rfl
  · rintro i j rfl
    rfl
  · rintro i j x o j' rfl e
    have e : (Conv.leaf c).forwardStep i true x = .ok (o, j') := e
    exact ⟨j', by simp only [if_true, e], rfl⟩
  · rintro i j x e rfl he
    have he : (Conv.leaf c).forwardStep i true x = .error e := he
    simp only [if_true, he]

theorem strict_tracks (p : Place) (m : CoMod (.stream X) (.stream Y)) : Tracks p (strict p m) m Eq := by
  constructor
  · rfl
  · rintro i j rfl
    rfl
  · rintro i j x o j' rfl e
    exact ⟨j', by simp only [if_true, e], rfl⟩
  · rintro i j x e rfl he
    simp only [if_true, he]

theorem framewise_tracks (p : Place) (w : Option Place) (hw : w = none ∨ w = some p) (f : X → Y) :
    Tracks p (framewise w f) (Pointwise.mod f) fun _ _ => True := by
  constructor
  · trivial
  · intros
    trivial
  · intro i j x o j' _ e
    have e' : (Except.ok (some (f x), j) : Except Err (Option Y × Unit)) = .ok (o, j') := e
    injection e' with e'
    injection e' with e1 e2
    refine ⟨i, ?_, trivial⟩
    rcases hw with rfl | rfl
    · simp [← e1]
    · simp [← e1]
  · intro i j x e _ he
    have e' : (Except.ok (some (f x), j) : Except Err (Option Y × Unit)) = .error e := he
    cases e'

theorem seq_tracks {p : Place} {M : TMod X Y} {m : CoMod (.stream X) (.stream Y)} {R : M.Inst → m.Inst → Prop}
    {N : TMod Y Z} {c : Chain (.stream Y) (.stream Z)} {Q : N.Inst → c.Inst → Prop}
    (h : Tracks p M m R) (k : Tracks p N (Sequential.mod c) Q) :
    Tracks p (seq M N) (Sequential.mod (.cons m c)) fun i (j : m.Inst × c.Inst) => R i.1 j.1 ∧ Q i.2 j.2 := by
  constructor
  · exact ⟨h.init, k.init⟩
  · rintro i j ⟨h1, h2⟩
    exact ⟨h.clean _ _ h1, k.clean _ _ h2⟩
  · rintro ⟨i1, i2⟩ ⟨j1, j2⟩ x o j' ⟨h1, h3⟩ e
    have e' : (Chain.cons m c).step (j1, j2) true x = .ok (o, j') := e
    rw [Sequential.step_eq] at e'
    cases hs : m.step j1 true x with
    | error e1 => rw [hs] at e'; simp [bind, Except.bind] at e'
    | ok q =>
      obtain ⟨y, j1'⟩ := q
      rw [hs] at e'
      obtain ⟨i1', s1, s2⟩ := h.ok i1 j1 x y j1' h1 hs
      cases y with
      | none =>
        simp [bind, Except.bind, pure, Except.pure] at e'
        obtain ⟨rfl, rfl⟩ := e'
        exact ⟨(i1', i2), by simp [s1], s2, h3⟩
      | some y =>
        cases ht : c.step j2 true y with
        | error e1 => simp [bind, Except.bind, ht] at e'
        | ok q =>
          obtain ⟨z, j2'⟩ := q
          simp [bind, Except.bind, pure, Except.pure, ht] at e'
          obtain ⟨rfl, rfl⟩ := e'
          obtain ⟨i2', t1, t2⟩ := k.ok i2 j2 y z j2' h3 ht
          exact ⟨(i1', i2'), by simp [s1, t1], s2, t2⟩
  · rintro ⟨i1, i2⟩ ⟨j1, j2⟩ x e ⟨h1, h3⟩ he
    have e' : (Chain.cons m c).step (j1, j2) true x = .error e := he
    rw [Sequential.step_eq] at e'
    cases hs : m.step j1 true x with
    | error e1 =>
      rw [hs] at e'
      simp [bind, Except.bind] at e'
      subst e'
      simp [h.err i1 j1 x e1 h1 hs]
    | ok q =>
      obtain ⟨y, j1'⟩ := q
      rw [hs] at e'
      obtain ⟨i1', s1, s2⟩ := h.ok i1 j1 x y j1' h1 hs
      cases y with
      | none => simp [bind, Except.bind, pure, Except.pure] at e'
      | some y =>
        cases ht : c.step j2 true y with
        | error e1 =>
          simp [bind, Except.bind, ht] at e'
          subst e'
          simp [s1, k.err i2 j2 y e1 h3 ht]
        | ok q => simp [bind, Except.bind, pure, Except.pure, ht] at e'

theorem promote_self (d : DType) : promote d d = d := by cases d <;> rfl

theorem add_at [Add V] [Casts V] (p : Place) (a b : V) : add ⟨p, a⟩ ⟨p, b⟩ = .ok ⟨p, a + b⟩ := by
  simp [add, T.as, promote_self]

theorem both_tracks [Add V] [Casts V] {p : Place} {M N : TMod X V} {m n : CoMod (.stream X) (.stream V)} {R : M.Inst → m.Inst → Prop}
    {Q : N.Inst → n.Inst → Prop} (h : Tracks p M m R) (k : Tracks p N n Q) :
    Tracks p (both M N) (BroadcastReduce.mod (foldReducer (· + ·)) [m, n]) fun i (j : m.Inst × n.Inst × Unit) => R i.1 j.1 ∧ Q i.2 j.2.1 := by
  have eq : ∀ (j1 : m.Inst) (j2 : n.Inst) x, (BroadcastReduce.mod (foldReducer (· + ·)) [m, n]).step (j1, j2, ()) true x =
      match m.step j1 true x with
      | .error e => .error e
      | .ok (a, j1) =>
        match n.step j2 true x with
        | .error e => .error e
        | .ok (b, j2) =>
          match a, b with
          | some a, some b => .ok (some (a + b), (j1, j2, ()))
          | _, _ => .ok (none, (j1, j2, ())) := by
    intro j1 j2 x
    show BroadcastReduce.step _ _ _ _ _ = _
    unfold BroadcastReduce.step
    simp only [BroadcastReduce.stepAll, bind, Except.bind, pure, Except.pure]
    rcases m.step j1 true x with e | ⟨a, j1'⟩
    · rfl
    · rcases n.step j2 true x with e | ⟨b, j2'⟩
      · rfl
      · cases a <;> cases b <;> rfl
  constructor
  · exact ⟨h.init, k.init⟩
  · rintro i j ⟨h1, h2⟩
    exact ⟨h.clean _ _ h1, k.clean _ _ h2⟩
  · rintro ⟨i1, i2⟩ ⟨j1, j2, ⟨⟩⟩ x o j' ⟨h1, h2⟩ e
    rw [eq] at e
    cases hs : m.step j1 true x with
    | error e1 => rw [hs] at e; cases e
    | ok q =>
      obtain ⟨a, j1'⟩ := q
      obtain ⟨i1', s1, s2⟩ := h.ok i1 j1 x a j1' h1 hs
      cases ht : n.step j2 true x with
      | error e1 => rw [hs, ht] at e; cases e
      | ok q =>
        obtain ⟨b, j2'⟩ := q
        obtain ⟨i2', t1, t2⟩ := k.ok i2 j2 x b j2' h2 ht
        simp only [hs, ht] at e
        cases a <;> cases b <;> simp only [Except.ok.injEq, Prod.mk.injEq] at e <;> obtain ⟨rfl, rfl⟩ := e <;>
          exact ⟨(i1', i2'), by simp [s1, t1, add_at], s2, t2⟩
  · rintro ⟨i1, i2⟩ ⟨j1, j2, ⟨⟩⟩ x e ⟨h1, h2⟩ he
    rw [eq] at he
    cases hs : m.step j1 true x with
    | error e1 =>
      simp only [hs] at he
      injection he with he
      subst he
      simp [h.err i1 j1 x e1 h1 hs]
    | ok q =>
      obtain ⟨a, j1'⟩ := q
      obtain ⟨i1', s1, s2⟩ := h.ok i1 j1 x a j1' h1 hs
      cases ht : n.step j2 true x with
      | error e1 =>
        simp only [hs, ht] at he
        injection he with he
        subst he
        simp [s1, k.err i2 j2 x e1 h2 ht]
      | ok q =>
        obtain ⟨b, j2'⟩ := q
        simp only [hs, ht] at he
        cases a <;> cases b <;> cases he

theorem lies_tracks {p : Place} {X Y : Type} {M : TMod X Y} {m : CoMod (.stream X) (.stream Y)} (h : LiesAt p M m) :
    ∃ R, Tracks p M m R := by
  induction h with
  | conv c => exact ⟨_, conv_tracks p c⟩
  | pool c _ => exact ⟨_, buffered_tracks p _⟩
  | delay c _ => exact ⟨_, buffered_tracks p _⟩
  | rnn c => exact ⟨_, strict_tracks p _⟩
  | attention b => exact ⟨_, strict_tracks p _⟩
  | layer f => exact ⟨_, framewise_tracks p _ (.inr rfl) f⟩
  | plain f => exact ⟨_, framewise_tracks p _ (.inl rfl) f⟩
  | single _ ih =>
    obtain ⟨R, hR⟩ := ih
    exact ⟨R, hR.init, hR.clean, hR.ok, hR.err⟩
  | seq _ _ ih1 ih2 =>
    obtain ⟨R, hR⟩ := ih1
    obtain ⟨Q, hQ⟩ := ih2
    exact ⟨_, seq_tracks hR hQ⟩
  | sum _ _ ih1 ih2 =>
    obtain ⟨R, hR⟩ := ih1
    obtain ⟨Q, hQ⟩ := ih2
    exact ⟨_, both_tracks hR hQ⟩

theorem Tracks.warm [Zero X] {M : TMod X Y} {m : CoMod (.stream X) (.stream Y)} {R : M.Inst → m.Inst → Prop}
    (h : Tracks .default M m R) (k : Nat) : ∀ i j, R i j →
    (∀ j', zerosFed m k j = .ok j' → ∃ i', warmUp M k i = .ok i' ∧ R i' j') ∧ (∀ e, zerosFed m k j = .error e → warmUp M k i = .error e) := by
  induction k with
  | zero =>
    intro i j hR
    refine ⟨fun j' e => ?_, fun e he => by cases he⟩
    injection e with e
    subst e
    exact ⟨i, rfl, hR⟩
  | succ k ih =>
    intro i j hR
    cases hs : m.step j true 0 with
    | error e1 =>
      simp [zerosFed, hs, warmUp, h.err i j 0 e1 hR hs]
    | ok q =>
      obtain ⟨o, j1⟩ := q
      obtain ⟨i1, s1, s2⟩ := h.ok i j 0 o j1 hR hs
      simp only [zerosFed, hs, warmUp, s1]
      exact ih i1 j1 s2

theorem Tracks.run [Zero X] {p : Place} {M : TMod X Y} {m : CoMod (.stream X) (.stream Y)} {R : M.Inst → m.Inst → Prop}
    (h : Tracks p M m R) (ops : List (TypedOp X)) (hw : p = .default ∨ NoWarm ops) : ∀ i j, R i j →
    typedRun M p i ops = untyped m p j ops := by
  induction ops with
  | nil => intros; rfl
  | cons a ops ih =>
    intro i j hR
    have ih := ih (hw.imp id fun hn k hk => hn k (.tail _ hk))
    cases a with
    | feed x =>
      cases hs : m.step j true x with
      | error e => simp only [typedRun, untyped, hs, h.err i j x e hR hs]
      | ok q =>
        obtain ⟨o, j'⟩ := q
        obtain ⟨i', h1, h2⟩ := h.ok i j x o j' hR hs
        simp only [typedRun, untyped, hs, h1, ih i' j' h2]
    | clean => exact ih _ _ (h.clean i j hR)
    | warm k =>
      rcases hw with rfl | hn
      · obtain ⟨w1, w2⟩ := h.warm k i j hR
        cases hz : zerosFed m k j with
        | error e => simp only [typedRun, untyped, hz, w2 e hz]
        | ok j' =>
          obtain ⟨i', h1, h2⟩ := w1 j' hz
          simp only [typedRun, untyped, hz, h1, ih i' j' h2]
      · exact absurd (.head _) (hn k)

end Typed

open Spec
variable {X Y V : Type}

/-- C107: a network all parameters of which have one type and lie on one device, fed with frames of that type on that device, gives results
of that type on that device, with the values of the models without types; also with `clean_state` in between; and with `warm_up` in
between, if that type is single precision and the device is the CPU. -/
theorem C107_stream_partial [Zero X] {p : Place} {M : TMod X Y} {m : CoMod (.stream X) (.stream Y)} (h : LiesAt p M m)
    (ops : List (TypedOp X)) (hw : p = .default ∨ NoWarm ops) : typedRun M p M.init ops = untyped m p m.init ops := by
  obtain ⟨R, hR⟩ := lies_tracks h
  exact hR.run ops hw _ _ hR.init

/-- C107: a network that begins with a convolution takes frames from every device: the results are the same. -/
theorem C107_front {Z : Type} [Zero X] [Zero Y] [Add Y] (w : Place) (c : Conv.Cfg X Y) (N : TMod Y Z) (xs : List (T X))
    (h : ∀ x ∈ xs, x.place.dtype = w.dtype) (i : (Typed.seq (Typed.conv w c) N).Inst) :
    fedFrames (Typed.seq (Typed.conv w c) N) i xs = fedFrames (Typed.seq (Typed.conv w c) N) i (xs.map fun x => ⟨w, x.val⟩) := by
  induction xs generalizing i with
  | nil => rfl
  | cons x xs ih =>
    simp only [List.map_cons, fedFrames, h x (.head _), if_true, ih fun x hx => h x (.tail _ hx)]

theorem Typed.buffered_fed [Casts V] (m : CoMod (.stream V) (.stream V)) (p : Place) (xs : List (T V)) : ∀ j,
    fedFrames (Typed.buffered m) (j, some p) xs = allAt p (fedValues m j (xs.map fun x => x.as p.dtype)) := by
  induction xs with
  | nil => intros; rfl
  | cons x xs ih =>
    intro j
    simp only [List.map_cons, fedFrames, fedValues, Option.getD_some]
    rcases m.step j true (x.as p.dtype) with e | ⟨o, j'⟩
    · rfl
    · simp only [ih]
      cases fedValues m j' (xs.map fun x => x.as p.dtype) <;> rfl

/-- C107: the first frame decides: a delay or a pooling converts all later frames to its type and device, and so are the results. -/
theorem C107_first_exact [Casts V] (m : CoMod (.stream V) (.stream V)) (x : T V) (xs : List (T V)) :
    fedFrames (Typed.buffered m) (Typed.buffered m).init (x :: xs) =
      allAt x.place (fedValues m m.init (x.val :: xs.map fun y => y.as x.place.dtype)) := by
  have h := Typed.buffered_fed m x.place (x :: xs) m.init
  simp only [List.map_cons] at h
  have hx : x.as x.place.dtype = x.val := by simp [T.as]
  rw [hx] at h
  rw [← h]
  simp only [fedFrames, Option.getD_some, Option.getD_none]

theorem Typed.buffered_warm [Zero V] [Casts V] (m : CoMod (.stream V) (.stream V)) (k : Nat) : ∀ j o, o = none ∨ o = some Place.default →
    warmUp (Typed.buffered m) k (j, o) = (zerosFed m k j).map fun j' => (j', if k = 0 then o else some Place.default) := by
  induction k with
  | zero => intros; rfl
  | succ k ih =>
    intro j o ho
    have h1 : o.getD Place.default = Place.default := by rcases ho with rfl | rfl <;> rfl
    have h2 : (T.mk Place.default (0 : V)).as Place.default.dtype = 0 := by simp [T.as]
    simp only [warmUp, zerosFed, h1, h2]
    rcases m.step j true 0 with e | ⟨o', j'⟩
    · rfl
    · simp only [ih j' _ (.inr rfl)]
      cases zerosFed m k j' <;> simp [Except.map]

/-- C107: after `warm_up` a delay or a pooling converts all frames to single precision on the CPU, whatever they are. -/
theorem C107_warmed_exact [Zero V] [Casts V] (m : CoMod (.stream V) (.stream V)) (k : Nat) (hk : 0 < k) (i : (Typed.buffered m).Inst)
    (h : warmUp (Typed.buffered m) k (Typed.buffered m).init = .ok i) (xs : List (T V)) :
    ∃ j, zerosFed m k m.init = .ok j ∧ fedFrames (Typed.buffered m) i xs =
      allAt ⟨.float, .cpu⟩ (fedValues m j (xs.map fun x => x.as .float)) := by
  rw [Typed.buffered_warm m k m.init none (.inl rfl)] at h
  cases hz : zerosFed m k m.init with
  | error e => rw [hz] at h; cases h
  | ok j =>
    rw [hz] at h
    injection h with h
    rw [if_neg (by omega)] at h
    subst h
    exact ⟨j, rfl, Typed.buffered_fed m Place.default xs j⟩

/-- C107: a convolution with weights of another type than single precision raises in `warm_up`. -/
theorem C107_warm_raises [Zero X] [Zero Y] [Add Y] (w : Place) (hw : w.dtype ≠ .float) (c : Conv.Cfg X Y) (k : Nat) (hk : 0 < k)
    (i : (Typed.conv w c).Inst) : warmUp (Typed.conv w c) k i = .error .runtime := by
  cases k with
  | zero => omega
  | succ k => simp [warmUp, Place.default, hw.symm]

/-- C107: attention raises in `warm_up` unless its weights are single precision on the CPU. -/
theorem C107_warm_attention_raises {O : Type} [Zero X] (w : Place) (hw : w ≠ ⟨.float, .cpu⟩) (b : Attn.Base X O) (k : Nat) (hk : 0 < k)
    (i : b.mod.Inst) : warmUp (Typed.strict w b.mod) k i = .error .runtime := by
  cases k with
  | zero => omega
  | succ k =>
    have h : ¬ Place.default = w := fun e => hw e.symm
    simp only [warmUp, if_neg h]

/-- C107: recurrent modules and attention take no frame that is not like their weights; in contrast to convolutions, no frame is brought
to their device, and in contrast to delays and poolings none is converted. -/
theorem C107_strict_exact (w : Place) (m : CoMod (.stream X) (.stream Y)) (xs : List (T X)) : ∀ i : m.Inst,
    fedFrames (Typed.strict w m) i xs =
      match fedValues m i ((xs.takeWhile fun x => decide (x.place = w)).map T.val) with
      | .error e => .error e
      | .ok os => if ∀ x ∈ xs, x.place = w then .ok (os.map fun o => o.map (T.mk w)) else .error .runtime := by
  induction xs with
  | nil => intro i; simp [fedFrames, fedValues]
  | cons x xs ih =>
    intro i
    by_cases hx : x.place = w
    · simp only [List.takeWhile_cons, hx, decide_true, if_true, List.map_cons, fedFrames, fedValues, List.mem_cons, forall_eq_or_imp,
        true_and]
      rcases m.step i true x.val with e | ⟨o, j⟩
      · rfl
      · simp only [ih j]
        cases fedValues m j ((xs.takeWhile fun x => decide (x.place = w)).map T.val) with
        | error e => rfl
        | ok os =>
          simp only
          by_cases h : ∀ x ∈ xs, x.place = w
          · simp only [if_pos h, List.map_cons]
          · simp only [if_neg h]
    · have : ¬ ∀ y ∈ x :: xs, y.place = w := fun h => hx (h x (.head _))
      simp [fedFrames, hx, fedValues]

theorem Typed.conv_emits [Zero V] [AddCommMonoid Y] (c : Conv.Cfg V Y) (hK : 1 < c.K) (hS : c.S = 1) (hP : c.P = 0) (h : List V) :
    (Conv.phi c h).length = h.length + 1 - c.K := by
  have : padStart 0 (c.fill.make 0) h = h := by cases h <;> rfl
  simp only [Conv.phi, streamOut, hS, hP, slide_length, this, windowCount]
  split <;> first | omega | (simp; omega)

theorem Typed.buffered_ok [Casts V] (m : CoMod (.stream V) (.stream V)) {j j' : m.Inst} {o : Option Place} {x : T V} {p : Place}
    {y : Option V} (hp : o.getD x.place = p) (h : m.step j true (x.as p.dtype) = .ok (y, j')) :
    (Typed.buffered m).step (j, o) x = .ok (y.map (T.mk p), (j', some p)) := by
  subst hp
  simp only [h]

theorem Typed.conv_ok [Zero X] [Zero Y] [Add Y] {w : Place} {c : Conv.Cfg X Y} {j j' : (Conv.mod c).Inst} {x : T X} {y : Option Y}
    (hp : x.place.dtype = w.dtype) (h : (Conv.mod c).step j true x.val = .ok (y, j')) :
    (Typed.conv w c).step j x = .ok (y.map (T.mk w), j') := by
  have h : (Conv.leaf c).forwardStep j true x.val = .ok (y, j') := h
  simp only [hp, if_true, h]

theorem Typed.both_none [Add V] [Casts V] (M N : TMod X V) {i1 i1' : M.Inst} {i2 i2' : N.Inst} {x : T X} {b : Option (T V)}
    (h1 : M.step i1 x = .ok (none, i1')) (h2 : N.step i2 x = .ok (b, i2')) : (Typed.both M N).step (i1, i2) x = .ok (none, (i1', i2')) := by
  simp only [h1, h2]

theorem Typed.both_apart [Add V] [Casts V] (M N : TMod X V) {i1 i1' : M.Inst} {i2 i2' : N.Inst} {x : T X} {a b : T V}
    (h1 : M.step i1 x = .ok (some a, i1')) (h2 : N.step i2 x = .ok (some b, i2')) (h : a.place.dev ≠ b.place.dev) :
    (Typed.both M N).step (i1, i2) x = .error .runtime := by
  simp only [h1, h2, add, if_neg h]

theorem Typed.warm_succ [Zero X] (M : TMod X Y) {i i' : M.Inst} {o : Option (T Y)} (h : M.step i ⟨.default, 0⟩ = .ok (o, i')) (k : Nat) :
    warmUp M (k + 1) i = warmUp M k i' := by
  simp only [warmUp, h]

theorem Typed.run_warm [Zero X] (M : TMod X Y) {p : Place} {i i' : M.Inst} {k : Nat} {ops : List (TypedOp X)} (h : warmUp M k i = .ok i') :
    typedRun M p i (.warm k :: ops) = typedRun M p i' ops := by
  simp only [typedRun, h]

/-- The residual connection while it is warmed up. -/
theorem Typed.residual_warm [AddCommMonoid V] [Casts V] (w : Place) (hw : w.dtype = .float) (c : Conv.Cfg V V) (hc : Conv.Good c)
    (hK : 1 < c.K) (hS : c.S = 1) (hP : c.P = 0) (d : Delay.Cfg V) (hd : d.d = c.K - 1) (hs : d.shrink = .off) (k : Nat) :
    ∀ (h : List V) j1 j2 o, h.length + k = c.K - 1 → o = none ∨ o = some Place.default → Delay.Inv d h ((Delay.leaf d).get j1) →
      Conv.Rel c h ((Conv.leaf c).get j2) →
    ∃ (h' : List V) (j1' : (Delay.mod d).Inst) (j2' : (Conv.mod c).Inst), h'.length = c.K - 1 ∧ Delay.Inv d h' ((Delay.leaf d).get j1') ∧
      Conv.Rel c h' ((Conv.leaf c).get j2') ∧
      warmUp (Typed.both (Typed.buffered (Delay.mod d)) (Typed.conv w c)) k ((j1, o), j2) =
        .ok ((j1', if k = 0 then o else some Place.default), j2') := by
  induction k with
  | zero =>
    intro h j1 j2 o hl ho r1 r2
    exact ⟨h, j1, j2, by omega, r1, r2, rfl⟩
  | succ k ih =>
    intro h j1 j2 o hl ho r1 r2
    obtain ⟨o1, j1', s1, s2, s3⟩ := (Delay.simRel d (by omega)).step (h := h) (i := j1) true 0 r1
    obtain ⟨o2, j2', t1, t2, t3⟩ := (Conv.simRel c hc).step (h := h) (i := j2) true 0 r2
    have h1 : o.getD Place.default = Place.default := by rcases ho with rfl | rfl <;> rfl
    have h2 : (T.mk Place.default (0 : V)).as Place.default.dtype = 0 := by simp [T.as]
    have n1 : o1 = none := by
      have := congrArg List.length s2
      have e : Delay.lead d = 0 := by simp [Delay.lead, hs]
      rw [e] at this
      simp only [List.length_append, Residual.delayed_length, List.length_singleton] at this
      cases o1 with
      | none => rfl
      | some a => simp at this; omega
    subst n1
    obtain ⟨h', j1'', j2'', q1, q2, q3, q4⟩ := ih (h ++ [0]) j1' j2' (some Place.default) (by simp; omega) (.inr rfl) s3 t3
    refine ⟨h', j1'', j2'', q1, q2, q3, ?_⟩
    have a1 := Typed.buffered_ok (Delay.mod d) (x := ⟨Place.default, 0⟩) h1 (by rw [h2]; exact s1)
    have a2 := Typed.conv_ok (w := w) (x := ⟨Place.default, 0⟩) hw.symm t1
    rw [Typed.warm_succ _ (Typed.both_none _ _ a1 a2), q4]
    rw [if_neg (Nat.succ_ne_zero k)]
    split <;> rfl

/-- C107: a residual connection around a convolution on a GPU, warmed up: the first result that is due raises. -/
theorem C107_warm_residual_raises [AddCommMonoid V] [Casts V] (w : Place) (hw : w.dtype = .float) (hd : w.dev ≠ .cpu)
    (c : Conv.Cfg V V) (hc : Conv.Good c) (hK : 1 < c.K) (hS : c.S = 1) (hP : c.P = 0) (fill : V → V) (x : V) (ops : List (TypedOp V)) :
    typedRun (Typed.both (Typed.buffered (Delay.mod { d := c.K - 1, fill := fill })) (Typed.conv w c)) w
      (Typed.both (Typed.buffered (Delay.mod { d := c.K - 1, fill := fill })) (Typed.conv w c)).init
      (.warm (c.K - 1) :: .feed x :: ops) = .error .runtime := by
  generalize hD : ({ d := c.K - 1, fill := fill } : Delay.Cfg V) = d
  have hdd : d.d = c.K - 1 := by rw [← hD]
  have hsh : d.shrink = .off := by rw [← hD]
  obtain ⟨h, j1, j2, q1, q2, q3, q4⟩ := Typed.residual_warm w hw c hc hK hS hP d hdd hsh (c.K - 1) [] (Delay.mod d).init (Conv.mod c).init none
    (by simp) (.inl rfl) (Delay.simRel d (by omega)).init (Conv.simRel c hc).init
  have q4' : warmUp (Typed.both (Typed.buffered (Delay.mod d)) (Typed.conv w c)) (c.K - 1)
      (Typed.both (Typed.buffered (Delay.mod d)) (Typed.conv w c)).init = _ := q4
  have hv : (T.mk w x).as Place.default.dtype = x := by simp [T.as, hw, Place.default]
  obtain ⟨o1, j1', s1, s2, _⟩ := (Delay.simRel d (by omega)).step (h := h) (i := j1) true x q2
  obtain ⟨o2, j2', t1, t2, _⟩ := (Conv.simRel c hc).step (h := h) (i := j2) true x q3
  have n1 : ∃ y, o1 = some y := by
    have := congrArg List.length s2
    have e : Delay.lead d = 0 := by simp [Delay.lead, hsh]
    rw [e] at this
    simp only [List.length_append, Residual.delayed_length, List.length_singleton] at this
    cases o1 with
    | none => simp at this; omega
    | some a => exact ⟨a, rfl⟩
  have n2 : ∃ y, o2 = some y := by
    have := congrArg List.length t2
    simp only [List.length_append, Typed.conv_emits c hK hS hP, List.length_singleton] at this
    cases o2 with
    | none => simp at this; omega
    | some a => exact ⟨a, rfl⟩
  obtain ⟨y, rfl⟩ := n1
  obtain ⟨z, rfl⟩ := n2
  have a1 := Typed.buffered_ok (Delay.mod d) (o := some Place.default) (x := ⟨w, x⟩) (p := .default) rfl (by rw [hv]; exact s1)
  have a2 := Typed.conv_ok (w := w) (x := ⟨w, x⟩) rfl t1
  have := Typed.both_apart _ _ a1 a2 (fun e => hd e.symm)
  rw [if_neg (by omega)] at q4'
  have e2 : typedRun (Typed.both (Typed.buffered (Delay.mod d)) (Typed.conv w c)) w ((j1, some Place.default), j2) (.feed x :: ops) =
      .error .runtime := by
    unfold typedRun
    rw [this]
  rw [Typed.run_warm _ q4', e2]

/-- C107, the full claim fails: results of a delay after `warm_up` lie on the CPU, those expected on the device of the network. -/
theorem C107_warm_refuted : ¬ ∀ (p : Place) (M : TMod Int Int) (m : CoMod (.stream Int) (.stream Int)), LiesAt p M m →
    ∀ ops, typedRun M p M.init ops = untyped m p m.init ops := by
  intro h
  letI : Casts Int := ⟨fun _ x => x⟩
  have := h ⟨.float, .gpu 0⟩ _ _ (LiesAt.delay { d := 1, fill := fun _ => (0 : Int) } (by decide)) [.warm 1, .feed 5]
  have e : some (T.mk ⟨.float, .cpu⟩ (0 : Int)) = some (T.mk ⟨.float, .gpu 0⟩ (0 : Int)) :=
    List.head_eq_of_cons_eq (Except.ok.inj this)
  injection e with e
  injection e with e
  injection e with _ e
  cases e

/-- An example: a residual network in double precision on a GPU, a pooling behind it, cleaned in between. -/
example : ∃ (M : TMod Int Int) (m : CoMod (.stream Int) (.stream Int)) (h : LiesAt ⟨.double, .gpu 1⟩ M m),
    typedRun M ⟨.double, .gpu 1⟩ M.init [.feed 1, .feed 2, .feed 3, .clean, .feed 4, .feed 5, .feed 6] =
      .ok [none, none, some ⟨⟨.double, .gpu 1⟩, 16⟩, none, none, some ⟨⟨.double, .gpu 1⟩, 40⟩] := by
  letI : Casts Int := ⟨fun _ x => x⟩
  let d : Delay.Cfg Int := { d := 1, fill := fun _ => 0 }
  let c : Conv.Cfg Int Int := { K := 2, S := 1, P := 0, fill := .zeros, padMode := .zeros, w := fun k x => (k + 1) * x, bias := none }
  let q : Pool.Cfg Int Int :=
    { K := 2, S := 1, P := 0, dil := 1, spatial := id, pool := List.sum, fillIn := fun _ => 0, fillOut := fun _ => 0, refPad := 0 }
  exact ⟨_, _, LiesAt.seq (.sum (.delay d (by decide)) (.conv c)) (.single (.pool q rfl)), by with_unfolding_all rfl⟩

/-- An example: a recurrent module in double precision; the second frame of the first stream is on another device. -/
example : ∃ c : Rnn.Cfg Int Int,
    typedRun (Typed.strict ⟨.double, .gpu 1⟩ (Rnn.mod c)) ⟨.double, .gpu 1⟩ none [.feed 1, .feed 2, .clean, .feed 4] =
      .ok [some ⟨⟨.double, .gpu 1⟩, 1⟩, some ⟨⟨.double, .gpu 1⟩, 3⟩, some ⟨⟨.double, .gpu 1⟩, 4⟩] ∧
    fedFrames (Typed.strict ⟨.double, .gpu 1⟩ (Rnn.mod c)) none [⟨⟨.double, .gpu 1⟩, 1⟩, ⟨⟨.double, .cpu⟩, 2⟩] = .error .runtime :=
  ⟨{ zero := 0, layers := [fun x s => (x + s, x + s)] }, by with_unfolding_all rfl, by with_unfolding_all rfl⟩

/-- An example: even numbers stand for single precision.  The second frame is rounded as the first one was single. -/
example : ∃ _ : Casts Int, fedFrames (Typed.buffered (Delay.mod { d := 1, fill := fun _ => (0 : Int) }))
    (Typed.buffered (Delay.mod { d := 1, fill := fun _ => (0 : Int) })).init
      [⟨⟨.float, .cpu⟩, 4⟩, ⟨⟨.double, .gpu 0⟩, 5⟩, ⟨⟨.double, .gpu 0⟩, 3⟩] =
    .ok [none, some ⟨⟨.float, .cpu⟩, 4⟩, some ⟨⟨.float, .cpu⟩, 4⟩] :=
  ⟨⟨fun d x => if d = .float then x / 2 * 2 else x⟩, rfl⟩

/-- An example for `C107_warm_residual_raises`: its hypotheses about the convolution. -/
example : Conv.Good ({ K := 3, S := 1, P := 0, fill := .zeros, padMode := .zeros, w := fun k x => (k + 1) * x, bias := none } : Conv.Cfg Int Int) :=
  { hK := by decide, hS := by decide, hP := by decide, lin := fun k => by simp, hKS := .inl (by decide) }

end CoInf
