/-
C26 for arbitrary nestings, attention and parallel streams included: threading the state of `_forward_step` from `None`
gives the outputs and the exceptions of `forward_step` on the freshly constructed object.
-/
import Verif.Model.Parallel
import Verif.Props.Pad
import Verif.Props.Attention

set_option autoImplicit false

namespace CoInf
open CoInf.Spec

variable {I J O : Sig}

namespace Spec

/-- Outputs of `_forward_step`, the state being threaded from call to call. -/
def threaded (M : CoMod I O) (s : Option M.St) : List I.Step → Except Err (List (Option O.Step))
  | [] => .ok []
  | x :: xs =>
    match M.pstep x s with
    | .error e => .error e
    | .ok (o, s') =>
      match threaded M s' xs with
      | .error e => .error e
      | .ok os => .ok (o :: os)

/-- Outputs of `forward_step` on one object. -/
def stepped (M : CoMod I O) (i : M.Inst) : List I.Step → Except Err (List (Option O.Step))
  | [] => .ok []
  | x :: xs =>
    match M.step i true x with
    | .error e => .error e
    | .ok (o, i') =>
      match stepped M i' xs with
      | .error e => .error e
      | .ok os => .ok (o :: os)

/-- Nestings of the containers, over the networks of `Net`, attention modules, and any other member whose two ways of
stepping agree. -/
inductive Nested : {I O : Sig} → CoMod I O → Prop where
  | net {k : Cls} {X Y : Type} {m : CoMod (.stream X) (.stream Y)} {φ : List X → List Y} (h : Net k m φ) : Nested m
  | attention {X O : Type} (b : Attn.Base X O) : Nested b.mod
  | other {I O : Sig} (m : CoMod I O) (h : ∀ xs, threaded m none xs = stepped m m.init xs) : Nested m
  | broadcast (X : Type) (n : Option Nat) : Nested (Broadcast.mod X n)
  | parallel {X Y : Type} (ms : List (CoMod (.stream X) (.stream Y))) (h : ∀ m ∈ ms, Nested m) : Nested (Parallel.mod ms)
  | join {Y Z : Type} (r : Reducer Y Z) : Nested (Reduce.mod r)
  | reduce {X Y Z : Type} (r : Reducer Y Z) (ms : List (CoMod (.stream X) (.stream Y))) (h : ∀ m ∈ ms, Nested m) :
      Nested (BroadcastReduce.mod r ms)
  | single {I O : Sig} {m : CoMod I O} (h : Nested m) : Nested (Sequential.mod (.single m))
  | cons {I J O : Sig} {m : CoMod I J} {c : Chain J O} (h : Nested m) (hc : Nested (Sequential.mod c)) :
      Nested (Sequential.mod (.cons m c))

end Spec

/-- The two calls end alike, and what they leave is related by `B`. -/
inductive Same {α S T : Type} (B : S → T → Prop) : Except Err (α × S) → Except Err (α × T) → Prop where
  | error (e : Err) : Same B (.error e) (.error e)
  | ok (o : α) {s : S} {t : T} (h : B s t) : Same B (.ok (o, s)) (.ok (o, t))

/-- A relation between threaded states and objects that the two ways of stepping preserve. -/
def Tracks (M : CoMod I O) (B : Option M.St → M.Inst → Prop) : Prop :=
  B none M.init ∧ ∀ s i x, B s i → Same B (M.pstep x s) (M.step i true x)

theorem tracks_eq {M : CoMod I O} {B : Option M.St → M.Inst → Prop} (h : Tracks M B) : ∀ (xs : List I.Step) {s i}, B s i →
    threaded M s xs = stepped M i xs := by
  intro xs
  induction xs with
  | nil => intro s i _; rfl
  | cons x xs ih =>
    intro s i hb
    have hs := h.2 s i x hb
    simp only [threaded, stepped]
    generalize M.pstep x s = a at hs
    generalize M.step i true x = b at hs
    cases hs with
    | error e => rfl
    | ok o hb' => simp only [ih hb']

/-- Reached by the same frames. -/
inductive Met (M : CoMod I O) : Option M.St → M.Inst → Prop where
  | init : Met M none M.init
  | step {s i x o s' i'} (h : Met M s i) (hp : M.pstep x s = .ok (o, s')) (hs : M.step i true x = .ok (o, i')) : Met M s' i'

theorem met_eq {M : CoMod I O} (h : ∀ xs, threaded M none xs = stepped M M.init xs) {s i} (hm : Met M s i) :
    ∀ xs, threaded M s xs = stepped M i xs := by
  induction hm with
  | init => exact h
  | step hm hp hs ih =>
    rename_i x o s' i'
    intro xs
    have := ih (x :: xs)
    simp only [threaded, stepped, hp, hs] at this
    cases ha : threaded M s' xs <;> cases hb : stepped M i' xs <;> simp only [ha, hb] at this <;> cases this <;> rfl

theorem met_tracks {M : CoMod I O} (h : ∀ xs, threaded M none xs = stepped M M.init xs) : Tracks M (Met M) := by
  refine ⟨.init, fun s i x hm => ?_⟩
  have e := met_eq h hm [x]
  simp only [threaded, stepped] at e
  cases hp : M.pstep x s with
  | error a =>
    cases hs : M.step i true x with
    | error b => rw [hp, hs] at e; cases e; exact .error _
    | ok b => rw [hp, hs] at e; cases e
  | ok a =>
    obtain ⟨o, s'⟩ := a
    cases hs : M.step i true x with
    | error b => rw [hp, hs] at e; cases e
    | ok b =>
      obtain ⟨o', i'⟩ := b
      rw [hp, hs] at e
      cases e
      exact .ok _ (hm.step hp hs)

theorem threaded_stream {X Y : Type} (M : CoMod (.stream X) (.stream Y)) : ∀ (xs : List X) (s : Option M.St),
    threaded M s xs = (threadSteps M s xs).map Prod.fst
  | [], s => rfl
  | x :: xs, s => by
    simp only [threaded, threadSteps, bind, Except.bind]
    cases M.pstep x s with
    | error e => rfl
    | ok r =>
      simp only [threaded_stream M xs]
      cases threadSteps M r.2 xs <;> rfl

theorem stepped_stream {X Y : Type} (M : CoMod (.stream X) (.stream Y)) : ∀ (xs : List X) (i : M.Inst),
    stepped M i xs = (callSteps M i xs).map Prod.fst
  | [], s => rfl
  | x :: xs, s => by
    simp only [stepped, callSteps, bind, Except.bind]
    cases M.step s true x with
    | error e => rfl
    | ok r =>
      simp only [stepped_stream M xs]
      cases callSteps M r.2 xs <;> rfl

/-! ### Members of containers -/

variable {X Y : Type}

/-- A list of members, tracked member by member. -/
def AllTrack : (ms : List (CoMod (.stream X) (.stream Y))) → BroadcastReduce.St ms → BroadcastReduce.Inst ms → Prop
  | [], _, _ => True
  | m :: ms, s, i => Met m s.1 i.1 ∧ AllTrack ms s.2 i.2

theorem allTrack_init : ∀ (ms : List (CoMod (.stream X) (.stream Y))), AllTrack ms (BroadcastReduce.noneSt ms) (BroadcastReduce.init ms)
  | [] => trivial
  | _ :: ms => ⟨.init, allTrack_init ms⟩

theorem allTrack_reduce : ∀ (ms : List (CoMod (.stream X) (.stream Y))), (∀ m ∈ ms, Tracks m (Met m)) → ∀ (x : X) s i, AllTrack ms s i →
    Same (AllTrack ms) (BroadcastReduce.pstepAll ms x s) (BroadcastReduce.stepAll ms i true x)
  | [], _, x, s, i, _ => .ok _ trivial
  | m :: ms, h, x, s, i, ht => by
    have h1 := (h m (by simp)).2 s.1 i.1 x ht.1
    have h2 := allTrack_reduce ms (fun m hm => h m (by simp [hm])) x s.2 i.2 ht.2
    simp only [BroadcastReduce.pstepAll, BroadcastReduce.stepAll, bind, Except.bind]
    generalize m.pstep x s.1 = a at h1
    generalize m.step i.1 true x = b at h1
    generalize BroadcastReduce.pstepAll ms x s.2 = a' at h2
    generalize BroadcastReduce.stepAll ms i.2 true x = b' at h2
    cases h1 with
    | error e => exact .error e
    | ok o hb =>
      cases h2 with
      | error e => exact .error e
      | ok os hb' => exact .ok _ ⟨hb, hb'⟩

theorem allTrack_parallel : ∀ (ms : List (CoMod (.stream X) (.stream Y))), (∀ m ∈ ms, Tracks m (Met m)) → ∀ (xs : List (Option X)) s i,
    AllTrack ms s i → Same (AllTrack ms) (Parallel.pstepAll ms xs s) (Parallel.step ms i true xs)
  | [], _, x, s, i, _ => .ok _ trivial
  | m :: ms, h, xs, s, i, ht => by
    simp only [Parallel.pstepAll, Parallel.step, bind, Except.bind]
    cases Parallel.arg xs with
    | error e => exact .error e
    | ok x =>
      have h1 := (h m (by simp)).2 s.1 i.1 x ht.1
      have h2 := allTrack_parallel ms (fun m hm => h m (by simp [hm])) xs.tail s.2 i.2 ht.2
      simp only
      generalize m.pstep x s.1 = a at h1
      generalize m.step i.1 true x = b at h1
      generalize Parallel.pstepAll ms xs.tail s.2 = a' at h2
      generalize Parallel.step ms i.2 true xs.tail = b' at h2
      cases h1 with
      | error e => exact .error e
      | ok o hb =>
        cases h2 with
        | error e => exact .error e
        | ok os hb' => exact .ok _ ⟨hb, hb'⟩

/-- The relation of a `Sequential`. -/
def ChainTrack {I O : Sig} (c : Chain I O) (R : c.St → c.Inst → Prop) : Prop :=
  R c.noneSt c.init ∧ ∀ s i x, R s i → Same R (c.pstepAll x s) (c.step i true x)

theorem chain_tracks {I O : Sig} {c : Chain I O} {R : c.St → c.Inst → Prop} (h : ChainTrack c R) :
    Tracks (Sequential.mod c) fun s i => R (s.getD c.noneSt) i := by
  refine ⟨h.1, fun s i x hs => ?_⟩
  have := h.2 (s.getD c.noneSt) i x hs
  show Same _ (Chain.pstep c x s) (Chain.step c i true x)
  simp only [Chain.pstep, bind, Except.bind]
  generalize Chain.pstepAll c x (s.getD c.noneSt) = a at this
  generalize Chain.step c i true x = b at this
  cases this with
  | error e => exact .error e
  | ok o hb => exact .ok o hb

/-- Whatever tracks a `Sequential` also tracks its list of states. -/
theorem tracks_chain {I O : Sig} {c : Chain I O} (h : ∀ xs, threaded (Sequential.mod c) none xs = stepped (Sequential.mod c) c.init xs) :
    ChainTrack c fun s i => Met (Sequential.mod c) (some s) i ∨ (s = c.noneSt ∧ i = c.init) := by
  have H := met_tracks h
  refine ⟨.inr ⟨rfl, rfl⟩, fun s i x hs => ?_⟩
  have key : ∃ s0 : Option c.St, s0.getD c.noneSt = s ∧ Met (Sequential.mod c) s0 i := by
    rcases hs with hs | ⟨rfl, rfl⟩
    · exact ⟨some s, rfl, hs⟩
    · exact ⟨none, rfl, .init⟩
  obtain ⟨s0, e, hm⟩ := key
  have := H.2 s0 i x hm
  change Same _ (Chain.pstep c x s0) (Chain.step c i true x) at this
  simp only [Chain.pstep, bind, Except.bind, e] at this
  generalize Chain.pstepAll c x s = a at this
  generalize Chain.step c i true x = b at this
  cases a with
  | error e =>
    cases this
    exact .error _
  | ok r =>
    obtain ⟨o, s'⟩ := r
    cases this with
    | ok _ hb => exact .ok _ (.inl hb)

theorem chain_cons {I J O : Sig} {m : CoMod I J} {c : Chain J O} {R : c.St → c.Inst → Prop} (hm : Tracks m (Met m)) (hc : ChainTrack c R) :
    ChainTrack (.cons m c) fun s i => Met m s.1 i.1 ∧ R s.2 i.2 := by
  refine ⟨⟨.init, hc.1⟩, fun s i x hs => ?_⟩
  have h1 := hm.2 s.1 i.1 x hs.1
  simp only [Chain.pstepAll, Chain.step, bind, Except.bind]
  generalize m.pstep x s.1 = a at h1
  generalize m.step i.1 true x = b at h1
  cases h1 with
  | error e => exact .error e
  | ok o hb =>
    cases o with
    | none => exact .ok _ ⟨hb, hs.2⟩
    | some y =>
      have h2 := hc.2 s.2 i.2 y hs.2
      simp only
      generalize Chain.pstepAll c y s.2 = a' at h2
      generalize Chain.step c i.2 true y = b' at h2
      cases h2 with
      | error e => exact .error e
      | ok os hb' => exact .ok _ ⟨hb, hb'⟩

/-- C26: for every nesting of `Sequential`, `BroadcastReduce`, `Broadcast`, `Parallel` and `Reduce` over networks of `Net` and
attention modules, threading the functional step from `None` and stepping the object give the same list of outputs, or the
same exception. -/
theorem C26_nested {I O : Sig} {M : CoMod I O} (h : Nested M) : ∀ xs, threaded M none xs = stepped M M.init xs := by
  induction h with
  | net hn =>
    intro xs
    obtain ⟨os, s', i', h1, h2⟩ := C26_functional_step hn .init xs
    rw [threaded_stream, stepped_stream, h1, h2]
    rfl
  | attention b =>
    intro xs
    rw [threaded_stream, stepped_stream, C26_attention]
  | other m h => exact h
  | broadcast X n =>
    have : Tracks (Broadcast.mod X n) fun _ _ => True := by
      refine ⟨trivial, fun s i x _ => ?_⟩
      show Same _ (Except.map _ (Broadcast.out n x)) (Except.map _ (Broadcast.out n x))
      cases Broadcast.out n x with
      | error e => exact .error e
      | ok o => exact .ok _ trivial
    exact fun xs => tracks_eq this xs trivial
  | parallel ms h ih =>
    have hall := allTrack_parallel ms fun m hm => met_tracks (ih m hm)
    have : Tracks (Parallel.mod ms) fun s i => AllTrack ms (s.getD (BroadcastReduce.noneSt ms)) i := by
      refine ⟨allTrack_init ms, fun s i x hs => ?_⟩
      have := hall x _ i hs
      simp only [bind, Except.bind]
      generalize Parallel.pstepAll ms x (s.getD (BroadcastReduce.noneSt ms)) = a at this
      generalize Parallel.step ms i true x = b at this
      cases this with
      | error e => exact .error e
      | ok o hb => exact .ok _ hb
    exact fun xs => tracks_eq this xs (allTrack_init ms)
  | join r =>
    have : Tracks (Reduce.mod r) fun _ _ => True := by
      refine ⟨trivial, fun s i x _ => ?_⟩
      simp only [bind, Except.bind, Except.map]
      cases nonempty r.frame x with
      | error e => exact .error e
      | ok o => exact .ok _ trivial
    exact fun xs => tracks_eq this xs trivial
  | reduce r ms h ih =>
    have hall := allTrack_reduce ms fun m hm => met_tracks (ih m hm)
    have : Tracks (BroadcastReduce.mod r ms) fun s i => AllTrack ms (s.getD (BroadcastReduce.noneSt ms)) i := by
      refine ⟨allTrack_init ms, fun s i x hs => ?_⟩
      have := hall x _ i hs
      show Same _ (BroadcastReduce.pstep r ms x s) (BroadcastReduce.step r ms i true x)
      simp only [BroadcastReduce.pstep, BroadcastReduce.step, bind, Except.bind]
      generalize BroadcastReduce.pstepAll ms x (s.getD (BroadcastReduce.noneSt ms)) = a at this
      generalize BroadcastReduce.stepAll ms i true x = b at this
      cases this with
      | error e => exact .error e
      | ok o hb =>
        simp only
        cases nonempty r.frame o with
        | error e => exact .error e
        | ok z => exact .ok _ hb
    exact fun xs => tracks_eq this xs (allTrack_init ms)
  | single h ih =>
    rename_i m
    have H := met_tracks ih
    have hc : ChainTrack (.single m) (Met m) := ⟨H.1, H.2⟩
    exact fun xs => tracks_eq (chain_tracks hc) xs hc.1
  | cons h hc ih ihc =>
    have hk := chain_cons (met_tracks ih) (tracks_chain ihc)
    exact fun xs => tracks_eq (chain_tracks hk) xs hk.1

/-- A network of parallel streams with an attention module of any arithmetic in one of the branches. -/
example (b : Attn.Base ℤ ℤ) : Nested (Sequential.mod (.cons (Broadcast.mod ℤ (some 2))
    (.cons (Parallel.mod [Delay.mod { d := 2, fill := fun _ => 0 }, b.mod]) (.single (Reduce.mod (foldReducer (· + ·))))))) :=
  .cons (.broadcast ℤ _) (.cons (.parallel _ (by
    intro m hm
    simp only [List.mem_cons, List.not_mem_nil, or_false] at hm
    rcases hm with rfl | rfl
    · exact .net (k := ⟨false, 0⟩) (.delay _ (by simp))
    · exact .attention b)) (.single (.join _)))

end CoInf
