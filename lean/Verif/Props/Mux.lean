/-
Property C68: one module object serves many streams.
-/
import Verif.Lemmas.Mux
import Verif.Props.Heap

set_option autoImplicit false

namespace CoInf
open Spec Heap
variable {X Y : Type}

/-- **C68**, Delay: any number of streams, in any interleaving, with any public calls, share one object, by `set_state`
before and `get_state` after each call and without copying any tensor.  Every stream gets what an object of its own would
have returned, also when it looks at its results after all the others have been served.  (No stream may raise: an
exception ends the program.) -/
theorem C68_delay (c : Delay.Cfg X) (hd : c.d ≠ 0) (es : List (Nat × Call (.stream X)))
    (calm : ∀ k, Calm (calls (Delay.mod c) (Delay.mod c).init (mine k es)).1) (k : Nat) :
    served (Heap.delay c) es k = (calls (Delay.mod c) (Delay.mod c).init (mine k es)).1 := by
  have e : ∀ cs : List (Call (.stream X)), (vcalls (Delay.leaf c) (fun xs => .ok (Delay.forward c xs)) ⟨(Delay.leaf c).init, []⟩
      (cs.map ofCall)).1 = (calls (Delay.mod c) (Delay.mod c).init cs).1 := by
    intro cs
    refine vcalls_eq (L := Delay.leaf c) (fwd := fun xs => .ok (Delay.forward c xs)) (M := Delay.mod c) id ?_ ?_ (fun _ => rfl) (fun _ _ => rfl) cs _ []
    · intro i u x
      show (if c.d = 0 then _ else (Delay.leaf c).forwardStep i u x) = _
      rw [if_neg hd]
      cases (Delay.leaf c).forwardStep i u x <;> rfl
    · intro i p u xs
      show (if c.d = 0 then _ else (Delay.leaf c).forwardSteps i p u xs) = _
      rw [if_neg hd]
      cases (Delay.leaf c).forwardSteps i p u xs <;> rfl
  rw [served_spec (delay_models c) (fun _ _ _ => rfl) es (fun j => by rw [e]; exact calm j), e]

/-- **C68**, pooling. -/
theorem C68_pool (c : Pool.Cfg X Y) (es : List (Nat × Call (.stream X)))
    (calm : ∀ k, Calm (calls (Pool.mod c) (Pool.mod c).init (mine k es)).1) (k : Nat) :
    served (Heap.pool c) es k = (calls (Pool.mod c) (Pool.mod c).init (mine k es)).1 := by
  have e : ∀ cs : List (Call (.stream X)), (vcalls (Pool.leaf c) (Pool.forward c) ⟨(Pool.leaf c).init, []⟩
      (cs.map ofCall)).1 = (calls (Pool.mod c) (Pool.mod c).init cs).1 := by
    intro cs
    refine vcalls_eq (L := Pool.leaf c) (fwd := Pool.forward c) (M := Pool.mod c) id ?_ ?_ (fun _ => rfl) (fun _ _ => rfl) cs _ []
    · intro i u x
      show (Pool.leaf c).forwardStep i u x = _
      cases (Pool.leaf c).forwardStep i u x <;> rfl
    · intro i p u xs
      show (Pool.leaf c).forwardSteps i p u xs = _
      cases (Pool.leaf c).forwardSteps i p u xs <;> rfl
  rw [served_spec (pool_models c) (fun _ _ _ => rfl) es (fun j => by rw [e]; exact calm j), e]

/-- **C68**, convolution, in training and in evaluation mode. -/
theorem C68_conv [Zero X] [AddCommMonoid Y] (c : Conv.Cfg X Y) (training : Bool) (es : List (Nat × Call (.stream X)))
    (calm : ∀ k, Calm (calls (Conv.mod c) (Conv.mod c).init (mine k es)).1) (k : Nat) :
    served (Heap.conv c training) es k = (calls (Conv.mod c) (Conv.mod c).init (mine k es)).1 := by
  have e : ∀ cs : List (Call (.stream X)), (vcalls (Conv.leaf c) (Conv.forward c) ⟨(Conv.leaf c).init, []⟩
      (cs.map ofCall)).1 = (calls (Conv.mod c) (Conv.mod c).init cs).1 := by
    intro cs
    refine vcalls_eq (L := Conv.leaf c) (fwd := Conv.forward c) (M := Conv.mod c) id ?_ ?_ (fun _ => rfl) (fun _ _ => rfl) cs _ []
    · intro i u x
      show (Conv.leaf c).forwardStep i u x = _
      cases (Conv.leaf c).forwardStep i u x <;> rfl
    · intro i p u xs
      show (Conv.leaf c).forwardSteps i p u xs = _
      cases (Conv.leaf c).forwardSteps i p u xs <;> rfl
  rw [served_spec (conv_models c training) (fun _ _ _ => rfl) es (fun j => by rw [e]; exact calm j), e]

/-- Functional stepping of a leaf. -/
theorem vthread_eq {L : Leaf X Y} {M : CoMod (.stream X) (.stream Y)} (toS : Option L.St → Option M.St)
    (h : ∀ x s, M.pstep x (toS s) = (L.pstep x s).map fun p => (p.1, toS p.2)) :
    ∀ (xs : List X) (s : Option L.St), (threadSteps M (toS s) xs).map Prod.fst = vthread L s xs := by
  intro xs
  induction xs with
  | nil => intro s; rfl
  | cons x xs ih =>
    intro s
    simp only [threadSteps, vthread, h, bind, Except.bind]
    cases L.pstep x s with
    | error e => rfl
    | ok p =>
      simp only [Except.map]
      rw [← ih p.2]
      cases threadSteps M (toS p.2) xs <;> rfl

/-- What a user sees of the outputs of `threads` for stream `k` afterwards. -/
def threaded {V : Type} (L : HLeaf X Y V) (es : List (Nat × X)) (k : Nat) : Except Err (List (Option Y)) :=
  (threads L (fun _ => none) [] es).map fun p => (mine k p.1).map fun o => (o.bind (View.read p.2)).bind L.frame

theorem threaded_spec {V : Type} {ip : Bool} {H : HLeaf X Y V} {L : Leaf X Y} {fwd : List X → Except Err (List Y)}
    {eI : List V × H.A → L.Inst} {eS : List V × H.A → L.St} (M : Models ip H L fwd eI eS) {N : CoMod (.stream X) (.stream Y)}
    (toS : Option L.St → Option N.St) (h : ∀ x s, N.pstep x (toS s) = (L.pstep x s).map fun p => (p.1, toS p.2))
    (h0 : toS none = none) (es : List (Nat × X)) (calm : ∀ k, ∃ r, threadSteps N none (mine k es) = .ok r) (k : Nat) :
    threaded H es k = (threadSteps N none (mine k es)).map Prod.fst := by
  have e : ∀ xs, vthread L none xs = (threadSteps N none xs).map Prod.fst := by
    intro xs
    rw [← h0]
    exact (vthread_eq toS h xs none).symm
  obtain ⟨os, h', t1, _, t3⟩ := threads_spec M es (st := fun _ => none) (h := []) (v := fun _ => none)
    ⟨fun _ => rfl, (fun _ _ ha => by cases ha), (fun _ _ _ ha => by cases ha)⟩ (fun j => by
      obtain ⟨r, hr⟩ := calm j
      exact ⟨r.1, by rw [e, hr]; rfl⟩)
  rw [← e, t3 k]
  unfold threaded
  rw [t1]
  rfl

/-- **C68** with the functional step, `out, state[k] = m._forward_step(x, state[k])`: although Delay, pooling and
convolution in evaluation mode write into the state they are given, streams do not disturb each other. -/
theorem C68_functional [Zero X] [AddCommMonoid Y] (es : List (Nat × X)) (k : Nat) :
    (∀ c : Delay.Cfg X, (∀ k, ∃ r, threadSteps (Delay.mod c) none (mine k es) = .ok r) →
      threaded (Heap.delay c) es k = (threadSteps (Delay.mod c) none (mine k es)).map Prod.fst) ∧
    (∀ c : Pool.Cfg X Y, (∀ k, ∃ r, threadSteps (Pool.mod c) none (mine k es) = .ok r) →
      threaded (Heap.pool c) es k = (threadSteps (Pool.mod c) none (mine k es)).map Prod.fst) ∧
    (∀ (c : Conv.Cfg X Y) (training : Bool), (∀ k, ∃ r, threadSteps (Conv.mod c) none (mine k es) = .ok r) →
      threaded (Heap.conv c training) es k = (threadSteps (Conv.mod c) none (mine k es)).map Prod.fst) := by
  refine ⟨fun c calm => ?_, fun c calm => ?_, fun c t calm => ?_⟩
  · exact threaded_spec (delay_models c) (N := Delay.mod c) id (fun x s => by
      show Delay.pstep c x s = (Delay.pstep c x s).map _; cases Delay.pstep c x s <;> rfl) rfl es calm k
  · exact threaded_spec (pool_models c) (N := Pool.mod c) id (fun x s => by
      show Pool.pstep c x s = (Pool.pstep c x s).map _; cases Pool.pstep c x s <;> rfl) rfl es calm k
  · exact threaded_spec (conv_models c t) (N := Conv.mod c) id (fun x s => by
      show Conv.pstep c x s = (Conv.pstep c x s).map _; cases Conv.pstep c x s <;> rfl) rfl es calm k

/-! ### Examples -/

/-- Three streams through one delay of two frames. -/
def exMux : List (Nat × Call (.stream Int)) :=
  [(0, .step true 1), (1, .steps false true [10, 20, 30]), (0, .step true 2), (2, .fwd [7]), (1, .step false 40), (0, .step true 3),
    (1, .steps true true [50]), (0, .clean), (1, .step true 60), (0, .steps false true [4, 5, 6])]

example : served (Heap.delay exDelay2) exMux 0 =
    [.frame none, .frame none, .frame (some 1), .done, .clip (some [4])] := rfl

example : served (Heap.delay exDelay2) exMux 1 =
    [.clip (some [10]), .frame (some 20), .clip (some [20, 30, 50]), .frame (some 30)] := rfl

example : (calls (Delay.mod exDelay2) (Delay.mod exDelay2).init (mine 1 exMux)).1 =
    [.clip (some [10]), .frame (some 20), .clip (some [20, 30, 50]), .frame (some 30)] := rfl

example : threaded (Heap.conv (exSum 3 1 0) false) [(0, 1), (1, 10), (0, 2), (0, 3), (1, 20), (1, 30), (0, 4)] 0 =
    .ok [none, none, some 6, some 9] := rfl

end CoInf
