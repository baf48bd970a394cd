/-
Property C77: threads that use different networks do not disturb each other.
-/
import Verif.Model.Threads
import Verif.Props.CallMode

set_option autoImplicit false

namespace CoInf
open CallMode Threads

variable {ι : Type} [DecidableEq ι]

/-- A schedule in which blocks exclude each other, as with a lock: while thread `i` is inside a block (`o = some i`), only
`i` is scheduled, and it does not nest blocks. -/
def Exclusive {Ts : ι → Thread} : Option ι → World Ts → List ι → Prop
  | _, _, [] => True
  | o, w, i :: is =>
    (o = none ∨ o = some i) ∧
    match (Ts i).next (w.data i) with
    | some (.enter _ _) => o = none ∧ Exclusive (some i) (w.step i) is
    | some (.leave _) => o = some i ∧ Exclusive none (w.step i) is
    | _ => Exclusive o (w.step i) is

namespace Threads

theorem data_same {Ts : ι → Thread} (w : World Ts) (i : ι) : (w.step i).data i = ((Ts i).step w.ctx (w.data i)).2 := by
  simp [World.step]

theorem data_other {Ts : ι → Thread} (w : World Ts) {i j : ι} (h : j ≠ i) : (w.step i).data j = w.data j := by
  simp [World.step, h]

theorem alone_succ (T : Thread) : ∀ (n : Nat) (g : Ctx) (s : T.S),
    T.alone g s (n + 1) = T.step (T.alone g s n).1 (T.alone g s n).2
  | 0, _, _ => rfl
  | n + 1, g, s => by
    rw [Thread.alone, alone_succ T n]
    rfl

/-- The contexts of the threads on their own, given the owner of the block and the context of the process. -/
def ctxOf (o : Option ι) (g rest : Ctx) (i : ι) : Ctx := if o = some i then g else rest

theorem run_exclusive {Ts : ι → Thread} (v : MV) : ∀ (is : List ι) (o : Option ι) (w : World Ts) (n : ι → Nat)
    (g0 : ι → Ctx) (s0 : (i : ι) → (Ts i).S), Exclusive o w is →
    (o = none → w.ctx = ⟨some v, none⟩) → (∀ i, o = some i → w.ctx.prev = some v) →
    (∀ i, (Ts i).alone (g0 i) (s0 i) (n i) = (ctxOf o w.ctx ⟨some v, none⟩ i, w.data i)) →
    ∀ i, ((Ts i).alone (g0 i) (s0 i) (n i + is.count i)).2 = (w.run is).data i
  | [], o, w, n, g0, s0, _, _, _, hA, i => by
    rw [List.count_nil, Nat.add_zero, hA i]
    rfl
  | k :: is, o, w, n, g0, s0, hE, hr, hb, hA, i => by
    obtain ⟨ho, hE⟩ := hE
    have hk : (Ts k).alone (g0 k) (s0 k) (n k + 1) = ((Ts k).step w.ctx (w.data k)) := by
      rw [alone_succ, hA k]
      rcases ho with rfl | rfl
      · simp [ctxOf, hr rfl]
      · simp [ctxOf]
    have key : ∀ o', (∀ j, j ≠ k → ctxOf o' (w.step k).ctx ⟨some v, none⟩ j = ctxOf o w.ctx ⟨some v, none⟩ j) →
        ctxOf o' (w.step k).ctx ⟨some v, none⟩ k = (w.step k).ctx →
        ∀ j, (Ts j).alone (g0 j) (s0 j) ((fun j => if j = k then n j + 1 else n j) j) =
          (ctxOf o' (w.step k).ctx ⟨some v, none⟩ j, (w.step k).data j) := by
      intro o' h1 h2 j
      by_cases hj : j = k
      · subst hj
        simp only [if_pos]
        rw [hk, h2, data_same]
        rfl
      · simp only [if_neg hj]
        rw [hA j, data_other w hj, h1 j hj]
    have fin : ∀ o', Exclusive o' (w.step k) is → (o' = none → (w.step k).ctx = ⟨some v, none⟩) →
        (∀ i, o' = some i → (w.step k).ctx.prev = some v) →
        (∀ j, j ≠ k → ctxOf o' (w.step k).ctx ⟨some v, none⟩ j = ctxOf o w.ctx ⟨some v, none⟩ j) →
        ctxOf o' (w.step k).ctx ⟨some v, none⟩ k = (w.step k).ctx →
        ((Ts i).alone (g0 i) (s0 i) (n i + (k :: is).count i)).2 = (w.run (k :: is)).data i := by
      intro o' hE' hr' hb' h1 h2
      have := run_exclusive v is o' (w.step k) (fun j => if j = k then n j + 1 else n j) g0 s0 hE' hr' hb' (key o' h1 h2) i
      rw [World.run, ← this]
      congr 2
      by_cases hik : i = k
      · subst hik
        simp only [if_pos, List.count_cons_self]
        omega
      · rw [List.count_cons_of_ne (Ne.symm hik)]
        simp [hik]
    have other : ∀ {g : Ctx} {j : ι}, j ≠ k → ctxOf o g ⟨some v, none⟩ j = ⟨some v, none⟩ := by
      intro g j hj
      rcases ho with rfl | rfl
      · simp [ctxOf]
      · simp [ctxOf, Ne.symm hj]
    have hc : (w.step k).ctx = ((Ts k).step w.ctx (w.data k)).1 := rfl
    cases hn : (Ts k).next (w.data k) with
    | none =>
      rw [hn] at hE
      have hs : (w.step k).ctx = w.ctx := by rw [hc, Thread.step, hn]
      refine fin o hE (by rw [hs]; exact hr) (by rw [hs]; exact hb) (fun j hj => by rw [hs]) ?_
      rw [hs]
      rcases ho with rfl | rfl
      · simp [ctxOf, hr rfl]
      · simp [ctxOf]
    | some op =>
      rw [hn] at hE
      cases op with
      | enter m s' =>
        obtain ⟨rfl, hE⟩ := hE
        have hs : (w.step k).ctx = ⟨some (.tok m), some v⟩ := by
          rw [hc, Thread.step, hn, hr rfl]
          rfl
        refine fin (some k) hE (fun h => by cases h) (fun _ _ => by rw [hs]) (fun j hj => ?_) (by simp [ctxOf])
        rw [other hj]
        simp [ctxOf, Ne.symm hj]
      | leave s' =>
        obtain ⟨rfl, hE⟩ := hE
        have hs : (w.step k).ctx = ⟨some v, none⟩ := by
          rw [hc, Thread.step, hn]
          simp [Ctx.exit, hb k rfl]
        refine fin none hE (fun _ => hs) (fun _ h => by cases h) (fun j hj => ?_) (by simp [ctxOf, hs])
        rw [other hj]
        simp [ctxOf]
      | act f =>
        have hs : (w.step k).ctx = w.ctx := by rw [hc, Thread.step, hn]
        refine fin o hE (by rw [hs]; exact hr) (by rw [hs]; exact hb) (fun j hj => by rw [hs]) ?_
        rw [hs]
        rcases ho with rfl | rfl
        · simp [ctxOf, hr rfl]
        · simp [ctxOf]

end Threads

/-- **C77**, threads that take turns: if blocks exclude the other threads, as with a lock, every thread has at every time
the data that it would have if it were alone and had made as many operations. -/
theorem C77_exclusive_partial (Ts : ι → Thread) (is : List ι) (h : Exclusive none (World.init Ts) is) (i : ι) :
    ((World.init Ts).run is).data i = ((Ts i).alone Ctx.init (Ts i).init (is.count i)).2 := by
  have := run_exclusive (.tok .forward) is none (World.init Ts) (fun _ => 0) (fun _ => Ctx.init) (fun i => (Ts i).init) h
    (fun _ => rfl) (fun _ h => by cases h) (fun _ => rfl) i
  rw [Nat.zero_add] at this
  exact this.symm

/-- **C77**, threads that do not use `co.call_mode`, whatever the schedule: methods may be called, and modules with their
`call_mode` attribute set. -/
theorem C77_no_blocks_partial (Ts : ι → Thread) (hT : ∀ i s op, (Ts i).next s = some op → ∃ f, op = .act f) (is : List ι)
    (i : ι) : ((World.init Ts).run is).data i = ((Ts i).alone Ctx.init (Ts i).init (is.count i)).2 := by
  apply C77_exclusive_partial
  have : ∀ (is : List ι) (w : World Ts), Exclusive none w is := by
    intro is
    induction is with
    | nil => intro w; trivial
    | cons k is ih =>
      intro w
      refine ⟨.inl rfl, ?_⟩
      cases hn : (Ts k).next (w.data k) with
      | none => exact ih _
      | some op =>
        obtain ⟨f, rfl⟩ := hT _ _ _ hn
        exact ih _
  exact this is _

/-- **C77 refuted**: while one thread is inside `with co.call_mode(m):`, a call made by any other thread runs the method of
the block, whatever the mode of its module. -/
theorem C77_block_refuted (Ts : ι → Thread) (w : World Ts) (hw : w.ctx.prev = none) (hc : w.ctx.cur ≠ none) (i j : ι)
    (hij : j ≠ i) (m : Mode) (s' : (Ts i).S) (hi : (Ts i).next (w.data i) = some (.enter m s'))
    (f : (MV → Option MV) → (Ts j).S) (hj : (Ts j).next (w.data j) = some (.act f)) :
    (w.run [i, j]).data j = f (fun _ => some (.tok m)) ∧ (w.run [j, i]).data j = f some := by
  constructor
  · simp only [World.run]
    rw [data_same, data_other w hij, Thread.step, hj]
    have : (w.step i).ctx = ⟨some (.tok m), w.ctx.cur⟩ := by
      show ((Ts i).step w.ctx (w.data i)).1 = _
      rw [Thread.step, hi]
      rfl
    rw [this]
    cases hcc : w.ctx.cur with
    | none => exact absurd hcc hc
    | some c => rfl
  · simp only [World.run]
    rw [data_other _ hij, data_same, Thread.step, hj]
    simp only
    congr 1
    funext own
    simp [effective, hw]

/-- **C77 refuted**: blocks that overlap in time break the context for the whole process.  If thread `i` enters a block, then
`j`, then `i` leaves its block and `j` its own, the context is dead: from then on a block has no effect on the calls of
any thread, for any program `p` without nested blocks. -/
theorem C77_overlap_refuted (Ts : ι → Thread) (i j : ι) (hij : j ≠ i) (w : World Ts) (m m' : Mode)
    (a1 a2 : (Ts i).S) (b1 b2 : (Ts j).S)
    (hi1 : (Ts i).next (w.data i) = some (.enter m a1)) (hi2 : (Ts i).next a1 = some (.leave a2))
    (hj1 : (Ts j).next (w.data j) = some (.enter m' b1)) (hj2 : (Ts j).next b1 = some (.leave b2)) :
    (w.run [i, j, i, j]).ctx = ⟨none, none⟩ ∧
    ∀ (own m : Mode) (p : Prog), (exec (w.run [i, j, i, j]).ctx (.within (.val (.str m)) (.call own .done) p)).1.head? =
      some own := by
  have hc : (w.run [i, j, i, j]).ctx = ⟨none, none⟩ := by
    show ((((w.step i).step j).step i).step j).ctx = _
    have c1 : ((w.step i).ctx, (w.step i).data i) = (⟨some (.tok m), w.ctx.cur⟩, a1) := by
      rw [data_same]
      show (((Ts i).step w.ctx (w.data i)).1, ((Ts i).step w.ctx (w.data i)).2) = _
      rw [Thread.step, hi1]
      rfl
    obtain ⟨c1a, c1b⟩ := Prod.mk.inj c1
    have d1 : (w.step i).data j = w.data j := data_other w hij
    generalize w.step i = w1 at *
    have c2 : ((w1.step j).ctx, (w1.step j).data j) = (⟨some (.tok m'), some (.tok m)⟩, b1) := by
      rw [data_same]
      show (((Ts j).step w1.ctx (w1.data j)).1, ((Ts j).step w1.ctx (w1.data j)).2) = _
      rw [Thread.step, d1, hj1, c1a]
      rfl
    obtain ⟨c2a, c2b⟩ := Prod.mk.inj c2
    have d2 : (w1.step j).data i = a1 := (data_other w1 (Ne.symm hij)).trans c1b
    have c3 : ((w1.step j).step i).ctx = ⟨some (.tok m), none⟩ := by
      show ((Ts i).step (w1.step j).ctx ((w1.step j).data i)).1 = _
      rw [Thread.step, d2, hi2, c2a]
      rfl
    have d3 : ((w1.step j).step i).data j = b1 := (data_other _ hij).trans c2b
    show ((Ts j).step ((w1.step j).step i).ctx (((w1.step j).step i).data j)).1 = _
    rw [Thread.step, d3, hj2, c3]
    rfl
  refine ⟨hc, fun own m p => ?_⟩
  rw [hc]
  cases own <;> cases m <;> rfl

/-! ### Examples -/

/-- A thread that runs a list of operations and notes the modes that its calls run; its modules have the mode
`forward`. -/
def Threads.script (l : List (Op Unit)) : Thread where
  S := List (Op Unit) × List (Option MV)
  init := (l, [])
  next := fun s => match s.1 with
    | [] => none
    | .enter m _ :: r => some (.enter m (r, s.2))
    | .leave _ :: r => some (.leave (r, s.2))
    | .act _ :: r => some (.act fun eff => (r, s.2 ++ [eff (.tok .forward)]))

/-- One call. -/
def Threads.call1 : Op Unit := .act fun _ => ()

/-- Two threads that step inside a block, and call outside of it. -/
def Threads.exTwo : Bool → Thread := fun _ => script [call1, .enter .step (), call1, .leave (), call1]

/-- With a lock both threads see `forward`, `forward_step`, `forward`. -/
example : Exclusive none (World.init exTwo) [true, false, true, true, true, false, false, false, true, false] ∧
    (((World.init exTwo).run [true, false, true, true, true, false, false, false, true, false]).data true).2 =
      [some (.tok .forward), some (.tok .step), some (.tok .forward)] := by
  refine ⟨?_, rfl⟩
  simp [Exclusive, World.init, World.step, exTwo, script, call1, Thread.step]

/-- Without, the first call of the second thread runs `forward_step`, its block is ended by the first thread, ... -/
example : ((World.init exTwo).run [true, true, false, false, true, true, false, false, false]).data false =
      ([], [some (.tok .step), some (.tok .forward), some (.tok .forward)]) ∧
    ((World.init exTwo).run [true, true, false, false, true, true, false, false, false]).ctx = ⟨none, none⟩ := ⟨rfl, rfl⟩

/-- The hypotheses of `C77_overlap_refuted` are met by two threads that each open and close a block, at the start. -/
example : ∃ (Ts : Bool → Thread) (a1 a2 : (Ts true).S) (b1 b2 : (Ts false).S),
    (Ts true).next ((World.init Ts).data true) = some (.enter .step a1) ∧ (Ts true).next a1 = some (.leave a2) ∧
    (Ts false).next ((World.init Ts).data false) = some (.enter .steps b1) ∧ (Ts false).next b1 = some (.leave b2) :=
  ⟨fun b => if b then script [.enter .step (), .leave ()] else script [.enter .steps (), .leave ()],
    ([.leave ()], []), ([], []), ([.leave ()], []), ([], []), rfl, rfl, rfl, rfl⟩

end CoInf
