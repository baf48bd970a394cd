import Verif.Model.Parallel
import Verif.Spec.Equiv
import Verif.Lemmas.Geometry

set_option autoImplicit false

namespace CoInf
open Spec
variable {X Y Z : Type}

/-- A map of instances that commutes with all methods. -/
structure Commutes {I O : Sig} (M N : CoMod I O) (e : M.Inst → N.Inst) : Prop where
  init : e M.init = N.init
  clean : ∀ i, e (M.clean i) = N.clean (e i)
  fwd : ∀ i xs, N.fwd (e i) xs = (M.fwd i xs).map fun p => (p.1, e p.2)
  step : ∀ i u x, N.step (e i) u x = (M.step i u x).map fun p => (p.1, e p.2)
  steps : ∀ i p u xs, N.steps (e i) p u xs = (M.steps i p u xs).map fun q => (q.1, e q.2)

theorem Commutes.calls {I O : Sig} {M N : CoMod I O} {e : M.Inst → N.Inst} (h : Commutes M N e)
    (cs : List (Call I)) : ∀ i, (Spec.calls M i cs).1 = (Spec.calls N (e i) cs).1 := by
  induction cs with
  | nil => intro i; rfl
  | cons c cs ih =>
    intro i
    have key : Spec.call N (e i) c = (Spec.call M i c).map fun p => (p.1, e p.2) := by
      cases c with
      | step u x => simp only [call, h.step]; cases M.step i u x <;> rfl
      | steps p u xs => simp only [call, h.steps]; cases M.steps i p u xs <;> rfl
      | clean => simp only [call, Except.map, h.clean]
      | fwd xs => simp only [call, h.fwd]; cases M.fwd i xs <;> rfl
    simp only [Spec.calls, key]
    cases Spec.call M i c with
    | error e => rfl
    | ok p => simp [Except.map, ih]

/-- A map of functional states that commutes with `_forward_step`. -/
theorem threadOuts_eq {I O : Sig} {M N : CoMod I O} (R : Option M.St → Option N.St → Prop)
    (h : ∀ s s', R s s' → ∀ x, (∃ e, M.pstep x s = .error e ∧ N.pstep x s' = .error e) ∨
      ∃ o t t', M.pstep x s = .ok (o, t) ∧ N.pstep x s' = .ok (o, t') ∧ R t t') (xs : List I.Step) :
    ∀ s s', R s s' → threadOuts M s xs = threadOuts N s' xs := by
  induction xs with
  | nil => intro _ _ _; rfl
  | cons x xs ih =>
    intro s s' hR
    rcases h s s' hR x with ⟨e, h1, h2⟩ | ⟨o, t, t', h1, h2, h3⟩
    · simp [threadOuts, h1, h2, bind, Except.bind]
    · simp [threadOuts, h1, h2, ih t t' h3, bind, Except.bind]

namespace Parallel
variable (ms : List (CoMod (.stream X) (.stream Y)))

theorem step_replicate (u : Bool) (x : X) : ∀ i, step ms i u (List.replicate ms.length (some x)) =
    BroadcastReduce.stepAll ms i u x := by
  induction ms with
  | nil => intro i; rfl
  | cons m ms ih =>
    intro i
    simp only [step, BroadcastReduce.stepAll, List.length_cons, List.replicate_succ, arg, List.tail_cons, ih]
    rfl

theorem steps_replicate (p u : Bool) (x : List X) : ∀ i, steps ms i p u (List.replicate ms.length (some x)) =
    BroadcastReduce.stepsAll ms i p u x := by
  induction ms with
  | nil => intro i; rfl
  | cons m ms ih =>
    intro i
    simp only [steps, BroadcastReduce.stepsAll, List.length_cons, List.replicate_succ, arg, List.tail_cons, ih]
    rfl

theorem fwd_replicate (x : List X) : ∀ i, fwd ms i (List.replicate ms.length (some x)) =
    (BroadcastReduce.fwdAll ms i x).map fun p => (p.1.map some, p.2) := by
  induction ms with
  | nil => intro i; rfl
  | cons m ms ih =>
    intro i
    simp only [fwd, BroadcastReduce.fwdAll, List.length_cons, List.replicate_succ, arg, List.tail_cons, ih]
    simp only [bind, Except.bind]
    cases m.fwd i.1 x with
    | error e => rfl
    | ok p =>
      simp only
      cases BroadcastReduce.fwdAll ms i.2 x <;> rfl

theorem pstepAll_replicate (x : X) : ∀ s, pstepAll ms (List.replicate ms.length (some x)) s =
    BroadcastReduce.pstepAll ms x s := by
  induction ms with
  | nil => intro i; rfl
  | cons m ms ih =>
    intro i
    simp only [pstepAll, BroadcastReduce.pstepAll, List.length_cons, List.replicate_succ, arg, List.tail_cons, ih]
    rfl

end Parallel

/-- `Sequential(Broadcast(), Parallel(*ms), Reduce(r))`: the number of streams is inferred by `Sequential`
(container.py:619-625). -/
@[reducible] def mapReduce (r : Reducer Y Z) (ms : List (CoMod (.stream X) (.stream Y))) :
    CoMod (.stream X) (.stream Z) :=
  Sequential.mod (.cons (Broadcast.mod X (some ms.length)) (.cons (Parallel.mod ms) (.single (Reduce.mod r))))

theorem mapReduce_commutes (r : Reducer Y Z) (ms : List (CoMod (.stream X) (.stream Y))) :
    Commutes (BroadcastReduce.mod r ms) (mapReduce r ms) (fun i => ((), i, ())) where
  init := rfl
  clean := fun _ => rfl
  fwd := by
    intro i xs
    simp only [Chain.fwd, Broadcast.out, Except.map, Parallel.fwd_replicate, BroadcastReduce.fwd, bind, Except.bind]
    cases BroadcastReduce.fwdAll ms i xs with
    | error e => rfl
    | ok p =>
      simp only [nonempty, allSome_some, Except.map]
      cases r.clip p.1 <;> rfl
  step := by
    intro i u x
    simp only [Chain.step, Broadcast.out, Except.map, Parallel.step_replicate, BroadcastReduce.step, bind, Except.bind]
    cases BroadcastReduce.stepAll ms i u x with
    | error e => rfl
    | ok p =>
      simp only [pure, Except.pure]
      cases nonempty r.frame p.1 <;> rfl
  steps := by
    intro i p u x
    simp only [Chain.steps, Broadcast.out, Except.map, Parallel.steps_replicate, BroadcastReduce.steps, bind,
      Except.bind]
    cases BroadcastReduce.stepsAll ms i p u x with
    | error e => rfl
    | ok p =>
      simp only [pure, Except.pure]
      cases nonempty r.clip p.1 <;> rfl

theorem mapReduce_alike (r : Reducer Y Z) (ms : List (CoMod (.stream X) (.stream Y))) :
    Alike (BroadcastReduce.mod r ms) (mapReduce r ms) where
  calls := fun cs => (mapReduce_commutes r ms).calls cs _
  thread := by
    intro xs
    refine threadOuts_eq (M := BroadcastReduce.mod r ms) (N := mapReduce r ms) (fun s s' =>
      (s = none ∧ s' = none) ∨ ∃ t, s = some t ∧ s' = some (none, some t, none)) ?_ xs _ _ (.inl ⟨rfl, rfl⟩)
    intro s s' h x
    have e2 : ∀ (t : BroadcastReduce.St ms) (s'' : Option (Chain.St (.cons (Broadcast.mod X (some ms.length))
        (.cons (Parallel.mod ms) (.single (Reduce.mod r))))))
        (_ : s'' = none ∧ t = BroadcastReduce.noneSt ms ∨ s'' = some (none, some t, none)),
        (mapReduce r ms).pstep x s'' = (BroadcastReduce.pstepAll ms x t).bind fun p =>
          (nonempty r.frame p.1).bind fun o => .ok (o, some (none, some p.2, none)) := by
      rintro t s'' (⟨rfl, rfl⟩ | rfl) <;>
      · simp only [Chain.pstep, Chain.pstepAll, Broadcast.out, Except.map, Chain.noneSt, Option.getD_none, Option.getD_some,
          Parallel.pstepAll_replicate, bind, Except.bind]
        cases BroadcastReduce.pstepAll ms x _ with
        | error e => rfl
        | ok p =>
          simp only [pure, Except.pure]
          cases nonempty r.frame p.1 <;> rfl
    have e1 : ∀ (s : Option (BroadcastReduce.St ms)), (BroadcastReduce.mod r ms).pstep x s =
        (BroadcastReduce.pstepAll ms x (s.getD (BroadcastReduce.noneSt ms))).bind fun p =>
          (nonempty r.frame p.1).bind fun o => .ok (o, some p.2) := fun _ => rfl
    have : ∃ t, s.getD (BroadcastReduce.noneSt ms) = t ∧
        (s' = none ∧ t = BroadcastReduce.noneSt ms ∨ s' = some (none, some t, none)) := by
      rcases h with ⟨rfl, rfl⟩ | ⟨t, rfl, rfl⟩
      · exact ⟨_, rfl, .inl ⟨rfl, rfl⟩⟩
      · exact ⟨_, rfl, .inr rfl⟩
    obtain ⟨t, ht, ht'⟩ := this
    rw [e1, e2 t s' ht', ht]
    cases BroadcastReduce.pstepAll ms x t with
    | error e => exact .inl ⟨e, rfl, rfl⟩
    | ok p =>
      simp only [Except.bind]
      cases nonempty r.frame p.1 with
      | error e => exact .inl ⟨e, rfl, rfl⟩
      | ok o => exact .inr ⟨o, _, _, rfl, rfl, .inr ⟨_, rfl, rfl⟩⟩

end CoInf
