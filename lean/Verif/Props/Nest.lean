/-
Properties C58, C59, C60: nesting, extending and sharing members of containers.
-/
import Verif.Lemmas.NestGeo
import Verif.Props.Parallel

set_option autoImplicit false

namespace CoInf
open Spec
variable {I O : Sig} {X Y Z : Type}

/-! ### C58 -/

/-- **C58**: however constructor calls of `Sequential` are nested, the result cannot be told apart from the
one `Sequential` of the innermost members, from left to right: all methods, all flags, all scripts of calls,
exceptions, and functional stepping; for arbitrary members. -/
theorem C58_nesting (n : Nest I O) : Alike n.build (Sequential.mod n.leaves) := n.bisim.wrap.alike

/-- **C58**: two nestings of the same members behave identically. -/
theorem C58_same_members (n n' : Nest I O) (h : n.leaves = n'.leaves) : Alike n.build n'.build := by
  have h1 := C58_nesting n
  have h2 := C58_nesting n'
  rw [← h] at h2
  exact ⟨fun cs => (h1.calls cs).trans (h2.calls cs).symm, fun xs => (h1.thread xs).trans (h2.thread xs).symm⟩

/-- **C58**: the nested `Sequential` also reports the receptive field, stride, padding and delay of the flat
one. -/
theorem C58_geometry (c : NestChain I O) (h : ∀ g ∈ c.leaves.geos, 1 ≤ g.rf) :
    (Nest.seq c).build.rf = (Sequential.mod c.leaves).rf ∧
    (Nest.seq c).build.stride = (Sequential.mod c.leaves).stride ∧
    (Nest.seq c).build.padding = (Sequential.mod c.leaves).padding ∧
    (Nest.seq c).build.delay = (Sequential.mod c.leaves).delay := by
  obtain ⟨h1, h2, h3⟩ := c.geo h
  simp only [Nest.build]
  refine ⟨h1, h2, h3, ?_⟩
  show (Chain.rfOf c.build.geos : Int) - 1 - Chain.paddingOf c.build.geos = _
  rw [h1, h3]

/-- `Sequential(Sequential(conv, delay), pool-like conv, Sequential(Sequential(relu)))`. -/
def exNest : NestChain (.stream Int) (.stream Int) :=
  .cons (.seq (.cons (.mod (Conv.mod (exSum 3 2 1))) (.single (.mod (Delay.mod { d := 2, fill := fun _ => 0 })))))
    (.cons (.mod (Conv.mod (exSum 2 1 0)))
      (.single (.seq (.single (.seq (.single (.mod (Pointwise.mod fun x => 100 * x))))))))

example : (∀ g ∈ exNest.leaves.geos, 1 ≤ g.rf) ∧ exNest.leaves.geos.length = 4 ∧
    (Nest.seq exNest).build.rf = 9 ∧ (Nest.seq exNest).build.stride = 2 := by
  refine ⟨by decide, rfl, rfl, rfl⟩

/-! ### C59 -/

/-- **C59**, first part: `append` on a `Sequential` built from positional arguments (possibly none) registers
exactly what the constructor registers when given one more argument; iterating over it gives the arguments
in order.  So a network can be built by appending. -/
theorem C59_append {α : Type 1} (args : List α) (a : α) :
    (Modules.positional args).append a = Modules.positional (args ++ [a]) ∧
    ((Modules.positional args).append a).members = args ++ [a] :=
  ⟨(Modules.positional_snoc args a).symm, by rw [← Modules.positional_snoc, Modules.positional_members]⟩

/-- **C59**, second part: building by repeated `append` from the empty `Sequential`. -/
theorem C59_append_all {α : Type 1} (args : List α) :
    args.foldl Modules.append (Modules.positional []) = Modules.positional args := by
  have : ∀ (as bs : List α), bs.foldl Modules.append (Modules.positional as) = Modules.positional (as ++ bs) := by
    intro as bs
    induction bs generalizing as with
    | nil => simp
    | cons b bs ih =>
      rw [List.foldl_cons, (C59_append as b).1, ih]
      simp
  simpa using this [] args

example : ((Modules.positional [Conv.mod (exSum 3 1 1), Conv.mod (exSum 2 1 0)]).append
    (Conv.mod (exSum 5 1 0))).map Prod.fst = ["0", "1", "2"] := by
  rw [Modules.append, Modules.positional_length, Modules.positional_eq]
  simp [Modules.add]
  decide

/-- **C59** for named members, partial: `append` extends the members if the name `str(len(self))` is not taken.
Missing: the case in which it is; see `C59_named_refuted`. -/
theorem C59_named_partial {α : Type 1} (dict : List (String × α)) (hd : (dict.map Prod.fst).Nodup)
    (h : toString dict.length ∉ dict.map Prod.fst) (a : α) :
    ((Modules.named dict).append a).members = dict.map Prod.snd ++ [a] := by
  rw [Modules.append, Modules.named_eq hd, Modules.add_new a h]
  simp [Modules.members]

example : (([("conv", 0), ("relu", 1)] : List (String × Nat)).map Prod.fst).Nodup ∧
    toString ([("conv", 0), ("relu", 1)] : List (String × Nat)).length ∉
      ([("conv", 0), ("relu", 1)] : List (String × Nat)).map Prod.fst := by decide

/-- **C59** is false for named members: with members named by numbers `append` can replace a member. -/
theorem C59_named_refuted {α : Type 1} (a b c : α) :
    (([("2", a), ("1", b)] : List (String × α)).map Prod.fst).Nodup ∧
    ((Modules.named [("2", a), ("1", b)]).append c).members = [c, b] := by
  have hd : (([("2", a), ("1", b)] : List (String × α)).map Prod.fst).Nodup := by simp
  refine ⟨hd, ?_⟩
  rw [Modules.append, Modules.named_eq hd]
  simp only [Modules.add, Modules.members, List.length_cons, List.length_nil, List.map_cons, List.map_nil]
  rw [show toString (0 + 1 + 1) = "2" from rfl]
  simp

/-- **C59**, the number of streams: in the constructor each `Broadcast` directly followed by a `Parallel` gets as
many streams as the `Parallel` has members unless it was told a (non-zero) number; nothing else changes. -/
theorem C59_infer (ms : List Member) (i : Nat) :
    (Member.infer ms)[i]? = match ms[i]?, ms[i + 1]? with
      | some (.broadcast n), some (.parallel k) =>
        some (.broadcast (if n = none ∨ n = some 0 then some k else n))
      | m, _ => m := by
  induction ms using Member.infer.induct generalizing i with
  | case1 n k ms ih =>
    rw [Member.infer]
    cases i with
    | zero =>
      rcases n with _ | _ | n <;> simp [Member.orLen]
    | succ i =>
      simp only [List.getElem?_cons_succ]
      exact ih i
  | case2 m ms hm ih =>
    rw [Member.infer]
    · cases i with
      | zero =>
        simp only [List.getElem?_cons_zero, List.getElem?_cons_succ]
        cases m with
        | broadcast n =>
          cases ms with
          | nil => rfl
          | cons m' ms =>
            cases m' with
            | parallel k => exact (hm n k ms rfl rfl).elim
            | broadcast _ => rfl
            | other => rfl
        | parallel _ => cases ms[0]? <;> rfl
        | other => cases ms[0]? <;> rfl
      | succ i =>
        simp only [List.getElem?_cons_succ]
        exact ih i
    · exact hm
  | case3 => simp [Member.infer]

example : Member.infer [.broadcast none, .parallel 2, .other, .broadcast (some 3), .parallel 3, .broadcast none] =
    [.broadcast (some 2), .parallel 2, .other, .broadcast (some 3), .parallel 3, .broadcast none] := by decide

/-- **C59** is false for a `Broadcast` without a number of streams: `Sequential(Broadcast(), Parallel(...))` is
usable but `Sequential(Broadcast()).append(Parallel(...))` raises `AssertionError` on every input. -/
theorem C59_infer_refuted (r : Reducer Y Z) (ms : List (CoMod (.stream X) (.stream Y))) :
    Member.infer [.broadcast none, .parallel ms.length] = [.broadcast (some ms.length), .parallel ms.length] ∧
    ∀ i x, (Sequential.mod (.cons (Broadcast.mod X none) (.cons (Parallel.mod ms) (.single (Reduce.mod r))))).fwd i x =
      .error .assertion :=
  ⟨rfl, fun _ _ => rfl⟩

theorem maxDelay_snoc {ms : List (CoMod (.stream X) (.stream Y))} (hne : ms ≠ [])
    (m : CoMod (.stream X) (.stream Y)) :
    BroadcastReduce.maxDelay (ms ++ [m]) = max (BroadcastReduce.maxDelay ms) m.delay := by
  cases ms with
  | nil => exact absurd rfl hne
  | cons a ms => simp [BroadcastReduce.maxDelay, List.foldl_append]

theorem delayTo_delay (fill : Y → Y) {m : CoMod (.stream X) (.stream Y)} {d : Int} (h : m.delay = d) :
    BroadcastReduce.delayTo fill d m = m := by
  unfold BroadcastReduce.delayTo
  rw [if_neg (by omega)]

/-- **C59** for `BroadcastReduce`, partial: appending a branch gives what constructing with it would have given,
if the branch has the delay and stride the container already has and no larger receptive field.
Missing: other branches, see `C59_reduce_refuted`. -/
theorem C59_reduce_partial (fill : Y → Y) (auto : Bool) (r : Reducer Y Z)
    (ms : List (CoMod (.stream X) (.stream Y))) (M : CoMod (.stream X) (.stream Z))
    (h : BroadcastReduce.make fill auto r ms = .ok M) (m : CoMod (.stream X) (.stream Y))
    (hd : m.delay = BroadcastReduce.maxDelay ms)
    (hd' : m.delay = BroadcastReduce.maxDelay (BroadcastReduce.autoDelay fill auto ms))
    (hs : m.stride = M.stride) (hrf : m.rf ≤ M.rf) :
    BroadcastReduce.make fill auto r (ms ++ [m]) =
      .ok (BroadcastReduce.appended r (BroadcastReduce.autoDelay fill auto ms) m) := by
  unfold BroadcastReduce.make at h ⊢
  by_cases hl : ms.length ≤ 1
  · rw [if_pos hl] at h; exact absurd h (by simp)
  rw [if_neg hl] at h
  rw [if_neg (by rw [List.length_append]; omega)]
  have hne : ms ≠ [] := by rintro rfl; simp at hl
  have hauto : BroadcastReduce.autoDelay fill auto (ms ++ [m]) = BroadcastReduce.autoDelay fill auto ms ++ [m] := by
    unfold BroadcastReduce.autoDelay
    cases auto with
    | false => rfl
    | true =>
      rw [if_pos rfl, if_pos rfl, maxDelay_snoc hne, hd, Int.max_self, List.map_append, List.map_cons, List.map_nil,
        delayTo_delay fill hd]
  simp only [hauto]
  simp only at h
  have hne' : BroadcastReduce.autoDelay fill auto ms ≠ [] := by
    unfold BroadcastReduce.autoDelay
    cases auto <;> simp [hne]
  generalize BroadcastReduce.autoDelay fill auto ms = ms' at *
  by_cases ha : (ms'.all fun m => m.stride = (BroadcastReduce.mod r ms').stride) = true
  · rw [if_pos ha] at h
    obtain rfl := Except.ok.inj h
    have hst : (BroadcastReduce.mod r (ms' ++ [m])).stride = (BroadcastReduce.mod r ms').stride := by
      cases ms' with
      | nil => exact absurd rfl hne'
      | cons a l => rfl
    rw [if_pos]
    · congr 1
      have e1 : (BroadcastReduce.mod r (ms' ++ [m])).delay = (BroadcastReduce.mod r ms').delay := by
        show BroadcastReduce.maxDelay _ = BroadcastReduce.maxDelay _
        rw [maxDelay_snoc hne', hd', Int.max_self]
      have e2 : (BroadcastReduce.mod r (ms' ++ [m])).rf = (BroadcastReduce.mod r ms').rf := by
        show (ms' ++ [m]).foldl (fun a m => max a m.rf) 0 = ms'.foldl (fun a m => max a m.rf) 0
        rw [List.foldl_append]
        exact Nat.max_eq_left hrf
      unfold BroadcastReduce.appended
      rw [← e1, ← e2]
    · show ((ms' ++ [m]).all fun m_1 => decide (m_1.stride = (BroadcastReduce.mod r (ms' ++ [m])).stride)) = true
      rw [hst, List.all_append, ha]
      simpa using hs
  · rw [if_neg ha] at h
    exact absurd h (by simp)

example : ∃ M : CoMod (.stream Int) (.stream Int),
    BroadcastReduce.make (fun _ => 0) true (foldReducer (· + ·)) [Conv.mod (exSum 3 1 1), Pointwise.mod fun x => x] =
      .ok M ∧ (Conv.mod (exSum 3 1 1)).delay = BroadcastReduce.maxDelay
        [Conv.mod (exSum 3 1 1), Pointwise.mod fun x => x] ∧ (Conv.mod (exSum 3 1 1)).stride = M.stride ∧
      (Conv.mod (exSum 3 1 1)).rf ≤ M.rf := ⟨_, rfl, rfl, rfl, by decide⟩

/-- Two element-wise branches. -/
def exBranches2 : List (CoMod (.stream Int) (.stream Int)) :=
  [Pointwise.mod fun x => x, Pointwise.mod fun x => 10 * x]

/-- **C59** is false for `BroadcastReduce`: after appending a convolution over three frames with 'same' padding to
two element-wise branches, the container still reports a delay of zero and a receptive field of one, whereas the
constructor would have computed 1 and 3 and delayed the other branches: the appended container adds
frames of different times. -/
theorem C59_reduce_refuted :
    ∃ M N : CoMod (.stream Int) (.stream Int),
      BroadcastReduce.make (fun _ => 0) true (foldReducer (· + ·)) exBranches2 = .ok M ∧
      BroadcastReduce.make (fun _ => 0) true (foldReducer (· + ·)) (exBranches2 ++ [Conv.mod (exSum 3 1 1)]) = .ok N ∧
      N.delay = 1 ∧ N.rf = 3 ∧
      ∃ A, A = BroadcastReduce.appended (foldReducer (· + ·)) exBranches2 (Conv.mod (exSum 3 1 1)) ∧
      A.delay = 0 ∧ A.rf = 1 ∧
      (Spec.calls A A.init [.step true 1, .step true 2, .step true 3, .step true 4]).1 =
        [.frame none, .frame (some 25), .frame (some 39), .frame (some 53)] ∧
      (Spec.calls N N.init [.step true 1, .step true 2, .step true 3, .step true 4]).1 =
        [.frame none, .frame (some 14), .frame (some 28), .frame (some 42)] :=
  ⟨_, _, rfl, rfl, rfl, rfl, _, rfl, rfl, rfl, rfl, rfl⟩

/-! ### C60 -/

/-- **C60** for functional stepping: `Sequential(m, m)` with one module object in both positions steps like
`Sequential(m, m')` with two equally configured ones, as the states are kept per position. -/
theorem C60_functional (m : CoMod (.stream X) (.stream X)) (xs : List X) :
    threadOuts (Sequential.shared m) none xs =
      threadOuts (Sequential.mod (.cons m (.single m))) none xs := by
  have : ∀ (xs : List X) s, threadOuts (Sequential.shared m) s xs =
      threadOuts (Sequential.mod (.cons m (.single m))) s xs := by
    intro xs
    induction xs with
    | nil => intro s; rfl
    | cons x xs ih =>
      intro s
      rw [threadOuts, threadOuts]
      show (Chain.pstep (.cons m (.single m)) x s >>= _) = (Chain.pstep (.cons m (.single m)) x s >>= _)
      congr 1
      funext r
      obtain ⟨o, s'⟩ := r
      show (threadOuts (Sequential.shared m) s' xs >>= _) =
        (threadOuts (Sequential.mod (.cons m (.single m))) s' xs >>= _)
      rw [ih]
  exact this xs none

/-- **C60**, partial: sharing is harmless for modules without attributes (element-wise modules), for all methods.
Missing: modules that keep a state, see `C60_shared_refuted`. -/
theorem C60_stateless_partial (m : CoMod (.stream X) (.stream X)) (hI : Subsingleton m.Inst) :
    Alike (Sequential.shared m) (Sequential.mod (.cons m (.single m))) := by
  refine ⟨fun cs => ?_, C60_functional m⟩
  have key : ∀ (cs : List (Call (.stream X))) (i : m.Inst) (j : m.Inst × m.Inst),
      (Spec.calls (Sequential.shared m) i cs).1 =
        (Spec.calls (Sequential.mod (.cons m (.single m))) j cs).1 := by
    intro cs
    induction cs with
    | nil => intro i j; rfl
    | cons c cs ih =>
      intro i j
      obtain ⟨j1, j2⟩ := j
      obtain rfl := Subsingleton.elim j1 i
      cases c with
      | clean =>
        simp only [Spec.calls, Spec.call]
        exact congrArg _ (ih _ _)
      | step u x =>
        simp only [Spec.calls, Spec.call, Chain.step]
        cases h : m.step j1 u x with
        | error e => rfl
        | ok p =>
          obtain ⟨_ | y, i1⟩ := p
          · exact congrArg _ (ih _ _)
          · obtain rfl := Subsingleton.elim i1 j2
            simp only [bind, Except.bind]
            cases m.step i1 u y with
            | error e => rfl
            | ok p => exact congrArg _ (ih _ _)
      | steps p u x =>
        simp only [Spec.calls, Spec.call, Chain.steps]
        cases h : m.steps j1 p u x with
        | error e => rfl
        | ok p' =>
          obtain ⟨_ | y, i1⟩ := p'
          · exact congrArg _ (ih _ _)
          · obtain rfl := Subsingleton.elim i1 j2
            simp only [bind, Except.bind]
            cases m.steps i1 p u y with
            | error e => rfl
            | ok p => exact congrArg _ (ih _ _)
      | fwd x =>
        simp only [Spec.calls, Spec.call, Chain.fwd]
        cases h : m.fwd j1 x with
        | error e => rfl
        | ok p =>
          obtain ⟨y, i1⟩ := p
          obtain rfl := Subsingleton.elim i1 j2
          simp only [bind, Except.bind]
          cases m.fwd i1 y with
          | error e => rfl
          | ok p => exact congrArg _ (ih _ _)
  exact key cs _ _

example : Subsingleton (Pointwise.mod fun x : Int => 2 * x).Inst := inferInstanceAs (Subsingleton Unit)

/-- **C60** is false for streaming with a stateful module: one convolution object used twice mixes the frames of
both positions in its buffer; `forward` still composes. -/
theorem C60_shared_refuted :
    let m := Conv.mod (exSum 2 1 0)
    (Spec.calls (Sequential.shared m) m.init [.fwd [1, 2, 3, 4]]).1 =
      (Spec.calls (Sequential.mod (.cons m (.single m))) (m.init, m.init) [.fwd [1, 2, 3, 4]]).1 ∧
    (Spec.calls (Sequential.shared m) m.init (([1, 2, 3, 4] : List Int).map (.step true))).1 =
      [.frame none, .frame (some 5), .frame (some 9), .frame (some 14)] ∧
    (Spec.calls (Sequential.mod (.cons m (.single m))) (m.init, m.init) (([1, 2, 3, 4] : List Int).map (.step true))).1 =
      [.frame none, .frame none, .frame (some 8), .frame (some 12)] := by
  refine ⟨rfl, rfl, rfl⟩

end CoInf
