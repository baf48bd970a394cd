/-
Property C78: hooks of the members of a network run once per execution, in every mode.
-/
import Verif.Model.Hooks
import Verif.Props.CallMode

set_option autoImplicit false

namespace CoInf
open CallMode

namespace Spec

/-- The executed methods. -/
def runs (es : List Hooks.Ev) : List (Nat × Mode) := es.filterMap fun
  | .run i M => some (i, M)
  | _ => none

/-- What a user of hooks expects to happen around one execution. -/
def bracket (M : Mode) (i : Nat) : List Hooks.Ev := [.pre i, .run i M, .post i]

mutual
/-- The containers of a tree. -/
def boxes : Tree → List Nat
  | .leaf _ _ | .rnn _ _ | .naive _ _ | .condId _ => []
  | .box _ i cs => i :: boxesAll cs
  | .cond i c => i :: boxes c
def boxesAll : List Tree → List Nat
  | [] => []
  | c :: cs => boxes c ++ boxesAll cs
end

mutual
/-- Networks for which the property holds in mode `M`: no `Conditional`; recurrent modules only if `M` is not `forward`,
modules made by `forward_stepping` only if it is (and outside of `BroadcastReduce`, where they do not work at all: C50).
No module raises. -/
def Hookable (M : Mode) (raw : Bool) : Tree → Prop
  | .leaf _ b => b = false
  | .rnn _ b => b = false ∧ M ≠ .forward
  | .naive _ b => b = false ∧ M = .forward ∧ raw = false
  | .box r _ cs => HookableAll M r cs
  | .cond _ _ | .condId _ => False
def HookableAll (M : Mode) (raw : Bool) : List Tree → Prop
  | [] => True
  | c :: cs => Hookable M raw c ∧ HookableAll M raw cs
end

end Spec

namespace Hooks
open Spec

/-! ### Without hooks -/

/-- `a` is `b` with the rounds of hooks added. -/
structure Erases (a : Hooks.Out) (b : CallMode.Out) : Prop where
  trace : runs a.trace = b.trace
  err : a.err = b.err
  modes : a.modes = b.modes

theorem runs_append (a b : List Ev) : runs (a ++ b) = runs a ++ runs b := List.filterMap_append

theorem erases_perform (i : Nat) (b : Bool) (M : Mode) (σ : Modes) :
    Erases (Hooks.perform i b M σ) (CallMode.perform i b M σ) := ⟨rfl, rfl, rfl⟩

theorem erases_around {a : Hooks.Out} {b : CallMode.Out} (i : Nat) (h : Erases a b) : Erases (around i a) b := by
  obtain ⟨tr, e, σ⟩ := a
  obtain ⟨h1, h2, h3⟩ := h
  cases e with
  | none => exact ⟨by rw [around]; simp only [runs_append]; simpa [runs] using h1, h2, h3⟩
  | some e => exact ⟨by rw [around]; simpa [runs] using h1, h2, h3⟩

theorem erases_impl (i : Nat) (kw : Mode) (σ : Modes) (d : Except Err Mode) {body : Mode → Hooks.Out}
    {body' : Mode → CallMode.Out} (h : ∀ M, Erases (body M) (body' M)) :
    Erases (impl i kw σ d body) (match accept kw d with
      | .error e => ⟨[], some e, σ⟩
      | .ok M => body' M) := by
  cases d with
  | error e => exact ⟨rfl, rfl, rfl⟩
  | ok M =>
    by_cases hf : fits kw M = true
    · simp only [impl, accept, if_pos hf]
      exact erases_around _ (h M)
    · simp only [impl, accept, if_neg hf]
      exact erases_around i (b := ⟨[], some .type, σ⟩) ⟨rfl, rfl, rfl⟩

theorem erases_withMode (g : Ctx) (kw : Mode) (i : Nat) (b : Bool) (σ : Modes) :
    Erases (withMode g kw i b σ) (match accept kw (naiveDispatch g (σ i)) with
      | .error e => ⟨[], some e, σ⟩
      | .ok M => CallMode.perform i b M σ) := by
  have h := erases_impl i kw σ (naiveDispatch g (σ i)) (fun M => erases_perform i b M σ)
  unfold withMode
  cases hd : naiveDispatch g (σ i) with
  | error e => rw [hd] at h; exact h
  | ok M =>
    rw [hd] at h
    cases M with
    | forward =>
      by_cases hf : fits kw .forward = true
      · simp only [accept, if_pos hf]
        exact erases_perform _ _ _ _
      · simp only [accept, if_neg hf]
        exact ⟨rfl, rfl, rfl⟩
    | steps => exact h
    | step => exact h

mutual
theorem erases_method (g : Ctx) (M : Mode) : ∀ (t : Tree) (σ : Modes), Erases (Hooks.method g M t σ) (CallMode.method g M t σ)
  | .leaf i b, σ => erases_perform _ _ _ _
  | .rnn i b, σ => erases_perform _ _ _ _
  | .naive i b, σ => by
    cases M with
    | forward =>
      have h := erases_withMode g .forward i b σ
      simp only [Hooks.method, CallMode.method]
      cases hd : naiveDispatch g (σ i) with
      | error e => rw [hd] at h; exact h
      | ok M => rw [hd] at h; exact h
    | steps => exact erases_perform _ _ _ _
    | step => exact erases_perform _ _ _ _
  | .box raw i cs, σ => by
    simp only [Hooks.method, CallMode.method]
    exact erases_children g M raw cs σ
  | .cond i c, σ => by
    cases M with
    | forward => exact erases_invoke g .forward c σ
    | steps => exact erases_method g .steps c σ
    | step => exact erases_method g .step c σ
  | .condId i, σ => ⟨rfl, rfl, rfl⟩

theorem erases_invoke (g : Ctx) (kw : Mode) : ∀ (t : Tree) (σ : Modes), Erases (Hooks.invoke g kw t σ) (CallMode.invoke g kw t σ)
  | .rnn i b, σ => by
    simp only [Hooks.invoke, CallMode.invoke]
    by_cases hk : kw = .forward
    · simp only [if_pos hk]
      exact erases_perform _ _ _ _
    · simp only [if_neg hk]
      exact erases_impl i kw σ _ fun M => erases_perform i b M σ
  | .naive i b, σ => by
    simp only [Hooks.invoke, CallMode.invoke]
    exact erases_around _ (erases_withMode g kw i b σ)
  | .leaf i b, σ => by
    simp only [Hooks.invoke, CallMode.invoke]
    exact erases_impl i kw σ _ fun M => erases_perform i b M σ
  | .box raw i cs, σ => by
    have h := erases_impl i kw σ (dispatch g (σ i)) fun M => erases_children g M raw cs σ
    simp only [Hooks.invoke, CallMode.invoke]
    cases hd : dispatch g (σ i) with
    | error e => rw [hd] at h; exact h
    | ok M => rw [hd] at h; exact h
  | .cond i c, σ => by
    simp only [Hooks.invoke, CallMode.invoke]
    cases hd : dispatch g (σ i) with
    | error e => exact ⟨rfl, rfl, rfl⟩
    | ok M =>
      by_cases hf : fits kw M = true
      · cases M with
        | forward =>
          simp only [accept, if_pos hf]
          exact erases_around _ (erases_invoke g .forward c σ)
        | steps =>
          simp only [accept, if_pos hf]
          exact erases_around _ (erases_method g .steps c σ)
        | step =>
          simp only [accept, if_pos hf]
          exact erases_around _ (erases_method g .step c σ)
      · cases M <;> simp only [accept, if_neg hf] <;>
          exact erases_around i (b := ⟨[], some .type, σ⟩) ⟨rfl, rfl, rfl⟩
  | .condId i, σ => by
    simp only [Hooks.invoke, CallMode.invoke]
    exact erases_impl i kw σ _ fun M => ⟨rfl, rfl, rfl⟩

theorem erases_children (g : Ctx) (M : Mode) (raw : Bool) : ∀ (cs : List Tree) (σ : Modes),
    Erases (Hooks.children g M raw cs σ) (CallMode.children g M raw cs σ)
  | [], σ => ⟨rfl, rfl, rfl⟩
  | c :: cs, σ => by
    simp only [Hooks.children, CallMode.children]
    have h := erases_invoke g M c (assign (childMode raw M) c σ)
    rw [h.err]
    cases he : (CallMode.invoke g M c (assign (childMode raw M) c σ)).err with
    | some e => exact ⟨h.trace, rfl, h.modes⟩
    | none =>
      have h' := erases_children g M raw cs (assign (σ c.id) c (CallMode.invoke g M c (assign (childMode raw M) c σ)).modes)
      simp only [h.modes]
      exact ⟨by rw [runs_append, h.trace, h'.trace], h'.err, h'.modes⟩
end

/-! ### With hooks -/

theorem plain_of_hookable {M : Mode} (k : Bool) : ∀ (t : Tree) {raw : Bool}, Hookable M raw t → Plain ⟨k, true⟩ raw t
  | .leaf _ _, _, h => h
  | .rnn _ _, _, h => ⟨h.1, rfl⟩
  | .naive _ _, _, h => ⟨h.1, h.2.2⟩
  | .box _ _ cs, _, h => plainAll_of_hookable k cs h
  | .cond _ _, _, h => h.elim
  | .condId _, _, h => h.elim
where plainAll_of_hookable {M : Mode} (k : Bool) : ∀ (cs : List Tree) {raw : Bool}, HookableAll M raw cs → PlainAll ⟨k, true⟩ raw cs
  | [], _, _ => trivial
  | c :: cs, _, h => ⟨plain_of_hookable k c h.1, plainAll_of_hookable k cs h.2⟩

mutual
theorem invoke_hooks {g : Ctx} (hg : g.prev = none) {M : Mode} (L : Nat → Bool) : ∀ (t : Tree) {raw : Bool},
    Hookable M raw t → (∀ i ∈ workers t, L i = true) → (∀ i ∈ boxes t, L i = false) → ∀ σ : Modes, σ t.id = .tok M →
    (Hooks.invoke g M t σ).err = none ∧
    (Hooks.invoke g M t σ).trace.filter (fun e => L e.id) = (workers t).flatMap (bracket M)
  | .leaf i b, _, h, hw, _, σ, hσ => by
    have hb : b = false := h
    subst hb
    have hi := hw i (by simp [workers])
    have hσ' : σ i = .tok M := hσ
    simp [Hooks.invoke, impl, hσ', dispatch_rest hg, fits_self, around, Hooks.perform, workers, bracket, Ev.id, hi]
  | .rnn i b, _, h, hw, _, σ, hσ => by
    obtain ⟨hb, hM⟩ := h
    subst hb
    have hi := hw i (by simp [workers])
    have hσ' : σ i = .tok M := hσ
    simp [Hooks.invoke, hM, impl, hσ', dispatch_rest hg, fits_self, around, Hooks.perform, workers, bracket, Ev.id, hi]
  | .naive i b, _, h, hw, _, σ, hσ => by
    obtain ⟨hb, hM, _⟩ := h
    subst hb hM
    have hi := hw i (by simp [workers])
    have hσ' : σ i = .tok .forward := hσ
    simp [Hooks.invoke, withMode, hσ', naive_rest hg, fits_self, around, Hooks.perform, workers, bracket, Ev.id, hi]
  | .box r i cs, _, h, hw, hbx, σ, hσ => by
    have hσ' : σ i = .tok M := hσ
    have hi : L i = false := hbx i (by simp [boxes])
    obtain ⟨h1, h2⟩ := children_hooks hg L cs h (fun j hj => hw j (by simpa [workers] using hj))
      (fun j hj => hbx j (by simp [boxes, hj])) σ
    simp only [Hooks.invoke, hσ', dispatch_rest hg, fits_self, if_true, around, h1]
    refine ⟨trivial, ?_⟩
    have hp : L (Ev.pre i).id = false := hi
    have hq : L (Ev.post i).id = false := hi
    simp [hp, hq, h2, workers]
  | .cond _ _, _, h, _, _, _, _ => h.elim
  | .condId _, _, h, _, _, _, _ => h.elim

theorem children_hooks {g : Ctx} (hg : g.prev = none) {M : Mode} (L : Nat → Bool) : ∀ (cs : List Tree) {raw : Bool},
    HookableAll M raw cs → (∀ i ∈ workersAll cs, L i = true) → (∀ i ∈ boxesAll cs, L i = false) → ∀ σ : Modes,
    (Hooks.children g M raw cs σ).err = none ∧
    (Hooks.children g M raw cs σ).trace.filter (fun e => L e.id) = (workersAll cs).flatMap (bracket M)
  | [], _, _, _, _, _ => ⟨rfl, rfl⟩
  | c :: cs, raw, h, hw, hbx, σ => by
    obtain ⟨h1, h2⟩ := invoke_hooks hg L c h.1 (fun j hj => hw j (by simp [workersAll, hj]))
      (fun j hj => hbx j (by simp [boxesAll, hj])) (assign (childMode raw M) c σ) (assign_own (plain_of_hookable false c h.1) σ)
    obtain ⟨h3, h4⟩ := children_hooks hg L cs h.2 (fun j hj => hw j (by simp [workersAll, hj]))
      (fun j hj => hbx j (by simp [boxesAll, hj]))
      (assign (σ c.id) c (Hooks.invoke g M c (assign (childMode raw M) c σ)).modes)
    simp only [Hooks.children, h1]
    exact ⟨h3, by rw [List.filter_append, h2, h4, workersAll, List.flatMap_append]⟩
end

/-- Hooks that leave input and output as they are need not be looked at. -/
theorem value_filter {V : Type} (f : Nat → Mode → V → V) (pre post : Nat → V → V) (L : Nat → Bool) : ∀ (es : List Ev),
    (∀ i, L i = false → pre i = id ∧ post i = id) → (∀ i M, Ev.run i M ∈ es → L i = true) → ∀ x,
    value f pre post (es.filter fun e => L e.id) x = value f pre post es x
  | [], _, _, _ => rfl
  | e :: es, hL, hr, x => by
    have ih := value_filter f pre post L es hL (fun i M h => hr i M (List.mem_cons_of_mem _ h))
    cases hb : L e.id with
    | true =>
      rw [List.filter_cons_of_pos (by simpa using hb)]
      cases e <;> simp only [value] <;> exact ih _
    | false =>
      rw [List.filter_cons_of_neg (by simp [hb])]
      rw [ih]
      cases e with
      | pre i => simp only [value]; rw [(hL i hb).1]; rfl
      | post i => simp only [value]; rw [(hL i hb).2]; rfl
      | run i M =>
        have := hr i M List.mem_cons_self
        have hb' : L i = false := hb
        rw [this] at hb'
        cases hb'

theorem value_append {V : Type} (f : Nat → Mode → V → V) (pre post : Nat → V → V) : ∀ (a b : List Ev) (x : V),
    value f pre post (a ++ b) x = value f pre post b (value f pre post a x)
  | [], _, _ => rfl
  | e :: a, b, x => by
    cases e <;> simp only [List.cons_append, value] <;> exact value_append f pre post a b _

theorem value_brackets {V : Type} (f : Nat → Mode → V → V) (pre post : Nat → V → V) (M : Mode) : ∀ (l : List Nat) (x : V),
    value f pre post (l.flatMap (bracket M)) x = l.foldl (fun x i => post i (f i M (pre i x))) x
  | [], _ => rfl
  | i :: l, x => by
    rw [List.flatMap_cons, value_append, value_brackets f pre post M l]
    rfl

end Hooks
open Spec

/-- **C78**: in a network of continual modules and containers, a call of any mode runs the hooks of every member once, the
pre-hooks right before its method and the others right after it.  Members made by `forward_stepping` are covered for
`forward` only, recurrent members for the other modes only. -/
theorem C78_once_partial (g : Ctx) (hg : g.prev = none) (M : Mode) (raw : Bool) (i : Nat) (cs : List Tree)
    (h : HookableAll M raw cs) (hd : ∀ j ∈ boxesAll cs, j ∉ workersAll cs) (σ : Modes) :
    (Hooks.method g M (.box raw i cs) σ).err = none ∧
    (Hooks.method g M (.box raw i cs) σ).trace.filter (fun e => decide (e.id ∈ workersAll cs)) =
      (workersAll cs).flatMap (bracket M) := by
  simp only [Hooks.method]
  exact Hooks.children_hooks hg (fun j => decide (j ∈ workersAll cs)) cs h (fun j hj => by simpa using hj)
    (fun j hj => by simpa using hd j hj) σ

/-- **C78**, values: for nested `Sequential` containers (without hooks of their own) the result is that of the methods with
the hooks of each member applied once. -/
theorem C78_values_partial {V : Type} (f : Nat → Mode → V → V) (pre post : Nat → V → V) (g : Ctx) (hg : g.prev = none)
    (M : Mode) (i : Nat) (cs : List Tree) (h : HookableAll M false cs) (hd : ∀ j ∈ boxesAll cs, j ∉ workersAll cs)
    (hb : ∀ j, j ∉ workersAll cs → pre j = id ∧ post j = id) (σ : Modes) (x : V) :
    Hooks.value f pre post (Hooks.method g M (.box false i cs) σ).trace x =
      (workersAll cs).foldl (fun x j => post j (f j M (pre j x))) x := by
  obtain ⟨h1, h2⟩ := C78_once_partial g hg M false i cs h hd σ
  rw [← Hooks.value_brackets, ← h2]
  refine (Hooks.value_filter f pre post (fun j => decide (j ∈ workersAll cs)) _ (fun j hj => hb j (by simpa using hj)) ?_ x).symm
  intro j M' hj
  have ht := (Hooks.erases_method g M (.box false i cs) σ).trace
  have hmem : (j, M') ∈ runs (Hooks.method g M (.box false i cs) σ).trace := List.mem_filterMap.mpr ⟨_, hj, rfl⟩
  have hn : PlainAll ⟨M ≠ .forward, true⟩ false cs := Hooks.plain_of_hookable.plainAll_of_hookable _ cs h
  rw [ht, (method_trace hg (.box false i cs) (raw := false) hn (by simp) σ).1] at hmem
  obtain ⟨k, hk, e⟩ := List.mem_map.mp hmem
  cases e
  simpa [workers] using hk

/-- **C78**: whether modules have hooks makes no difference to the methods that are executed, the exceptions and the call
modes afterwards, for any module, call mode and block. -/
theorem C78_executions (g : Ctx) (kw : Mode) (t : Tree) (σ : Modes) :
    runs (Hooks.invoke g kw t σ).trace = (CallMode.invoke g kw t σ).trace ∧
    (Hooks.invoke g kw t σ).err = (CallMode.invoke g kw t σ).err ∧
    (Hooks.invoke g kw t σ).modes = (CallMode.invoke g kw t σ).modes :=
  have h := Hooks.erases_invoke g kw t σ
  ⟨h.trace, h.err, h.modes⟩

/-- **C78 refuted** for members made by `forward_stepping`: in the modes for steps, all their hooks run twice, so that a hook
that changes the output changes it twice; in `forward` they run once. -/
theorem C78_stepping_refuted {V : Type} (f : Nat → Mode → V → V) (pre post : Nat → V → V) (g : Ctx) (hg : g.prev = none)
    (M : Mode) (hM : M ≠ .forward) (i j : Nat) (σ : Modes) (x : V) :
    (Hooks.method g M (.box false i [.naive j false]) σ).trace = [.pre j, .pre j, .run j M, .post j, .post j] ∧
    Hooks.value f pre post (Hooks.method g M (.box false i [.naive j false]) σ).trace x =
      post j (post j (f j M (pre j (pre j x)))) ∧
    Hooks.value f pre post (Hooks.method g .forward (.box false i [.naive j false]) σ).trace x =
      post j (f j .forward (pre j x)) := by
  have h1 : (Hooks.method g M (.box false i [.naive j false]) σ).trace = [.pre j, .pre j, .run j M, .post j, .post j] := by
    simp only [Hooks.method, Hooks.children, Hooks.invoke, Hooks.withMode, assign, childMode, setAttr_self, naive_rest hg]
    cases M with
    | forward => exact absurd rfl hM
    | steps => simp [Hooks.impl, Hooks.around, Hooks.perform, fits_self, naive_rest hg]
    | step => simp [Hooks.impl, Hooks.around, Hooks.perform, fits_self, naive_rest hg]
  refine ⟨h1, by rw [h1]; rfl, ?_⟩
  simp [Hooks.method, Hooks.children, Hooks.invoke, Hooks.withMode, assign, childMode, setAttr_self, naive_rest hg,
    Hooks.around, Hooks.perform, fits_self, Hooks.value]

/-- **C78 refuted** for recurrent members, whose hooks do not run in `forward` (`apply_forward` calls the method), and run
in the other modes. -/
theorem C78_recurrent_refuted (g : Ctx) (hg : g.prev = none) (raw : Bool) (M : Mode) (hM : M ≠ .forward) (i j : Nat) (σ : Modes) :
    (Hooks.method g .forward (.box raw i [.rnn j false]) σ).trace = [.run j .forward] ∧
    (Hooks.method g M (.box raw i [.rnn j false]) σ).trace = [.pre j, .run j M, .post j] := by
  constructor
  · rfl
  · have hd : dispatch g (assign (childMode raw M) (.rnn j false) σ j) = .ok M := by
      rw [show assign (childMode raw M) (.rnn j false) σ j = .tok M from
        assign_own (k := ⟨false, true⟩) (raw := raw) (c := .rnn j false) ⟨rfl, rfl⟩ σ]
      exact dispatch_rest hg M
    simp [Hooks.method, Hooks.children, Hooks.invoke, hM, Hooks.impl, hd, fits_self, Hooks.around, Hooks.perform]

/-- **C78 refuted** for the branches of a `Conditional`: their hooks do not run in the modes for steps. -/
theorem C78_conditional_refuted (g : Ctx) (hg : g.prev = none) (raw : Bool) (M : Mode) (hM : M ≠ .forward) (i j k : Nat)
    (σ : Modes) :
    (Hooks.method g M (.box raw i [.cond j (.leaf k false)]) σ).trace = [.pre j, .run k M, .post j] := by
  have hd : dispatch g (assign (childMode raw M) (.cond j (.leaf k false)) σ j) = .ok M := by
    rw [show assign (childMode raw M) (.cond j (.leaf k false)) σ j = .tok M from
      assign_own (k := ⟨true, true⟩) (raw := raw) (c := .cond j (.leaf k false)) ⟨rfl, rfl⟩ σ]
    exact dispatch_rest hg M
  cases M with
  | forward => exact absurd rfl hM
  | steps => simp [Hooks.method, Hooks.children, Hooks.invoke, hd, fits_self, Hooks.around, Hooks.perform]
  | step => simp [Hooks.method, Hooks.children, Hooks.invoke, hd, fits_self, Hooks.around, Hooks.perform]

/-! ### Calls that raise -/

namespace Spec

/-- The objects whose pre-hooks have run and whose hooks have not, the innermost first; hooks have to run in this order. -/
def opened : List Hooks.Ev → List Nat → Option (List Nat)
  | [], s => some s
  | .pre i :: es, s => opened es (i :: s)
  | .run _ _ :: es, s => opened es s
  | .post i :: es, s => match s with
    | j :: s => if i = j then opened es s else none
    | [] => none

end Spec

namespace Hooks
open Spec

theorem opened_append : ∀ (a b : List Ev) (s : List Nat), opened (a ++ b) s = (opened a s).bind (opened b)
  | [], _, _ => rfl
  | .pre i :: a, b, s => opened_append a b (i :: s)
  | .run _ _ :: a, b, s => opened_append a b s
  | .post i :: a, b, s => by
    cases s with
    | nil => rfl
    | cons j s =>
      simp only [List.cons_append, opened]
      split
      · exact opened_append a b s
      · rfl

/-- Calls that return leave no object open. -/
structure Closed (r : Out) : Prop where
  ok : r.err = none → ∀ s, opened r.trace s = some s
  err : r.err ≠ none → ∃ st, ∀ s, opened r.trace s = some (st ++ s)

theorem closed_perform (i : Nat) (b : Bool) (M : Mode) (σ : Modes) : Closed (perform i b M σ) :=
  ⟨fun _ _ => rfl, fun _ => ⟨[], fun _ => rfl⟩⟩

theorem closed_fail (e : Err) (σ : Modes) : Closed ⟨[], some e, σ⟩ := ⟨fun h => by simp at h, fun _ => ⟨[], fun _ => rfl⟩⟩

/-- Around the method of an object: its hooks run exactly if the method returns. -/
theorem around_open (i : Nat) {r : Out} (h : Closed r) :
    Closed (around i r) ∧ ((around i r).err ≠ none → ∃ st, ∀ s, opened (around i r).trace s = some (st ++ i :: s)) := by
  unfold around
  cases he : r.err with
  | none =>
    refine ⟨⟨fun _ s => ?_, fun hn => absurd rfl hn⟩, fun hn => absurd rfl hn⟩
    have h1 := h.ok he (i :: s)
    simp only [List.cons_append, opened, opened_append, h1, Option.bind_some, if_true]
  | some e =>
    obtain ⟨st, hst⟩ := h.err (by simp [he])
    refine ⟨⟨fun hn => by simp at hn, fun _ => ⟨st ++ [i], fun s => ?_⟩⟩, fun _ => ⟨st, fun s => ?_⟩⟩
    · simp only [opened, hst, List.append_assoc, List.singleton_append]
    · simp only [opened, hst]

/-- What is to be shown of a call through `__call__`. -/
def Opens (i : Nat) (r : Out) : Prop := Closed r ∧ (r.err ≠ none → r.trace = [] ∨ ∃ st, ∀ s, opened r.trace s = some (st ++ i :: s))

theorem opens_around (i : Nat) {r : Out} (h : Closed r) : Opens i (around i r) :=
  ⟨(around_open i h).1, fun he => .inr ((around_open i h).2 he)⟩

theorem opens_fail (i : Nat) (e : Err) (σ : Modes) : Opens i ⟨[], some e, σ⟩ := ⟨closed_fail e σ, fun _ => .inl rfl⟩

theorem opens_both {i : Nat} {r : Out} {p : Prop} (h : Opens i r) : Closed r ∧ (p → Opens i r) := ⟨h.1, fun _ => h⟩

theorem opens_impl (i : Nat) (kw : Mode) (σ : Modes) (d : Except Err Mode) {body : Mode → Out} (h : ∀ M, Closed (body M)) :
    Opens i (impl i kw σ d body) := by
  unfold impl
  split
  · exact opens_fail i _ σ
  · refine opens_around i ?_
    split
    · exact h _
    · exact closed_fail _ σ

theorem closed_withMode (g : Ctx) (kw : Mode) (i : Nat) (b : Bool) (σ : Modes) : Closed (withMode g kw i b σ) := by
  unfold withMode
  split
  · split
    · exact closed_perform _ _ _ _
    · exact closed_fail _ σ
  · exact (opens_impl i kw σ _ fun M => closed_perform i b M σ).1

mutual
theorem method_closed (g : Ctx) (M : Mode) : ∀ (t : Tree) (σ : Modes), Closed (method g M t σ)
  | .leaf i b, σ => by simp only [method]; exact closed_perform i b M σ
  | .rnn i b, σ => by simp only [method]; exact closed_perform i b M σ
  | .naive i b, σ => by
    cases M <;> simp only [method]
    · exact closed_withMode g _ i b σ
    · exact closed_perform i b _ σ
    · exact closed_perform i b _ σ
  | .box raw i cs, σ => by simp only [method]; exact children_closed g M raw cs σ
  | .cond i c, σ => by
    cases M <;> simp only [method]
    · exact (invoke_opens g _ c σ).1
    · exact method_closed g _ c σ
    · exact method_closed g _ c σ
  | .condId i, σ => by simp only [method]; exact ⟨fun _ _ => rfl, fun h => absurd rfl h⟩

theorem invoke_opens (g : Ctx) (kw : Mode) : ∀ (t : Tree) (σ : Modes),
    Closed (invoke g kw t σ) ∧ ((∀ i b, t ≠ .rnn i b) → Opens t.id (invoke g kw t σ))
  | .rnn i b, σ => by
    refine ⟨?_, fun h => absurd rfl (h i b)⟩
    simp only [invoke]
    split
    · exact closed_perform i b _ σ
    · exact (opens_impl i kw σ _ fun M => closed_perform i b M σ).1
  | .naive i b, σ => opens_both (by simp only [invoke]; exact opens_around i (closed_withMode g kw i b σ))
  | .leaf i b, σ => opens_both (by simp only [invoke]; exact opens_impl i kw σ _ fun M => closed_perform i b M σ)
  | .box raw i cs, σ => opens_both (by
    simp only [invoke]
    split
    · exact opens_fail i _ σ
    · refine opens_around i ?_
      split
      · exact children_closed g _ raw cs σ
      · exact closed_fail _ σ)
  | .cond i c, σ => opens_both (by
    simp only [invoke]
    split
    · exact opens_fail i _ σ
    · refine opens_around i ?_
      split
      · exact (invoke_opens g _ c σ).1
      · exact closed_fail _ σ
    · refine opens_around i ?_
      split
      · exact method_closed g _ c σ
      · exact closed_fail _ σ)
  | .condId i, σ => opens_both (by
    simp only [invoke]
    exact opens_impl i kw σ _ fun M => ⟨fun _ _ => rfl, fun h => absurd rfl h⟩)

theorem children_closed (g : Ctx) (M : Mode) (raw : Bool) : ∀ (cs : List Tree) (σ : Modes), Closed (children g M raw cs σ)
  | [], σ => by simp only [children]; exact ⟨fun _ _ => rfl, fun h => absurd rfl h⟩
  | c :: cs, σ => by
    have h1 := (invoke_opens g M c (assign (childMode raw M) c σ)).1
    have h2 := children_closed g M raw cs (assign (σ c.id) c (invoke g M c (assign (childMode raw M) c σ)).modes)
    simp only [children]
    split
    · rename_i e he
      exact ⟨fun h => by simp at h, fun _ => h1.err (by simp [he])⟩
    · rename_i he
      refine ⟨fun h s => ?_, fun h => ?_⟩
      · simp only [opened_append, h1.ok he, Option.bind_some, h2.ok h]
      · obtain ⟨st, hst⟩ := h2.err h
        exact ⟨st, fun s => by simp only [opened_append, h1.ok he, Option.bind_some, hst]⟩
end

end Hooks
open Spec

/-- **C78**, calls that raise, for any network, mode and block: hooks are closed in the order in which they were opened; if the call
returns, all have run; if it raises, those of the called module (and of each module that the exception passes through) have not. -/
theorem C78_raises (g : Ctx) (kw : Mode) (t : Tree) (ht : ∀ i b, t ≠ .rnn i b) (σ : Modes) :
    ((Hooks.invoke g kw t σ).err = none → opened (Hooks.invoke g kw t σ).trace [] = some []) ∧
    ((Hooks.invoke g kw t σ).err ≠ none → (Hooks.invoke g kw t σ).trace = [] ∨
      ∃ st, opened (Hooks.invoke g kw t σ).trace [] = some (st ++ [t.id])) := by
  have h := (Hooks.invoke_opens g kw t σ).2 ht
  refine ⟨fun he => h.1.ok he [], fun he => ?_⟩
  rcases h.2 he with h0 | ⟨st, hst⟩
  · exact .inl h0
  · exact .inr ⟨st, hst []⟩

/-! ### Examples -/

/-- The second member of a Sequential raises: its hooks and those of the Sequential do not run, those of the first member do. -/
example : opened (Hooks.invoke Ctx.init .forward (.box false 0 [.leaf 1 false, .leaf 2 true]) fun _ => .tok .forward).trace [] =
    some [2, 0] := by decide

/-- A residual block and a recurrent module, in steps. -/
example : HookableAll .step false [.leaf 1 false, .box true 2 [.leaf 3 false, .leaf 4 false], .rnn 5 false] ∧
    (∀ j ∈ boxesAll [.leaf 1 false, .box true 2 [.leaf 3 false, .leaf 4 false], .rnn 5 false],
      j ∉ workersAll [.leaf 1 false, .box true 2 [.leaf 3 false, .leaf 4 false], .rnn 5 false]) := by
  simp [HookableAll, Hookable, boxesAll, boxes, workersAll, workers]

/-- `nn.ReLU` with a hook that adds 1, then a convolution (here: times 10): `forward` gives 40 for 3, `forward_step` 50. -/
example : Hooks.value (fun i _ (x : Int) => if i = 1 then max x 0 else 10 * x) (fun _ => id) (fun i x => if i = 1 then x + 1 else x)
      (Hooks.method Ctx.init .forward (.box false 0 [.naive 1 false, .leaf 2 false]) fun _ => .tok .forward).trace 3 = 40 ∧
    Hooks.value (fun i _ (x : Int) => if i = 1 then max x 0 else 10 * x) (fun _ => id) (fun i x => if i = 1 then x + 1 else x)
      (Hooks.method Ctx.init .step (.box false 0 [.naive 1 false, .leaf 2 false]) fun _ => .tok .forward).trace 3 = 50 := by
  decide

end CoInf
