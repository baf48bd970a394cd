/-
Property C24: `Conditional`.
-/
import Verif.Model.Conditional
import Verif.Lemmas.Parallel
import Verif.Props.Pad

set_option autoImplicit false

namespace CoInf
open Spec
variable {X : Type}

/-- Calls that `Conditional` passes on as they are: `forward`, `forward_step` with any flag, and `forward_steps` with the
default flags. -/
def PassedOn : Call (.stream X) → Prop
  | .step _ _ => True
  | .steps p u _ => p = false ∧ u = true
  | .clean => False
  | .fwd _ => True

theorem calls_embed {M N : CoMod (.stream X) (.stream X)} (R : M.Inst → N.Inst → Prop)
    (hfwd : ∀ {i j} xs, R i j → (∃ e, M.fwd i xs = .error e ∧ N.fwd j xs = .error e) ∨
      ∃ o i' j', M.fwd i xs = .ok (o, i') ∧ N.fwd j xs = .ok (o, j') ∧ R i' j')
    (hstep : ∀ {i j} u x, R i j → (∃ e, M.step i u x = .error e ∧ N.step j u x = .error e) ∨
      ∃ o i' j', M.step i u x = .ok (o, i') ∧ N.step j u x = .ok (o, j') ∧ R i' j')
    (hsteps : ∀ {i j} xs, R i j → (∃ e, M.steps i false true xs = .error e ∧ N.steps j false true xs = .error e) ∨
      ∃ o i' j', M.steps i false true xs = .ok (o, i') ∧ N.steps j false true xs = .ok (o, j') ∧ R i' j') :
    ∀ (cs : List (Call (.stream X))) {i j}, R i j → (∀ c ∈ cs, PassedOn c) → (calls M i cs).1 = (calls N j cs).1 := by
  intro cs
  induction cs with
  | nil => intro i j _ _; rfl
  | cons c cs ih =>
    intro i j hR hc
    have hcs : ∀ c ∈ cs, PassedOn c := fun c' h => hc c' (by simp [h])
    have key : (∃ e, call M i c = .error e ∧ call N j c = .error e) ∨
        ∃ r i' j', call M i c = .ok (r, i') ∧ call N j c = .ok (r, j') ∧ R i' j' := by
      have h0 := hc c (by simp)
      cases c with
      | step u x =>
        rcases hstep u x hR with ⟨e, h1, h2⟩ | ⟨o, i', j', h1, h2, h3⟩
        · exact .inl ⟨e, by simp only [call, h1, Except.map], by simp only [call, h2, Except.map]⟩
        · exact .inr ⟨.frame o, i', j', by simp only [call, h1, Except.map], by simp only [call, h2, Except.map], h3⟩
      | steps p u xs =>
        obtain ⟨rfl, rfl⟩ := h0
        rcases hsteps xs hR with ⟨e, h1, h2⟩ | ⟨o, i', j', h1, h2, h3⟩
        · exact .inl ⟨e, by simp only [call, h1, Except.map], by simp only [call, h2, Except.map]⟩
        · exact .inr ⟨.clip o, i', j', by simp only [call, h1, Except.map], by simp only [call, h2, Except.map], h3⟩
      | clean => exact absurd h0 id
      | fwd xs =>
        rcases hfwd xs hR with ⟨e, h1, h2⟩ | ⟨o, i', j', h1, h2, h3⟩
        · exact .inl ⟨e, by simp only [call, h1, Except.map], by simp only [call, h2, Except.map]⟩
        · exact .inr ⟨.whole o, i', j', by simp only [call, h1, Except.map], by simp only [call, h2, Except.map], h3⟩
    rcases key with ⟨e, h1, h2⟩ | ⟨r, i', j', h1, h2, h3⟩
    · simp only [calls, h1, h2]
    · simp only [calls, h1, h2]
      rw [ih h3 hcs]

/-- What a method returns and how it changes the part `π` of an object. -/
theorem mapped {α I J : Type} (r : Except Err (α × I)) (f : I → J) (R : J → I → Prop) (h : ∀ i, R (f i) i) :
    (∃ e, (r.map fun q => (q.1, f q.2)) = .error e ∧ r = .error e) ∨
      ∃ o i' j', (r.map fun q => (q.1, f q.2)) = .ok (o, i') ∧ r = .ok (o, j') ∧ R i' j' := by
  cases r with
  | error e => exact .inl ⟨e, rfl, rfl⟩
  | ok q => exact .inr ⟨q.1, _, q.2, rfl, rfl, h _⟩

/-- **C24**, what holds.  With a predicate that is always true (false), every script of `forward` calls, `forward_step`
calls with any `update_state` and `forward_steps` calls with the default flags shows on `Conditional(p, a, b)` exactly
what it shows on the delay-aligned branch `a` (`b`), exceptions included; without `b`, a false predicate gives the identity.
Missing: `clean_state` and the flags of `forward_steps`, which are refuted below. -/
theorem C24_branch_partial (zero : X) (p : Conditional.Pred X) (a b : CoMod (.stream X) (.stream X))
    (cs : List (Call (.stream X))) (hc : ∀ c ∈ cs, PassedOn c) :
    ((∀ x, p.frame x = true) → (∀ xs, p.clip xs = true) →
      (calls (Conditional.make zero p a (some b)) (Conditional.make zero p a (some b)).init cs).1 =
        (calls (Conditional.align zero (max a.delay b.delay) a) (Conditional.align zero (max a.delay b.delay) a).init cs).1 ∧
      (calls (Conditional.make zero p a none) (Conditional.make zero p a none).init cs).1 =
        (calls (Conditional.align zero (max a.delay 0) a) (Conditional.align zero (max a.delay 0) a).init cs).1) ∧
    ((∀ x, p.frame x = false) → (∀ xs, p.clip xs = false) →
      (calls (Conditional.make zero p a (some b)) (Conditional.make zero p a (some b)).init cs).1 =
        (calls (Conditional.align zero (max a.delay b.delay) b) (Conditional.align zero (max a.delay b.delay) b).init cs).1 ∧
      (calls (Conditional.make zero p a none) (Conditional.make zero p a none).init cs).1 =
        (calls (Pointwise.mod fun x : X => x) () cs).1) := by
  constructor
  · intro h1 h2
    constructor
    · refine calls_embed (M := Conditional.make zero p a (some b)) (N := Conditional.align zero (max a.delay b.delay) a)
        (fun i j => i.1 = j) ?_ ?_ ?_ cs rfl hc
      · rintro ⟨i, k⟩ j xs rfl
        simp only [h2, if_true]
        exact mapped _ (fun i => (i, k)) _ fun _ => rfl
      · rintro ⟨i, k⟩ j u x rfl
        simp only [h1, if_true]
        exact mapped _ (fun i => (i, k)) _ fun _ => rfl
      · rintro ⟨i, k⟩ j xs rfl
        simp only [h2, if_true]
        exact mapped _ (fun i => (i, k)) _ fun _ => rfl
    · have same : ∀ {α I : Type} (r : Except Err (α × I)), (∃ e, r = .error e ∧ r = .error e) ∨
          ∃ o i' j', r = .ok (o, i') ∧ r = .ok (o, j') ∧ i' = j' := by
        intro α I r
        cases r with
        | error e => exact .inl ⟨e, rfl, rfl⟩
        | ok q => exact .inr ⟨q.1, q.2, q.2, rfl, rfl, rfl⟩
      refine calls_embed (M := Conditional.make zero p a none) (N := Conditional.align zero (max a.delay 0) a)
        (fun i j => i = j) ?_ ?_ ?_ cs rfl hc
      · rintro i j xs rfl
        simp only [h2, if_true]; exact same _
      · rintro i j u x rfl
        simp only [h1, if_true]; exact same _
      · rintro i j xs rfl
        simp only [h2, if_true]; exact same _
  · intro h1 h2
    constructor
    · refine calls_embed (M := Conditional.make zero p a (some b)) (N := Conditional.align zero (max a.delay b.delay) b)
        (fun i j => i.2 = j) ?_ ?_ ?_ cs rfl hc
      · rintro ⟨k, i⟩ j xs rfl
        simp only [h2]
        exact mapped _ (fun i => (k, i)) _ fun _ => rfl
      · rintro ⟨k, i⟩ j u x rfl
        simp only [h1]
        exact mapped _ (fun i => (k, i)) _ fun _ => rfl
      · rintro ⟨k, i⟩ j xs rfl
        simp only [h2]
        exact mapped _ (fun i => (k, i)) _ fun _ => rfl
    · refine calls_embed (M := Conditional.make zero p a none) (N := Pointwise.mod fun x : X => x)
        (fun _ _ => True) ?_ ?_ ?_ cs trivial hc
      · intro i j xs _
        simp only [h2]
        exact .inr ⟨xs, i, j, rfl, by simp, trivial⟩
      · intro i j u x _
        simp only [h1]
        exact .inr ⟨some x, i, j, rfl, rfl, trivial⟩
      · intro i j xs _
        simp only [h2]
        exact .inr ⟨some xs, i, j, rfl, by simp, trivial⟩

/-- **C24**, alignment: both branches get the delay of the slower one. -/
theorem C24_alignment (zero : X) (m : CoMod (.stream X) (.stream X)) (d : Int) (hm : m.delay = (m.rf : Int) - 1 - m.padding)
    (hrf : 1 ≤ m.rf) (hd : m.delay ≤ d) : (Conditional.align zero d m).delay = d := by
  unfold Conditional.align
  split
  · assumption
  · simp only [Chain.rfOf, Chain.paddingOf, Chain.geos, List.reverse_cons, List.reverse_nil, List.nil_append,
      List.cons_append, List.foldl_cons, List.foldl_nil]
    omega

/-- **C24** is false for `clean_state`, which does nothing: for every `Conditional`. -/
theorem C24_clean_refuted (zero : X) (p : Conditional.Pred X) (a : CoMod (.stream X) (.stream X))
    (b : Option (CoMod (.stream X) (.stream X))) (i : (Conditional.make zero p a b).Inst) :
    (Conditional.make zero p a b).clean i = i := by
  cases b <;> rfl

/-- **C24** is false for the flags of `forward_steps`: for every `Conditional` they have no effect at all. -/
theorem C24_flags_refuted (zero : X) (p : Conditional.Pred X) (a : CoMod (.stream X) (.stream X))
    (b : Option (CoMod (.stream X) (.stream X))) (i : (Conditional.make zero p a b).Inst) (pe u : Bool) (xs : List X) :
    (Conditional.make zero p a b).steps i pe u xs = (Conditional.make zero p a b).steps i false true xs := by
  cases b <;> rfl

/-- The predicate that is always true. -/
def exYes : Conditional.Pred Int := ⟨fun _ => true, fun _ => true⟩

/-- The same on data: a convolution over three frames with 'same' padding, behind an always-true `Conditional`.  With
`pad_end=True` it loses the last frame; with `update_state=False` the probe is remembered; after `clean_state` the
next step still sees the old frames. -/
theorem C24_data_refuted :
    let M := Conditional.make 0 exYes (Conv.mod (exSum 3 1 1)) none
    let N := Conv.mod (exSum 3 1 1)
    (calls M M.init [.steps true true [1, 2, 3]]).1 = [.clip (some [3, 6])] ∧
    (calls N N.init [.steps true true [1, 2, 3]]).1 = [.clip (some [3, 6, 5])] ∧
    (calls M M.init [.steps false false [1, 2, 3], .step true 10]).1 = [.clip (some [3, 6]), .frame (some 15)] ∧
    (calls N N.init [.steps false false [1, 2, 3], .step true 10]).1 = [.clip (some [3, 6]), .frame none] ∧
    (calls M M.init [.steps false true [1, 2, 3], .clean, .step true 10]).1 =
      [.clip (some [3, 6]), .done, .frame (some 15)] ∧
    (calls N N.init [.steps false true [1, 2, 3], .clean, .step true 10]).1 =
      [.clip (some [3, 6]), .done, .frame none] :=
  ⟨rfl, rfl, rfl, rfl, rfl, rfl⟩

/-- A `Conditional` whose branches have different delays. -/
example : (Conditional.make 0 exYes (Conv.mod (exSum 3 1 1)) (some (Delay.mod { d := 4, fill := fun _ => 0 }))).delay = 4 ∧
    (calls (Conditional.make 0 exYes (Conv.mod (exSum 3 1 1)) (some (Delay.mod { d := 4, fill := fun _ => 0 })))
      (Conditional.make 0 exYes (Conv.mod (exSum 3 1 1)) (some (Delay.mod { d := 4, fill := fun _ => 0 }))).init
      [.steps false true [1, 2, 3, 4, 5], .step true 6]).1 = [.clip (some [3]), .frame (some 6)] :=
  ⟨rfl, rfl⟩

/-- **C24**, functional steps: the state handed back is that of the branch, not the pair of states the next call expects,
so for every stateful branch that hands back a state the second step fails. -/
theorem C24_functional_refuted (zero : X) (p : Conditional.Pred X) (hp : ∀ x, p.frame x = true)
    (a b : CoMod (.stream X) (.stream X)) {x : X} {o s}
    (h : (Conditional.align zero (max a.delay b.delay) a).pstep x none = .ok (o, some s)) (y : X) :
    ∃ s', (Conditional.make zero p a (some b)).pstep x none = .ok (o, s') ∧
      (Conditional.make zero p a (some b)).pstep y s' = .error .type := by
  have h' : (Conditional.align zero (Conditional.delayOf a (some b)) a).pstep x none = .ok (o, some s) := h
  refine ⟨some (.ofTrue s), ?_, ?_⟩
  · simp only [hp, if_true, Conditional.prevTrue, h', Except.map, Option.map]
  · simp only [hp, if_true, Conditional.prevTrue]

example : ∃ s', (Conditional.make 0 exYes (Conv.mod (exSum 3 1 1)) (some (Pointwise.mod id))).pstep 1 none = .ok (none, s') ∧
    (Conditional.make 0 exYes (Conv.mod (exSum 3 1 1)) (some (Pointwise.mod id))).pstep 2 s' = .error .type :=
  C24_functional_refuted 0 exYes (fun _ => rfl) (Conv.mod (exSum 3 1 1)) (Pointwise.mod id) rfl 2

end CoInf
