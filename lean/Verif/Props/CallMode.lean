/-
Properties C38, C39, C50, C51: call modes.
-/
import Verif.Spec.CallMode

set_option autoImplicit false

namespace CoInf
open Spec CallMode

/-! ### C38: the context manager -/

namespace CallMode

theorem dispatch_rest {g : Ctx} (h : g.prev = none) (m : Mode) : dispatch g (.tok m) = .ok m := by
  simp [dispatch, effective, h, lookup]

theorem enter_ok {a : Arg} {m : Mode} (h : modeOf a = some m) (g : Ctx) : g.enter a = (⟨some (.tok m), g.cur⟩, none) := by
  cases a with
  | val v => cases v with
    | tok m' => cases h; rfl
    | str m' => cases h; rfl
    | copy m' => cases h
  | unknown => cases h
  | int => cases h

/-- A body without blocks runs under the context in force and leaves it alone. -/
theorem exec_noWith {ov : Option Mode} {g : Ctx} (hd : ∀ own, dispatch g (.tok own) = .ok (ov.getD own)) :
    ∀ {p : Prog}, NoWith p → exec g p = ((dynScope ov p).1, (dynScope ov p).2, g) := by
  intro p
  induction p with
  | done => intro _; rfl
  | call own r ih => intro h; simp only [exec, hd, ih h, dynScope]
  | within a b r _ _ => intro h; exact h.elim
  | raise => intro _; rfl
  | attempt b r ihb ihr => intro h; simp only [exec, ihb h.1, ihr h.2, dynScope]

end CallMode

/-- **C38**, the part that holds: programs whose `with` blocks are not nested.  Started with no block active, the modules
run the modes that scoping prescribes, exceptions included, and afterwards the context is what it was before. -/
theorem C38_unnested_partial (p : Prog) (hp : FlatProg p) (cur : MV) :
    exec ⟨some cur, none⟩ p = ((dynScope none p).1, (dynScope none p).2, ⟨some cur, none⟩) := by
  induction p with
  | done => rfl
  | call own r ih => simp only [exec, dispatch_rest (g := ⟨some cur, none⟩) rfl, ih hp, dynScope, Option.getD_none]
  | within a b r _ ih =>
    obtain ⟨m, hm⟩ := Option.ne_none_iff_exists'.1 hp.1
    have hb := exec_noWith (ov := some m) (g := ⟨some (.tok m), some cur⟩) (fun _ => rfl) hp.2.1
    simp only [exec, enter_ok hm, hb, Ctx.exit, ih hp.2.2, dynScope, hm]
    split <;> rfl
  | raise => rfl
  | attempt b r ihb ihr => simp only [exec, ihb hp.1, ihr hp.2, dynScope]

/-- **C38** is false for nested blocks, whatever the two modes: after the inner block the module runs its own mode instead of
the mode of the enclosing block, and afterwards no override is ever in force again in an unnested block
(`C38_dead_refuted`). -/
theorem C38_nested_refuted (a b own : Mode) (cur : MV) :
    let p := Prog.within (.val (.tok a)) (.within (.val (.tok b)) (.call own .done) (.call own .done)) .done
    exec ⟨some cur, none⟩ p = ([b, own], false, ⟨none, none⟩) ∧ dynScope none p = ([b, a], false) := ⟨rfl, rfl⟩

/-- **C38** is false after a nested block has been left: every later unnested `with` block is ignored, for ever. -/
theorem C38_dead_refuted (p : Prog) (hp : FlatProg p) :
    exec ⟨none, none⟩ p = ((ignoring p).1, (ignoring p).2, ⟨none, none⟩) := by
  have plain : ∀ {q : Prog} (g : Ctx), g.prev = none → NoWith q → exec g q = ((ignoring q).1, (ignoring q).2, g) := by
    intro q g hg
    induction q with
    | done => intro _; rfl
    | call own r ih => intro h; simp only [exec, dispatch_rest hg, ih h, ignoring]
    | within a b r _ _ => intro h; exact h.elim
    | raise => intro _; rfl
    | attempt b r ihb ihr => intro h; simp only [exec, ihb h.1, ihr h.2, ignoring]
  induction p with
  | done => rfl
  | call own r ih => simp only [exec, dispatch_rest (g := ⟨none, none⟩) rfl, ih hp, ignoring]
  | within a b r _ ih =>
    obtain ⟨m, hm⟩ := Option.ne_none_iff_exists'.1 hp.1
    simp only [exec, enter_ok hm, plain ⟨some (.tok m), none⟩ rfl hp.2.1, Ctx.exit, ih hp.2.2, ignoring]
    split <;> rfl
  | raise => rfl
  | attempt b r ihb ihr => simp only [exec, ihb hp.1, ihr hp.2, ignoring]

/-- **C38** is false after a mode with an invalid name: the block is not entered, but the module whose own mode is `own` runs
the mode that was current in the context (`forward` in a new process) until the next block is left. -/
theorem C38_invalid_refuted (a : Arg) (ha : a = .unknown ∨ a = .int) (body : Prog) (m own : Mode) :
    let p := Prog.attempt (.within a body .done) (.call own .done)
    exec ⟨some (.tok m), none⟩ p = ([m], false, ⟨some (.tok m), some (.tok m)⟩) ∧ dynScope none p = ([own], false) := by
  rcases ha with rfl | rfl <;> exact ⟨rfl, rfl⟩

/-- Two blocks in a row, the first left by a caught exception, with calls before, between, inside and after. -/
def exProg : Prog :=
  .call .step (.attempt (.within (.val (.str .steps)) (.call .step .raise) .done)
    (.call .forward (.within (.val (.tok .forward)) (.call .step (.call .steps .done)) (.call .step .done))))

example : exec Ctx.init exProg = ([.step, .steps, .forward, .forward, .forward, .step], false, Ctx.init) ∧
    dynScope none exProg = ([.step, .steps, .forward, .forward, .forward, .step], false) :=
  ⟨C38_unnested_partial exProg (by simp [exProg, FlatProg, NoWith, modeOf]) _, rfl⟩

example : exec ⟨none, none⟩ exProg = ([.step, .step, .forward, .step, .steps, .step], false, ⟨none, none⟩) :=
  C38_dead_refuted exProg (by simp [exProg, FlatProg, NoWith, modeOf])

/-! ### C39: methods of containers -/

namespace CallMode

theorem setAttr_self (σ : Modes) (i : Nat) (v : MV) : setAttr σ i v i = v := if_pos rfl
theorem setAttr_of_ne (σ : Modes) {i j : Nat} (v : MV) (h : j ≠ i) : setAttr σ i v j = σ j := if_neg h

theorem setAttr_keep {σ : Modes} {i j : Nat} {v : MV} (h : σ j = v) : setAttr σ i v j = v := by
  unfold setAttr; split
  · rfl
  · exact h

mutual
theorem assign_keep {m : Mode} : ∀ (t : Tree) {σ : Modes} {j : Nat}, σ j = .tok m → assign (.tok m) t σ j = .tok m
  | .leaf _ _, _, _, h => setAttr_keep h
  | .rnn _ _, _, _, h => setAttr_keep h
  | .naive _ _, _, _, h => setAttr_keep h
  | .box _ _ cs, _, _, h => assignAll_keep cs (setAttr_keep h)
  | .cond _ _, _, _, h => setAttr_keep h
  | .condId _, _, _, h => setAttr_keep h
theorem assignAll_keep {m : Mode} : ∀ (ts : List Tree) {σ : Modes} {j : Nat}, σ j = .tok m →
    assignAll (.tok m) ts σ j = .tok m
  | [], _, _, h => h
  | t :: ts, _, _, h => assignAll_keep ts (assign_keep t h)
end

/-- Direct members made by `forward_stepping` occur only below containers that assign mode objects. -/
theorem assign_own {k : Kind} {raw : Bool} {M : Mode} {c : Tree} (h : Plain k raw c) (σ : Modes) :
    assign (childMode raw M) c σ c.id = .tok M := by
  cases c with
  | leaf i b => cases raw <;> exact setAttr_self _ _ _
  | rnn i b => cases raw <;> exact setAttr_self _ _ _
  | naive i b => obtain ⟨_, rfl⟩ := h; exact setAttr_self _ _ _
  | box r i cs => cases raw <;> exact assignAll_keep cs (setAttr_self _ _ _)
  | cond i c => cases raw <;> exact setAttr_self _ _ _
  | condId i => cases raw <;> exact setAttr_self _ _ _

theorem fits_self (M : Mode) : fits M M = true := by cases M <;> rfl

/-- No block active. -/
theorem accept_rest {g : Ctx} (hg : g.prev = none) (M : Mode) : accept M (dispatch g (.tok M)) = .ok M := by
  rw [dispatch_rest hg]; simp [accept, fits_self]

theorem naive_rest {g : Ctx} (hg : g.prev = none) (M : Mode) : naiveDispatch g (.tok M) = .ok M := by
  simp [naiveDispatch, effective, hg, lookup]

mutual
theorem method_trace {g : Ctx} (hg : g.prev = none) {M : Mode} : ∀ (t : Tree) {raw : Bool}, Plain ⟨M ≠ .forward, true⟩ raw t →
    (M = .forward → ∀ i b, t ≠ .naive i b) → ∀ σ, (method g M t σ).trace = (workers t).map (·, M) ∧ (method g M t σ).err = none
  | .leaf i b, _, h, _, σ => by cases h; exact ⟨rfl, rfl⟩
  | .rnn i b, _, h, _, σ => by obtain ⟨rfl, _⟩ := h; exact ⟨rfl, rfl⟩
  | .naive i b, _, h, hn, σ => by
    obtain ⟨rfl, _⟩ := h
    cases M with
    | forward => exact absurd rfl (hn rfl i false)
    | steps => exact ⟨rfl, rfl⟩
    | step => exact ⟨rfl, rfl⟩
  | .box r i cs, _, h, _, σ => children_trace hg cs h σ
  | .cond i c, _, h, _, σ => by
    obtain ⟨h1, h2⟩ := h
    cases M with
    | forward => simp at h1
    | steps => exact method_trace hg c h2 (by simp) σ
    | step => exact method_trace hg c h2 (by simp) σ
  | .condId i, _, _, _, σ => ⟨rfl, rfl⟩
theorem invoke_trace {g : Ctx} (hg : g.prev = none) {M : Mode} : ∀ (t : Tree) {raw : Bool}, Plain ⟨M ≠ .forward, true⟩ raw t →
    ∀ {σ}, σ t.id = .tok M → (invoke g M t σ).trace = (workers t).map (·, M) ∧ (invoke g M t σ).err = none
  | .leaf i b, _, h, σ, hσ => by
    cases h
    have hσ : σ i = .tok M := hσ
    simp only [invoke, hσ, accept_rest hg]; exact ⟨rfl, rfl⟩
  | .rnn i b, _, h, σ, hσ => by
    obtain ⟨rfl, _⟩ := h
    have hσ : σ i = .tok M := hσ
    by_cases hM : M = .forward
    · subst hM; exact ⟨rfl, rfl⟩
    · simp only [invoke, hM, if_false, hσ, accept_rest hg]; exact ⟨rfl, rfl⟩
  | .naive i b, _, h, σ, hσ => by
    obtain ⟨rfl, _⟩ := h
    have hσ : σ i = .tok M := hσ
    simp only [invoke, hσ, naive_rest hg, accept, fits_self, if_true]; exact ⟨rfl, rfl⟩
  | .box r i cs, _, h, σ, hσ => by
    have hσ : σ i = .tok M := hσ
    simp only [invoke, hσ, accept_rest hg]
    exact children_trace hg cs h σ
  | .cond i c, _, h, σ, hσ => by
    have hσ : σ i = .tok M := hσ
    obtain ⟨h1, h2⟩ := h
    cases M with
    | forward => simp at h1
    | steps => simp only [invoke, hσ, accept_rest hg]; exact method_trace hg c h2 (by simp) σ
    | step => simp only [invoke, hσ, accept_rest hg]; exact method_trace hg c h2 (by simp) σ
  | .condId i, _, h, σ, hσ => by
    have hσ : σ i = .tok M := hσ
    simp only [invoke, hσ, accept_rest hg]; simp [workers]
theorem children_trace {g : Ctx} (hg : g.prev = none) {M : Mode} : ∀ (ts : List Tree) {raw : Bool},
    PlainAll ⟨M ≠ .forward, true⟩ raw ts → ∀ σ,
      (children g M raw ts σ).trace = (workersAll ts).map (·, M) ∧ (children g M raw ts σ).err = none
  | [], _, _, σ => ⟨rfl, rfl⟩
  | c :: cs, raw, h, σ => by
    obtain ⟨h1, h2⟩ := invoke_trace hg c h.1 (assign_own h.1 σ)
    obtain ⟨h3, h4⟩ := children_trace hg cs h.2 (assign (σ c.id) c (invoke g M c (assign (childMode raw M) c σ)).modes)
    simp only [children, h2, h1, h3, h4, workersAll, List.map_append]
    simp
end

end CallMode

/-- **C39**, the part that holds, executed modes: with no `co.call_mode` block active, `net.forward`, `net.forward_steps` and
`net.forward_step` of a container run exactly that method in every descendant, whatever `call_mode` values the container
and its descendants carry.  Not covered: members made by `forward_stepping` directly inside `BroadcastReduce` (C50), and
`Conditional` for `net.forward`. -/
theorem C39_explicit_mode_partial (g : Ctx) (hg : g.prev = none) (M : Mode) (raw : Bool) (i : Nat) (cs : List Tree)
    (h : PlainAll ⟨M ≠ .forward, true⟩ raw cs) (σ : Modes) :
    (method g M (.box raw i cs) σ).trace = (workersAll cs).map (·, M) ∧ (method g M (.box raw i cs) σ).err = none :=
  method_trace hg (.box raw i cs) (raw := raw) h (by simp) σ

/-! #### Attributes afterwards -/

namespace CallMode

mutual
theorem assign_eq {k : Kind} (hk : k.cond = false) (m : Mode) : ∀ (t : Tree) {raw : Bool}, Plain k raw t → ∀ (v : MV), norm v = .tok m →
    (∀ i b, t = .naive i b → v = .tok m) → ∀ (σ : Modes) (j : Nat), assign v t σ j = if j ∈ objects t then .tok m else σ j
  | .leaf i b, _, _, v, hv, _, σ, j => by simp [assign, hv, setAttr, objects]
  | .rnn i b, _, _, v, hv, _, σ, j => by simp [assign, hv, setAttr, objects]
  | .naive i b, _, _, v, _, hn, σ, j => by simp [assign, hn i b rfl, setAttr, objects]
  | .box r i cs, _, h, v, hv, _, σ, j => by
    simp only [assign, hv, objects]
    rw [assignAll_eq hk m cs h]
    simp only [List.mem_cons]
    by_cases h1 : j ∈ objectsAll cs
    · simp [h1]
    · by_cases h2 : j = i <;> simp [h1, h2, setAttr]
  | .cond i c, _, h, v, hv, _, σ, j => by have := h.1; rw [hk] at this; cases this
  | .condId i, _, _, v, hv, _, σ, j => by simp [assign, hv, setAttr, objects]
theorem assignAll_eq {k : Kind} (hk : k.cond = false) (m : Mode) : ∀ (ts : List Tree) {raw : Bool}, PlainAll k raw ts → ∀ (σ : Modes) (j : Nat),
    assignAll (.tok m) ts σ j = if j ∈ objectsAll ts then .tok m else σ j
  | [], _, _, σ, j => by simp [assignAll, objectsAll]
  | t :: ts, _, h, σ, j => by
    simp only [assignAll, objectsAll, List.mem_append]
    rw [assignAll_eq hk m ts h.2, assign_eq hk m t h.1 (.tok m) rfl (fun _ _ _ => rfl)]
    by_cases h1 : j ∈ objectsAll ts <;> by_cases h2 : j ∈ objects t <;> simp [h1, h2]
end

/-- The temporary assignment to a member reaches all of its objects. -/
theorem assign_child {k : Kind} (hk : k.cond = false) {raw : Bool} {c : Tree} (h : Plain k raw c) (M : Mode) (σ : Modes) (j : Nat) :
    assign (childMode raw M) c σ j = if j ∈ objects c then .tok M else σ j := by
  apply assign_eq hk M c h
  · cases raw <;> rfl
  · intro i b hc; subst hc; obtain ⟨_, rfl⟩ := h; rfl

mutual
theorem objects_self : ∀ t : Tree, t.id ∈ objects t
  | .leaf _ _ | .rnn _ _ | .naive _ _ | .condId _ => by simp [objects, Tree.id]
  | .box _ _ _ => by simp [objects, Tree.id]
  | .cond _ _ => by simp [objects, Tree.id]
end

mutual
theorem invoke_modes {g : Ctx} (hg : g.prev = none) {M : Mode} : ∀ (t : Tree) {raw : Bool}, Plain ⟨false, true⟩ raw t →
    ∀ {σ : Modes}, (∀ j ∈ objects t, σ j = .tok M) → (invoke g M t σ).modes = σ ∧ (invoke g M t σ).err = none
  | .leaf i b, _, h, σ, hσ => by
    cases h
    have hσ : σ i = .tok M := hσ i (by simp [objects])
    simp only [invoke, hσ, accept_rest hg]; exact ⟨rfl, rfl⟩
  | .rnn i b, _, h, σ, hσ => by
    obtain ⟨rfl, _⟩ := h
    have hσ : σ i = .tok M := hσ i (by simp [objects])
    by_cases hM : M = .forward
    · subst hM; exact ⟨rfl, rfl⟩
    · simp only [invoke, hM, if_false, hσ, accept_rest hg]; exact ⟨rfl, rfl⟩
  | .naive i b, _, h, σ, hσ => by
    obtain ⟨rfl, _⟩ := h
    have hσ : σ i = .tok M := hσ i (by simp [objects])
    simp only [invoke, hσ, naive_rest hg, accept, fits_self, if_true]; exact ⟨rfl, rfl⟩
  | .box r i cs, _, h, σ, hσ => by
    have h1 : σ i = .tok M := hσ i (by simp [objects])
    simp only [invoke, h1, accept_rest hg]
    exact children_modes hg cs h (fun j hj => hσ j (by simp [objects, hj]))
  | .cond i c, _, h, σ, hσ => by simp [Plain] at h
  | .condId i, _, h, σ, hσ => by
    have hσ : σ i = .tok M := hσ i (by simp [objects])
    simp only [invoke, hσ, accept_rest hg]; simp [workers]
theorem children_modes {g : Ctx} (hg : g.prev = none) {M : Mode} : ∀ (ts : List Tree) {raw : Bool},
    PlainAll ⟨false, true⟩ raw ts → ∀ {σ : Modes}, (∀ j ∈ objectsAll ts, σ j = .tok M) →
      (children g M raw ts σ).modes = σ ∧ (children g M raw ts σ).err = none
  | [], _, _, σ, _ => ⟨rfl, rfl⟩
  | c :: cs, raw, h, σ, hσ => by
    have e1 : assign (childMode raw M) c σ = σ := by
      funext j
      rw [assign_child rfl h.1]
      split
      · rename_i hj; exact (hσ j (by simp [objectsAll, hj])).symm
      · rfl
    obtain ⟨h1, h2⟩ := invoke_modes hg c h.1 (σ := σ) (fun j hj => hσ j (by simp [objectsAll, hj]))
    have h3 : σ c.id = .tok M := hσ c.id (by simp [objectsAll, objects_self])
    have e2 : assign (.tok M) c σ = σ := by
      funext j
      rw [assign_eq rfl M c h.1 (.tok M) rfl (fun _ _ _ => rfl)]
      split
      · rename_i hj; exact (hσ j (by simp [objectsAll, hj])).symm
      · rfl
    obtain ⟨h4, h5⟩ := children_modes hg cs h.2 (σ := σ) (fun j hj => hσ j (by simp [objectsAll, hj]))
    simp only [children, e1, h2, h1, h3, e2, h4, h5]
    exact ⟨trivial, trivial⟩
end

end CallMode

/-- The attributes after a successful explicit call: the objects of the members, in order, get the mode of their member. -/
def Spec.overwritten : List Tree → Modes → Modes
  | [], σ => σ
  | c :: cs, σ => overwritten cs fun j => if j ∈ objects c then σ c.id else σ j

/-- **C39**, attributes: after an explicit method call of a container (without `Conditional` members, no block active, every
member carries one of the three modes) every descendant of a direct member carries the mode of that member; everything
else is unchanged. -/
theorem C39_attributes_after (g : Ctx) (hg : g.prev = none) (M : Mode) (raw : Bool) (i : Nat) (cs : List Tree)
    (h : PlainAll ⟨false, true⟩ raw cs) (σ : Modes) (hσ : ∀ j ∈ objectsAll cs, ∃ m, σ j = .tok m) :
    (method g M (.box raw i cs) σ).modes = overwritten cs σ := by
  show (children g M raw cs σ).modes = _
  induction cs generalizing σ with
  | nil => rfl
  | cons c cs ih =>
    obtain ⟨h1, h2⟩ := invoke_modes hg (M := M) c h.1 (σ := assign (childMode raw M) c σ)
      (fun j hj => by rw [assign_child rfl h.1, if_pos hj])
    obtain ⟨m, hm⟩ := hσ c.id (by simp [objectsAll, objects_self])
    have e2 : assign (σ c.id) c (assign (childMode raw M) c σ) = fun j => if j ∈ objects c then σ c.id else σ j := by
      funext j
      rw [hm, assign_eq rfl m c h.1 (.tok m) rfl (fun _ _ _ => rfl), assign_child rfl h.1]
      split <;> simp_all
    simp only [children, h2, h1, e2, overwritten]
    apply ih h.2
    intro j hj
    by_cases hc : j ∈ objects c
    · exact ⟨m, by simp [hc, hm]⟩
    · simp only [hc, if_false]; exact hσ j (by simp [objectsAll, hj])

/-- **C39**, the part of the restoration that holds: if all objects of every direct member carry the same mode as the member,
the attributes are afterwards what they were. -/
theorem C39_restores_partial (g : Ctx) (hg : g.prev = none) (M : Mode) (raw : Bool) (i : Nat) (cs : List Tree)
    (h : PlainAll ⟨false, true⟩ raw cs) (σ : Modes) (hσ : ∀ c ∈ cs, ∃ m, ∀ j ∈ objects c, σ j = .tok m) :
    (method g M (.box raw i cs) σ).modes = σ := by
  rw [C39_attributes_after g hg M raw i cs h σ]
  · clear h
    induction cs with
    | nil => rfl
    | cons c cs ih =>
      obtain ⟨m, hm⟩ := hσ c (by simp)
      have e : (fun j => if j ∈ objects c then σ c.id else σ j) = σ := by
        funext j
        by_cases hj : j ∈ objects c
        · simp [hj, hm j hj, hm c.id (objects_self c)]
        · simp [hj]
      simp only [overwritten, e]
      exact ih fun c' hc' => hσ c' (by simp [hc'])
  · clear h
    induction cs with
    | nil => intro j hj; cases hj
    | cons c cs ih =>
      intro j hj
      simp only [objectsAll, List.mem_append] at hj
      rcases hj with hj | hj
      · obtain ⟨m, hm⟩ := hσ c (by simp); exact ⟨m, hm j hj⟩
      · exact ih (fun c' hc' => hσ c' (by simp [hc'])) j hj

/-- **C39** is false: an explicit call overwrites the mode of a grandchild that differs from the mode of its container. -/
theorem C39_overwrites_refuted (M a b : Mode) (raw raw' : Bool) :
    let σ : Modes := fun j => if j = 2 then .tok b else .tok a
    (method Ctx.init M (.box raw 0 [.box raw' 1 [.leaf 2 false]]) σ).modes 2 = .tok a ∧ σ 2 = .tok b := by
  intro σ
  refine ⟨?_, rfl⟩
  rw [C39_attributes_after Ctx.init rfl M raw 0 [.box raw' 1 [.leaf 2 false]] (by simp [PlainAll, Plain]) σ
    (by simp [objectsAll, objects, σ])]
  rfl

/-- **C39** is false: if a member raises, it keeps the temporary mode. -/
theorem C39_exception_refuted (M : Mode) (raw : Bool) (σ : Modes) (g : Ctx) (hg : g.prev = none) :
    (method g M (.box raw 0 [.leaf 1 true]) σ).err = some .runtime ∧
    (method g M (.box raw 0 [.leaf 1 true]) σ).modes 1 = .tok M := by
  have e := assign_own (k := ⟨true, true⟩) (raw := raw) (M := M) (c := .leaf 1 false) rfl σ
  have e' : assign (childMode raw M) (.leaf 1 true) σ 1 = .tok M := e
  simp only [method, children, invoke, e', accept_rest hg, perform, if_true]
  exact ⟨trivial, trivial⟩

/-- **C39** is false for `Conditional`: `net.forward` runs its branch in whatever mode the branch carries. -/
theorem C39_conditional_refuted (m : Mode) (raw : Bool) (σ : Modes) (hσ : σ 2 = .tok m) :
    (method Ctx.init .forward (.box raw 0 [.cond 1 (.leaf 2 false)]) σ).trace = [(2, m)] := by
  have h1 : assign (childMode raw .forward) (.cond 1 (.leaf 2 false)) σ 1 = .tok .forward := by cases raw <;> rfl
  have h2 : assign (childMode raw .forward) (.cond 1 (.leaf 2 false)) σ 2 = .tok m := by cases raw <;> exact hσ
  have h3 : accept .forward (dispatch Ctx.init (.tok m)) = .ok m := rfl
  simp only [method, children, invoke, h1, accept_rest (g := Ctx.init) rfl, h2, h3, perform]
  rfl

namespace CallMode

/-- Inside a block with mode `m`. -/
def inBlock (m : Mode) (w : MV) : Ctx := ⟨some (.tok m), some w⟩

theorem accept_block {kw m : Mode} {w : MV} (hf : fits kw m) (v : MV) : accept kw (dispatch (inBlock m w) v) = .ok m := by
  simp [dispatch, effective, inBlock, lookup, accept, hf]

theorem naive_block {kw m : Mode} {w : MV} (hf : fits kw m) (v : MV) : accept kw (naiveDispatch (inBlock m w) v) = .ok m := by
  simp [naiveDispatch, effective, inBlock, lookup, accept, hf]

mutual
theorem invoke_block {m : Mode} {w : MV} : ∀ (t : Tree) {kw : Mode} {raw : Bool}, Plain ⟨false, false⟩ raw t → fits kw m → ∀ σ,
    (invoke (inBlock m w) kw t σ).trace = (workers t).map (·, m) ∧ (invoke (inBlock m w) kw t σ).err = none
  | .leaf i b, kw, _, h, hf, σ => by cases h; simp only [invoke, accept_block hf]; exact ⟨rfl, rfl⟩
  | .rnn i b, kw, _, h, hf, σ => by simp [Plain] at h
  | .naive i b, kw, _, h, hf, σ => by obtain ⟨rfl, _⟩ := h; simp only [invoke, naive_block hf]; exact ⟨rfl, rfl⟩
  | .box r i cs, kw, _, h, hf, σ => by simp only [invoke, accept_block hf]; exact children_block cs h (fits_self m) σ
  | .cond i c, kw, _, h, hf, σ => by simp [Plain] at h
  | .condId i, kw, _, h, hf, σ => by simp only [invoke, accept_block hf]; simp [workers]
theorem children_block {m : Mode} {w : MV} : ∀ (ts : List Tree) {M : Mode} {raw : Bool}, PlainAll ⟨false, false⟩ raw ts → fits M m → ∀ σ,
    (children (inBlock m w) M raw ts σ).trace = (workersAll ts).map (·, m) ∧ (children (inBlock m w) M raw ts σ).err = none
  | [], M, raw, _, _, σ => ⟨rfl, rfl⟩
  | c :: cs, M, raw, h, hf, σ => by
    obtain ⟨h1, h2⟩ := invoke_block (w := w) c h.1 hf (assign (childMode raw M) c σ)
    obtain ⟨h3, h4⟩ := children_block (w := w) cs h.2 hf
      (assign (σ c.id) c (invoke (inBlock m w) M c (assign (childMode raw M) c σ)).modes)
    simp only [children, h2, h1, h3, h4, workersAll, List.map_append]
    simp
end

end CallMode

/-- **C39** is false inside a `with co.call_mode(m)` block: an explicit call of method `M` runs method `m` in all descendants
(if `m` takes the arguments of `M`; otherwise see `C39_block_raises_refuted`). -/
theorem C39_block_refuted (m M : Mode) (w : MV) (hf : fits M m) (raw : Bool) (i : Nat) (cs : List Tree)
    (h : PlainAll ⟨false, false⟩ raw cs) (σ : Modes) :
    (method (inBlock m w) M (.box raw i cs) σ).trace = (workersAll cs).map (·, m) ∧
    (method (inBlock m w) M (.box raw i cs) σ).err = none := children_block cs h hf σ

/-- **C39** is false inside a block: `net.forward_step` and `net.forward_steps` raise inside a block whose mode takes fewer
arguments. -/
theorem C39_block_raises_refuted (m M : Mode) (w : MV) (hf : fits M m = false) (raw : Bool) (i j : Nat) (b : Bool) (cs : List Tree)
    (σ : Modes) : (method (inBlock m w) M (.box raw i (.leaf j b :: cs)) σ).err = some .type := by
  have : accept M (dispatch (inBlock m w) (assign (childMode raw M) (.leaf j b) σ j)) = .error .type := by
    simp [dispatch, effective, inBlock, lookup, accept, hf]
  simp only [method, children, invoke, this]

/-- A nested network: `Sequential(Conv, ReLU, BroadcastReduce(RNN, Sequential(ReLU, Parallel(Conv, Conv))))`. -/
def exTree : Tree := .box false 0 [.leaf 1 false, .naive 2 false, .box true 3 [.rnn 4 false, .box false 5 [.naive 6 false,
  .box false 7 [.leaf 8 false, .leaf 9 false]]]]

/-- Arbitrary modes. -/
def exModes : Modes := fun j => .tok (if j % 3 = 0 then .forward else if j % 3 = 1 then .steps else .step)

example : (method Ctx.init .step exTree exModes).trace = [(1, .step), (2, .step), (4, .step), (6, .step), (8, .step), (9, .step)] :=
  (C39_explicit_mode_partial Ctx.init rfl .step false 0 _ (by simp [PlainAll, Plain]) exModes).1

example : (method Ctx.init .steps exTree fun _ => .tok .step).modes = fun _ => .tok .step :=
  C39_restores_partial Ctx.init rfl .steps false 0 _ (by simp [PlainAll, Plain]) _ (fun _ _ => ⟨.step, fun _ _ => rfl⟩)

example : (method Ctx.init .steps exTree exModes).modes 8 = .tok .forward ∧ exModes 8 = .tok .step := by
  refine ⟨?_, rfl⟩
  rw [exTree, C39_attributes_after Ctx.init rfl .steps false 0 _ (by simp [PlainAll, Plain]) exModes (by simp [objectsAll, objects, exModes])]
  simp [overwritten, objects, objectsAll, Tree.id, exModes]

example : (method (inBlock .steps (.tok .forward)) .forward (.box false 0 [.leaf 1 false, .naive 2 false]) exModes).trace =
    [(1, .steps), (2, .steps)] :=
  (C39_block_refuted .steps .forward _ rfl false 0 _ (by simp [PlainAll, Plain]) exModes).1

/-! ### C50 -/

/-- **C50** is false: whatever method is called and whatever the modes are, a `BroadcastReduce` (or `Residual`) with a direct
member made by `forward_stepping` (also by automatic conversion, e.g. of `nn.ReLU`) raises `KeyError` as soon as it reaches
the member. -/
theorem C50_naive_member_refuted (g : Ctx) (hg : g.prev = none) (M : Mode) (i j : Nat) (b : Bool) (pre post : List Tree)
    (hpre : PlainAll ⟨M ≠ .forward, true⟩ true pre) (σ : Modes) :
    (method g M (.box true i (pre ++ .naive j b :: post)) σ).err = some .key ∧
    (method g M (.box true i (pre ++ .naive j b :: post)) σ).trace = (workersAll pre).map (·, M) := by
  show (children g M true (pre ++ .naive j b :: post) σ).err = _ ∧ (children g M true (pre ++ .naive j b :: post) σ).trace = _
  induction pre generalizing σ with
  | nil =>
    have e : assign (childMode true M) (.naive j b) σ j = .str M := setAttr_self _ _ _
    have e2 : naiveDispatch g (.str M) = .error .key := by simp [naiveDispatch, effective, hg, lookup]
    simp only [List.nil_append, children, invoke, e, e2, accept]
    exact ⟨trivial, rfl⟩
  | cons c cs ih =>
    obtain ⟨h1, h2⟩ := invoke_trace hg (M := M) c hpre.1 (assign_own hpre.1 σ)
    obtain ⟨h3, h4⟩ := ih hpre.2 (assign (σ c.id) c (invoke g M c (assign (childMode true M) c σ)).modes)
    simp only [List.cons_append, children, h2, h1, h3, h4, workersAll, List.map_append]
    exact ⟨trivial, trivial⟩

/-- **C50**, the part that holds: the same member inside a `Sequential` or `Parallel` runs the method that was called. -/
theorem C50_naive_member_partial (g : Ctx) (hg : g.prev = none) (M : Mode) (i j k : Nat) (pre post : List Tree)
    (hpre : PlainAll ⟨M ≠ .forward, true⟩ true pre) (hpost : PlainAll ⟨M ≠ .forward, true⟩ true post) (σ : Modes) :
    (method g M (.box true i (pre ++ .box false k [.naive j false] :: post)) σ).err = none ∧
    (method g M (.box true i (pre ++ .box false k [.naive j false] :: post)) σ).trace =
      (workersAll (pre ++ .box false k [.naive j false] :: post)).map (·, M) := by
  have h : PlainAll ⟨M ≠ .forward, true⟩ true (pre ++ .box false k [.naive j false] :: post) := by
    clear σ
    induction pre with
    | nil => exact ⟨⟨⟨rfl, rfl⟩, trivial⟩, hpost⟩
    | cons c cs ih => exact ⟨hpre.1, ih hpre.2⟩
  exact ⟨(C39_explicit_mode_partial g hg M true i _ h σ).2, (C39_explicit_mode_partial g hg M true i _ h σ).1⟩

example : (method Ctx.init .forward (.box true 0 [.leaf 1 false, .naive 2 false]) exModes).err = some .key :=
  (C50_naive_member_refuted Ctx.init rfl .forward 0 2 false [.leaf 1 false] [] (by simp [PlainAll, Plain]) exModes).1

/-! ### C51 -/

/-- The attribute of one module: `none` if only the class attribute `_call_mode = _callmode("forward")` exists (module.py:120),
otherwise the instance attribute. -/
abbrev CallMode.Slot := Option MV

/-- Reading `self.call_mode`. -/
def CallMode.Slot.read (s : Slot) : MV := s.getD (.tok .forward)

/-- `copy.deepcopy(module)` (also a `pickle` round trip): instance attributes are copied, so the tensor becomes another
object. -/
def CallMode.Slot.deepcopy : Slot → Slot
  | some (.tok m) => some (.copy m)
  | s => s

/-- **C51** is false: a copy of a module whose `call_mode` was ever assigned (by the user, or by a container that called it:
`temporary_parameter` assigns twice) raises `KeyError` when called. -/
theorem C51_deepcopy_refuted (g : Ctx) (hg : g.prev = none) (m : Mode) :
    dispatch g (Slot.read (some (.tok m))) = .ok m ∧ dispatch g (Slot.read (Slot.deepcopy (some (.tok m)))) = .error .key := by
  simp [Slot.read, Slot.deepcopy, dispatch, effective, hg, lookup]

/-- **C51**, the part that holds: modules whose mode was never assigned; and explicit method calls on a container. -/
theorem C51_deepcopy_partial (g : Ctx) (hg : g.prev = none) :
    dispatch g (Slot.read (Slot.deepcopy none)) = dispatch g (Slot.read none) ∧
    ∀ (M : Mode) (raw : Bool) (i : Nat) (cs : List Tree), PlainAll ⟨M ≠ .forward, true⟩ raw cs → ∀ s s' : Nat → Slot,
      (∀ j, s' j = (s j).deepcopy) →
      (method g M (.box raw i cs) fun j => (s' j).read).trace = (method g M (.box raw i cs) fun j => (s j).read).trace :=
  ⟨rfl, fun M raw i cs h s s' _ => by
    rw [(C39_explicit_mode_partial g hg M raw i cs h _).1, (C39_explicit_mode_partial g hg M raw i cs h _).1]⟩

example : dispatch Ctx.init (Slot.read (Slot.deepcopy (some (.tok .step)))) = .error .key := rfl

end CoInf
