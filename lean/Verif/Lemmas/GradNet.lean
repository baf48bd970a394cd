/-
Networks that remember the graph of earlier frames.
-/
import Verif.Lemmas.GradFlow

set_option autoImplicit false

namespace CoInf.Grad

open CoInf.Spec

/-! ### Shapes -/

/-- The parameters and states are those of the members. -/
def Shaped : Net → Inst → Prop
  | .one k, .one ps st => ps.length = k.leaf.params ∧ (∀ p ∈ ps, p.req = true) ∧
      ∀ s, st = some s → s.1.length = k.flows.length
  | .seq a b, .two ia ib => Shaped a ia ∧ Shaped b ib
  | .sum _ a b, .two ia ib => Shaped a ia ∧ Shaped b ib
  | _, _ => False

theorem keep_length (k : Kind) (first emit : Bool) : (k.leaf.keep first emit).length = k.flows.length := by
  have := congrArg List.length ((kind_flow k).1 first emit)
  simpa [Kind.after] using this

theorem step_shaped : ∀ (net : Net) (i : Inst) (x : Ten) (g : Graph), Shaped net i →
    Shaped net (net.step i x g).2.1
  | .one k, .one ps st, x, g, h => by
    refine ⟨h.1, h.2.1, ?_⟩
    intro s hs
    simp only [Leaf.step, Option.some.injEq] at hs
    subst hs
    simp only [List.length_map]
    exact keep_length k _ _
  | .seq a b, .two ia ib, x, g, h => by
    have ha := step_shaped a ia x g h.1
    simp only [Net.step]
    rcases hs : a.step ia x g with ⟨o, ia', g'⟩
    rw [hs] at ha
    cases o with
    | none => exact ⟨ha, h.2⟩
    | some y => exact ⟨ha, step_shaped b ib y g' h.2⟩
  | .sum mul a b, .two ia ib, x, g, h => by
    have ha := step_shaped a ia x g h.1
    simp only [Net.step]
    rcases hs : a.step ia x g with ⟨o, ia', g'⟩
    rw [hs] at ha
    have hb := step_shaped b ib x g' h.2
    simp only
    rcases hs' : b.step ib x g' with ⟨o', ib', g''⟩
    rw [hs'] at hb
    cases o <;> cases o' <;> exact ⟨ha, hb⟩
  | .one _, .two _ _, _, _, h => h.elim
  | .seq _ _, .one _ _, _, _, h => h.elim
  | .sum _ _ _, .one _ _, _, _, h => h.elim

theorem stream_shaped (net : Net) : ∀ (n : Nat) (i : Inst) (g : Graph), Shaped net i →
    Shaped net (net.stream n i g).2.1
  | 0, _, _, h => h
  | n + 1, i, g, h => step_shaped net _ _ _ (stream_shaped net n i g h)

theorem step_params : ∀ (net : Net) (i : Inst) (x : Ten) (g : Graph), (net.step i x g).2.1.params = i.params
  | .one k, .one ps st, x, g => rfl
  | .seq a b, .two ia ib, x, g => by
    have ha := step_params a ia x g
    simp only [Net.step]
    rcases hs : a.step ia x g with ⟨o, ia', g'⟩
    rw [hs] at ha
    cases o with
    | none => simp only [Inst.params] at ha ⊢; rw [ha]
    | some y =>
      have hb := step_params b ib y g'
      simp only [Inst.params] at ha hb ⊢
      rw [ha, hb]
  | .sum mul a b, .two ia ib, x, g => by
    have ha := step_params a ia x g
    simp only [Net.step]
    rcases hs : a.step ia x g with ⟨o, ia', g'⟩
    rw [hs] at ha
    have hb := step_params b ib x g'
    simp only
    rcases hs' : b.step ib x g' with ⟨o', ib', g''⟩
    rw [hs'] at hb
    cases o <;> cases o' <;> simp only [Inst.params] at ha hb ⊢ <;> rw [ha, hb]
  | .one _, .two _ _, _, _ => rfl
  | .seq _ _, .one _ _, _, _ => rfl
  | .sum _ _ _, .one _ _, _, _ => rfl

theorem stream_params (net : Net) : ∀ (n : Nat) (i : Inst) (g : Graph), (net.stream n i g).2.1.params = i.params
  | 0, _, _ => rfl
  | n + 1, i, g => (step_params net _ _ _).trans (stream_params net n i g)

/-- No member has a state. -/
def Blank : Inst → Prop
  | .one _ st => st = none
  | .two a b => Blank a ∧ Blank b

theorem clean_blank : ∀ i : Inst, Blank i.clean
  | .one _ _ => rfl
  | .two a b => ⟨clean_blank a, clean_blank b⟩

theorem clean_shaped : ∀ (net : Net) (i : Inst), Shaped net i → Shaped net i.clean
  | .one _, .one _ _, h => ⟨h.1, h.2.1, fun s hs => by cases hs⟩
  | .seq a b, .two ia ib, h => ⟨clean_shaped a ia h.1, clean_shaped b ib h.2⟩
  | .sum _ a b, .two ia ib, h => ⟨clean_shaped a ia h.1, clean_shaped b ib h.2⟩
  | .one _, .two _ _, h => h.elim
  | .seq _ _, .one _ _, h => h.elim
  | .sum _ _ _, .one _ _, h => h.elim

theorem build_blank : ∀ (net : Net) (g : Graph), Blank (net.build g).1
  | .one _, _ => rfl
  | .seq a b, g => ⟨build_blank a g, build_blank b _⟩
  | .sum _ a b, g => ⟨build_blank a g, build_blank b _⟩

theorem newParams_length : ∀ (n : Nat) (g : Graph), (newParams n g).1.length = n
  | 0, _ => rfl
  | n + 1, g => by simp [newParams, newParams_length n]

theorem build_shaped : ∀ (net : Net) (g : Graph), Shaped net (net.build g).1
  | .one k, g => ⟨newParams_length _ g, fun p hp => (newParams_fn _ g p hp).2.1, fun s hs => by cases hs⟩
  | .seq a b, g => ⟨build_shaped a g, build_shaped b _⟩
  | .sum _ a b, g => ⟨build_shaped a g, build_shaped b _⟩

/-! ### Relaying -/

/-- Every state depends on node `c`. -/
def FlowsOk (g : Graph) (c : Nat) : Net → Inst → Prop
  | .one k, .one _ st => ∀ s, st = some s → Kept g c k s
  | .seq a b, .two ia ib => FlowsOk g c a ia ∧ FlowsOk g c b ib
  | .sum _ a b, .two ia ib => FlowsOk g c a ia ∧ FlowsOk g c b ib
  | _, _ => True

theorem FlowsOk.later {g g' : Graph} {c : Nat} (l : Later g g') : ∀ {net : Net} {i : Inst}, FlowsOk g c net i →
    FlowsOk g' c net i
  | .one _, .one _ _, h => fun s hs => (h s hs).later l
  | .seq _ _, .two _ _, h => ⟨FlowsOk.later l h.1, FlowsOk.later l h.2⟩
  | .sum _ _ _, .two _ _, h => ⟨FlowsOk.later l h.1, FlowsOk.later l h.2⟩
  | .one _, .two _ _, _ => trivial
  | .seq _ _, .one _ _, _ => trivial
  | .sum _ _ _, .one _ _, _ => trivial

theorem blank_flows (g : Graph) (c : Nat) : ∀ (net : Net) (i : Inst), Blank i → FlowsOk g c net i
  | .one _, .one _ st, h => fun s hs => by rw [show st = none from h] at hs; cases hs
  | .seq a b, .two ia ib, h => ⟨blank_flows g c a ia h.1, blank_flows g c b ib h.2⟩
  | .sum _ a b, .two ia ib, h => ⟨blank_flows g c a ia h.1, blank_flows g c b ib h.2⟩
  | .one _, .two _ _, _ => trivial
  | .seq _ _, .one _ _, _ => trivial
  | .sum _ _ _, .one _ _, _ => trivial

theorem relay_step {c : Nat} : ∀ (net : Net), net.Fine → ∀ (i : Inst) (x : Ten) (g : Graph), g.on = true →
    Shaped net i → FlowsOk g c net i → Hits g.nodes x c →
    (∀ y, (net.step i x g).1 = some y → Hits (net.step i x g).2.2.nodes y c) ∧
    FlowsOk (net.step i x g).2.2 c net (net.step i x g).2.1
  | .one k, hk, .one ps st, x, g, hon, hs, hf, hx => by
    have h := leaf_relays (ps := ps) (st := st) hon hk hs.1 hx hf
    refine ⟨h.2, ?_⟩
    intro s hss
    obtain ⟨s', hs', hk'⟩ := h.1
    rw [show (k.leaf.step ps st x g).2.1 = some s from hss] at hs'
    cases hs'
    exact hk'
  | .seq a b, hk, .two ia ib, x, g, hon, hs, hf, hx => by
    have ha := relay_step a hk.1 ia x g hon hs.1 hf.1 hx
    have hl := step_later a ia x g
    simp only [Net.step]
    rcases hst : a.step ia x g with ⟨o, ia', g'⟩
    rw [hst] at ha hl
    cases o with
    | none => exact ⟨(fun y hy => by cases hy), ha.2, hf.2.later hl⟩
    | some y =>
      have hb := relay_step b hk.2 ib y g' (by rw [hl.on]; exact hon) hs.2 (hf.2.later hl) (ha.1 y rfl)
      exact ⟨hb.1, ha.2.later (step_later b ib y g'), hb.2⟩
  | .sum mul a b, hk, .two ia ib, x, g, hon, hs, hf, hx => by
    have ha := relay_step a hk.1 ia x g hon hs.1 hf.1 hx
    have hl := step_later a ia x g
    simp only [Net.step]
    rcases hst : a.step ia x g with ⟨o, ia', g'⟩
    rw [hst] at ha hl
    have hb := relay_step b hk.2 ib x g' (by rw [hl.on]; exact hon) hs.2 (hf.2.later hl) (hl.hits hx)
    have hl' := step_later b ib x g'
    simp only
    rcases hst' : b.step ib x g' with ⟨o', ib', g''⟩
    rw [hst'] at hb hl'
    have hf' : FlowsOk g'' c (.sum mul a b) (.two ia' ib') := ⟨ha.2.later hl', hb.2⟩
    cases o with
    | none => exact ⟨(fun y hy => by cases hy), hf'⟩
    | some y =>
      cases o' with
      | none => exact ⟨(fun y hy => by cases hy), hf'⟩
      | some z =>
        refine ⟨fun w hw => ?_, hf'.later (make_later ..)⟩
        cases hw
        exact make_hits (by rw [hl'.on, hl.on]; exact hon) ⟨y, by simp, hl'.hits (ha.1 y rfl)⟩
  | .one _, _, .two _ _, _, _, _, hs, _, _ => hs.elim
  | .seq _ _, _, .one _ _, _, _, _, hs, _, _ => hs.elim
  | .sum _ _ _, _, .one _ _, _, _, _, hs, _, _ => hs.elim

/-! ### Remembering -/

/-- A state of the network depends on node `c`. -/
inductive Sto (g : Graph) (c : Nat) : Net → Inst → Prop
  | leaf {k : Kind} {ps : List Ten} {s : St} (hk : k.stateful = true) (h : Kept g c k s) : Sto g c (.one k) (.one ps (some s))
  | seqL {a b : Net} {ia ib : Inst} (h : Sto g c a ia) : Sto g c (.seq a b) (.two ia ib)
  | seqR {a b : Net} {ia ib : Inst} (h : Sto g c b ib) : Sto g c (.seq a b) (.two ia ib)
  | sumL {m : Bool} {a b : Net} {ia ib : Inst} (h : Sto g c a ia) : Sto g c (.sum m a b) (.two ia ib)
  | sumR {m : Bool} {a b : Net} {ia ib : Inst} (h : Sto g c b ib) : Sto g c (.sum m a b) (.two ia ib)

theorem Sto.later {g g' : Graph} {c : Nat} (l : Later g g') {net : Net} {i : Inst} (h : Sto g c net i) :
    Sto g' c net i := by
  induction h with
  | leaf hk h => exact .leaf hk (Marked.later l h)
  | seqL _ ih => exact .seqL ih
  | seqR _ ih => exact .seqR ih
  | sumL _ ih => exact .sumL ih
  | sumR _ ih => exact .sumR ih

theorem sto_step {g : Graph} {c : Nat} {net : Net} {i : Inst} (h : Sto g c net i) (hon : g.on = true)
    (hs : Shaped net i) (x : Ten) : Sto (net.step i x g).2.2 c net (net.step i x g).2.1 := by
  -- for all later graphs
  suffices H : ∀ {net i}, Sto g c net i → Shaped net i → ∀ g', Later g g' → ∀ x,
      Sto (net.step i x g').2.2 c net (net.step i x g').2.1 from H h hs g (.refl g) x
  intro net i h
  induction h with
  | @leaf k ps s hk h =>
    intro hs g' hl x
    obtain ⟨s', hs', hk'⟩ := (leaf_carries (g := g') (x := x) (by rw [hl.on]; exact hon) hs.1 (Marked.later hl h)).1
    show Sto (k.leaf.step ps (some s) x g').2.2 c (.one k) (.one ps (k.leaf.step ps (some s) x g').2.1)
    rw [hs']
    exact .leaf hk hk'
  | @seqL a b ia ib h ih =>
    intro hs g' hl x
    have ha := ih hs.1 g' hl x
    simp only [Net.step]
    rcases hst : a.step ia x g' with ⟨o, ia', g''⟩
    rw [hst] at ha
    cases o with
    | none => exact .seqL ha
    | some y => exact .seqL (ha.later (step_later b ib y g''))
  | @seqR a b ia ib h ih =>
    intro hs g' hl x
    have hl' := step_later a ia x g'
    simp only [Net.step]
    rcases hst : a.step ia x g' with ⟨o, ia', g''⟩
    rw [hst] at hl'
    cases o with
    | none => exact .seqR (h.later (hl.trans hl'))
    | some y => exact .seqR (ih hs.2 g'' (hl.trans hl') y)
  | @sumL m a b ia ib h ih =>
    intro hs g' hl x
    have ha := ih hs.1 g' hl x
    simp only [Net.step]
    rcases hst : a.step ia x g' with ⟨o, ia', g''⟩
    rw [hst] at ha
    have hl' := step_later b ib x g''
    simp only
    rcases hst' : b.step ib x g'' with ⟨o', ib', g3⟩
    rw [hst'] at hl'
    cases o <;> cases o' <;> first
      | exact .sumL (ha.later hl')
      | exact .sumL ((ha.later hl').later (make_later ..))
  | @sumR m a b ia ib h ih =>
    intro hs g' hl x
    have hl' := step_later a ia x g'
    simp only [Net.step]
    rcases hst : a.step ia x g' with ⟨o, ia', g''⟩
    rw [hst] at hl'
    have hb := ih hs.2 g'' (hl.trans hl') x
    simp only
    rcases hst' : b.step ib x g'' with ⟨o', ib', g3⟩
    rw [hst'] at hb
    cases o <;> cases o' <;> first
      | exact .sumR hb
      | exact .sumR (hb.later (make_later ..))

theorem sto_kept {g : Graph} {c : Nat} {net : Net} {i : Inst} (h : Sto g c net i) : ∃ t ∈ i.kept, Hits g.nodes t c := by
  induction h with
  | @leaf k ps s hk h =>
    obtain ⟨j, hj⟩ : ∃ j, k.flows.getD j false = true := by
      cases k with
      | layer => cases hk
      | conv => exact ⟨0, rfl⟩
      | pool => exact ⟨0, rfl⟩
      | delay => exact ⟨0, rfl⟩
      | single => exact ⟨1, rfl⟩
      | retro => exact ⟨0, rfl⟩
    refine ⟨reg s.1 j, ?_, h.2 j hj⟩
    have hlt : j < s.1.length := by
      rw [← h.1]
      rw [List.getD_eq_getElem?_getD] at hj
      by_contra hge
      rw [List.getElem?_eq_none (by omega)] at hj
      cases hj
    show reg s.1 j ∈ s.1
    unfold reg
    rw [List.getD_eq_getElem?_getD, List.getElem?_eq_getElem hlt]
    exact List.getElem_mem hlt
  | seqL _ ih => obtain ⟨t, ht, hh⟩ := ih; exact ⟨t, List.mem_append_left _ ht, hh⟩
  | seqR _ ih => obtain ⟨t, ht, hh⟩ := ih; exact ⟨t, List.mem_append_right _ ht, hh⟩
  | sumL _ ih => obtain ⟨t, ht, hh⟩ := ih; exact ⟨t, List.mem_append_left _ ht, hh⟩
  | sumR _ ih => obtain ⟨t, ht, hh⟩ := ih; exact ⟨t, List.mem_append_right _ ht, hh⟩

/-- All further outputs depend on node `c`. -/
inductive Rec (g : Graph) (c : Nat) : Net → Inst → Prop
  | leaf {k : Kind} {ps : List Ten} {s : St} (hk : k.stateful = true) (h : Kept g c k s) : Rec g c (.one k) (.one ps (some s))
  | seqL {a b : Net} {ia ib : Inst} (h : Rec g c a ia) (hb : FlowsOk g c b ib) : Rec g c (.seq a b) (.two ia ib)
  | seqR {a b : Net} {ia ib : Inst} (h : Rec g c b ib) : Rec g c (.seq a b) (.two ia ib)
  | sumL {m : Bool} {a b : Net} {ia ib : Inst} (h : Rec g c a ia) : Rec g c (.sum m a b) (.two ia ib)
  | sumR {m : Bool} {a b : Net} {ia ib : Inst} (h : Rec g c b ib) : Rec g c (.sum m a b) (.two ia ib)

theorem Rec.later {g g' : Graph} {c : Nat} (l : Later g g') {net : Net} {i : Inst} (h : Rec g c net i) :
    Rec g' c net i := by
  induction h with
  | leaf hk h => exact .leaf hk (Marked.later l h)
  | seqL _ hb ih => exact .seqL ih (hb.later l)
  | seqR _ ih => exact .seqR ih
  | sumL _ ih => exact .sumL ih
  | sumR _ ih => exact .sumR ih

theorem rec_step {g : Graph} {c : Nat} {net : Net} {i : Inst} (h : Rec g c net i) (hf : net.Fine) (hon : g.on = true)
    (hs : Shaped net i) (x : Ten) :
    (∀ y, (net.step i x g).1 = some y → Hits (net.step i x g).2.2.nodes y c) ∧
    Rec (net.step i x g).2.2 c net (net.step i x g).2.1 := by
  suffices H : ∀ {net i}, Rec g c net i → net.Fine → Shaped net i → ∀ g', Later g g' → ∀ x,
      (∀ y, (net.step i x g').1 = some y → Hits (net.step i x g').2.2.nodes y c) ∧
      Rec (net.step i x g').2.2 c net (net.step i x g').2.1 from H h hf hs g (.refl g) x
  intro net i h
  induction h with
  | @leaf k ps s hk h =>
    intro _ hs g' hl x
    obtain ⟨⟨s', hs', hk'⟩, ho⟩ :=
      leaf_carries (g := g') (x := x) (by rw [hl.on]; exact hon) hs.1 (Marked.later hl h)
    refine ⟨ho hk, ?_⟩
    show Rec (k.leaf.step ps (some s) x g').2.2 c (.one k) (.one ps (k.leaf.step ps (some s) x g').2.1)
    rw [hs']
    exact .leaf hk hk'
  | @seqL a b ia ib h hb ih =>
    intro hf hs g' hl x
    have ha := ih hf.1 hs.1 g' hl x
    have hl' := step_later a ia x g'
    simp only [Net.step]
    rcases hst : a.step ia x g' with ⟨o, ia', g''⟩
    rw [hst] at ha hl'
    cases o with
    | none => exact ⟨(fun y hy => by cases hy), .seqL ha.2 ((hb.later hl).later hl')⟩
    | some y =>
      have hbs := relay_step b hf.2 ib y g'' (by rw [hl'.on, hl.on]; exact hon) hs.2 ((hb.later hl).later hl') (ha.1 y rfl)
      exact ⟨hbs.1, .seqL (ha.2.later (step_later b ib y g'')) hbs.2⟩
  | @seqR a b ia ib h ih =>
    intro hf hs g' hl x
    have hl' := step_later a ia x g'
    simp only [Net.step]
    rcases hst : a.step ia x g' with ⟨o, ia', g''⟩
    rw [hst] at hl'
    cases o with
    | none => exact ⟨(fun y hy => by cases hy), .seqR (h.later (hl.trans hl'))⟩
    | some y =>
      have hb := ih hf.2 hs.2 g'' (hl.trans hl') y
      exact ⟨hb.1, .seqR hb.2⟩
  | @sumL m a b ia ib h ih =>
    intro hf hs g' hl x
    have ha := ih hf.1 hs.1 g' hl x
    have hla := step_later a ia x g'
    simp only [Net.step]
    rcases hst : a.step ia x g' with ⟨o, ia', g''⟩
    rw [hst] at ha hla
    have hl' := step_later b ib x g''
    simp only
    rcases hst' : b.step ib x g'' with ⟨o', ib', g3⟩
    rw [hst'] at hl'
    cases o with
    | none => exact ⟨(fun y hy => by cases hy), .sumL (ha.2.later hl')⟩
    | some y =>
      cases o' with
      | none => exact ⟨(fun y hy => by cases hy), .sumL (ha.2.later hl')⟩
      | some z =>
        refine ⟨fun w hw => ?_, .sumL ((ha.2.later hl').later (make_later ..))⟩
        cases hw
        exact make_hits (by rw [hl'.on, hla.on, hl.on]; exact hon) ⟨y, by simp, hl'.hits (ha.1 y rfl)⟩
  | @sumR m a b ia ib h ih =>
    intro hf hs g' hl x
    have hl' := step_later a ia x g'
    simp only [Net.step]
    rcases hst : a.step ia x g' with ⟨o, ia', g''⟩
    rw [hst] at hl'
    have hb := ih hf.2 hs.2 g'' (hl.trans hl') x
    have hlb := step_later b ib x g''
    simp only
    rcases hst' : b.step ib x g'' with ⟨o', ib', g3⟩
    rw [hst'] at hb hlb
    cases o with
    | none => exact ⟨(fun y hy => by cases hy), .sumR hb.2⟩
    | some y =>
      cases o' with
      | none => exact ⟨(fun y hy => by cases hy), .sumR hb.2⟩
      | some z =>
        refine ⟨fun w hw => ?_, .sumR (hb.2.later (make_later ..))⟩
        cases hw
        exact make_hits (by rw [hlb.on, hl'.on, hl.on]; exact hon) ⟨z, by simp, hb.1 z rfl⟩

/-! ### Which networks remember -/

theorem layer_step {w o : Bool} {ps : List Ten} {st : Option St} {x : Ten} {g : Graph}
    (h : Shaped (.one (.layer w o)) (.one ps st)) :
    ∃ y, (Net.step (.one (.layer w o)) (.one ps st) x g).1 = some y ∧ y.mem = g.used := by
  have hkept : (st.map Prod.fst).getD [] = [] := by
    cases st with
    | none => rfl
    | some s => exact List.length_eq_zero_iff.1 (h.2.2 s rfl)
  cases w with
  | true =>
    obtain ⟨w, rfl⟩ := List.length_eq_one_iff.1 (show ps.length = 1 from h.1)
    have : (Net.step (.one (.layer true o)) (.one [w] st) x g).1 = some (Graph.make g [x, w] [x, w] o true).1 := by
      simp only [Net.step]
      unfold Leaf.step
      rw [hkept]
      rfl
    refine ⟨_, this, ?_⟩
    unfold Graph.make
    split <;> rfl
  | false =>
    obtain rfl := List.length_eq_zero_iff.1 (show ps.length = 0 from h.1)
    have : (Net.step (.one (.layer false o)) (.one [] st) x g).1 = some (Graph.make g [x] [] o true).1 := by
      simp only [Net.step]
      unfold Leaf.step
      rw [hkept]
      rfl
    refine ⟨_, this, ?_⟩
    unfold Graph.make
    split <;> rfl

theorem shaped_one {k : Kind} {i : Inst} (h : Shaped (.one k) i) : ∃ ps st, i = .one ps st := by
  cases i with
  | one ps st => exact ⟨ps, st, rfl⟩
  | two a b => exact h.elim

theorem shaped_seq {a b : Net} {i : Inst} (h : Shaped (.seq a b) i) :
    ∃ ia ib, i = .two ia ib ∧ Shaped a ia ∧ Shaped b ib := by
  cases i with
  | one ps st => exact h.elim
  | two ia ib => exact ⟨ia, ib, rfl, h.1, h.2⟩

theorem shaped_sum {m : Bool} {a b : Net} {i : Inst} (h : Shaped (.sum m a b) i) :
    ∃ ia ib, i = .two ia ib ∧ Shaped a ia ∧ Shaped b ib := by
  cases i with
  | one ps st => exact h.elim
  | two ia ib => exact ⟨ia, ib, rfl, h.1, h.2⟩

/-- Flow through a layer needs nothing of its state. -/
theorem layer_flows {g : Graph} {c : Nat} {w o : Bool} {i : Inst} (h : Shaped (.one (.layer w o)) i) :
    FlowsOk g c (.one (.layer w o)) i := by
  obtain ⟨ps, st, rfl⟩ := shaped_one h
  intro s hs
  have := h.2.2 s hs
  exact ⟨this.symm, fun i hi => by cases hi⟩

theorem keeps_start {c : Nat} {net : Net} (hk : Keeps net) : ∀ (i : Inst) (x : Ten) (g : Graph), net.Fine →
    g.on = true → Shaped net i → Hits g.nodes x c →
    Sto (net.step i x g).2.2 c net (net.step i x g).2.1 ∧
    (FlowsOk g c net i → Rec (net.step i x g).2.2 c net (net.step i x g).2.1) := by
  induction hk with
  | @one k h =>
    intro i x g _ hon hs hx
    obtain ⟨ps, st, rfl⟩ := shaped_one hs
    obtain ⟨s, hs', hk'⟩ := leaf_absorbs (k := k) (ps := ps) (st := st) (x := x) hon hs.1 hs.2.2 hx
    show Sto (k.leaf.step ps st x g).2.2 c (.one k) (.one ps (k.leaf.step ps st x g).2.1) ∧
      (_ → Rec (k.leaf.step ps st x g).2.2 c (.one k) (.one ps (k.leaf.step ps st x g).2.1))
    rw [hs']
    exact ⟨.leaf h hk', fun _ => .leaf h hk'⟩
  | @seq a b h ih =>
    intro i x g hf hon hs hx
    obtain ⟨ia, ib, rfl, hsa, hsb⟩ := shaped_seq hs
    have ha := ih ia x g hf.1 hon hsa hx
    have hl := step_later a ia x g
    have hr := relay_step (c := c) a hf.1 ia x g hon hsa
    simp only [Net.step]
    rcases hst : a.step ia x g with ⟨o, ia', g'⟩
    rw [hst] at ha hl hr
    cases o with
    | none => exact ⟨.seqL ha.1, fun hfl => .seqL (ha.2 hfl.1) (hfl.2.later hl)⟩
    | some y =>
      refine ⟨.seqL (ha.1.later (step_later b ib y g')), fun hfl => ?_⟩
      have hb := relay_step b hf.2 ib y g' (by rw [hl.on]; exact hon) hsb (hfl.2.later hl) ((hr hfl.1 hx).1 y rfl)
      exact .seqL ((ha.2 hfl.1).later (step_later b ib y g')) hb.2
  | @layer w o b h ih =>
    intro i x g hf hon hs hx
    obtain ⟨ia, ib, rfl, hsa, hsb⟩ := shaped_seq hs
    have hl := step_later (.one (.layer w o)) ia x g
    have hr := relay_step (c := c) (.one (.layer w o)) hf.1 ia x g hon hsa (layer_flows hsa) hx
    obtain ⟨y, hy, _⟩ : ∃ y, (Net.step (.one (.layer w o)) ia x g).1 = some y ∧ y.mem = g.used := by
      obtain ⟨ps, st, rfl⟩ := shaped_one hsa
      exact layer_step hsa
    rw [Net.step]
    rcases hst : Net.step (.one (.layer w o)) ia x g with ⟨q, ia', g'⟩
    rw [hst] at hl hr hy
    cases hy
    have hb := ih ib y g' hf.2 (by rw [hl.on]; exact hon) hsb (hr.1 y rfl)
    exact ⟨.seqR hb.1, fun hfl => .seqR (hb.2 (hfl.2.later hl))⟩
  | @sumL m a b h ih =>
    intro i x g hf hon hs hx
    obtain ⟨ia, ib, rfl, hsa, hsb⟩ := shaped_sum hs
    have ha := ih ia x g hf.1 hon hsa hx
    simp only [Net.step]
    rcases hst : a.step ia x g with ⟨o, ia', g'⟩
    rw [hst] at ha
    have hl' := step_later b ib x g'
    simp only
    rcases hst' : b.step ib x g' with ⟨o', ib', g''⟩
    rw [hst'] at hl'
    cases o <;> cases o' <;> first
      | exact ⟨.sumL (ha.1.later hl'), fun hfl => .sumL ((ha.2 hfl.1).later hl')⟩
      | exact ⟨.sumL ((ha.1.later hl').later (make_later ..)),
          fun hfl => .sumL (((ha.2 hfl.1).later hl').later (make_later ..))⟩
  | @sumR m a b h ih =>
    intro i x g hf hon hs hx
    obtain ⟨ia, ib, rfl, hsa, hsb⟩ := shaped_sum hs
    have hl := step_later a ia x g
    simp only [Net.step]
    rcases hst : a.step ia x g with ⟨o, ia', g'⟩
    rw [hst] at hl
    have hb := ih ib x g' hf.2 (by rw [hl.on]; exact hon) hsb (hl.hits hx)
    simp only
    rcases hst' : b.step ib x g' with ⟨o', ib', g''⟩
    rw [hst'] at hb
    cases o <;> cases o' <;> first
      | exact ⟨.sumR hb.1, fun hfl => .sumR (hb.2 (hfl.2.later hl))⟩
      | exact ⟨.sumR (hb.1.later (make_later ..)), fun hfl => .sumR ((hb.2 (hfl.2.later hl)).later (make_later ..))⟩

/-- A node that cannot be run twice and saved a parameter in its present version. -/
structure Saver (g : Graph) (c m : Nat) (ps : List Ten) : Prop where
  node : ∃ n, nodeAt g.nodes c = some n ∧ n.once = true ∧ m ∈ n.saved.map Prod.fst ∧
    ∃ p ∈ ps, ∃ v, (p.mem, v) ∈ n.saved ∧ v ≤ g.ver p.mem

theorem Saver.later {g g' : Graph} {c m : Nat} {ps ps' : List Ten} (h : Saver g c m ps) (l : Later g g')
    (hp : ∀ p ∈ ps, p ∈ ps') : Saver g' c m ps' := by
  obtain ⟨n, hn, ho, hm, p, hpp, v, hv, hle⟩ := h.node
  exact ⟨n, l.node _ _ hn, ho, hm, p, hp p hpp, v, hv, Nat.le_trans hle (l.ver _)⟩

/-- Every step of such a network makes a node that its state depends on from then on, and its outputs if it is the first
one. -/
theorem remembers_start {net : Net} (hk : Remembers net) : ∀ (i : Inst) (x : Ten) (g : Graph) (base : Nat), net.Fine →
    g.on = true → Shaped net i → base ≤ x.mem → x.mem < g.used → base ≤ g.used →
    ∃ c m, base ≤ m ∧ m < (net.step i x g).2.2.used ∧ Saver (net.step i x g).2.2 c m i.params ∧
      Sto (net.step i x g).2.2 c net (net.step i x g).2.1 ∧
      (Blank i → Rec (net.step i x g).2.2 c net (net.step i x g).2.1 ∧
        ∀ y, (net.step i x g).1 = some y → Hits (net.step i x g).2.2.nodes y c) := by
  induction hk with
  | @one k h =>
    intro i x g base _ hon hs hb hx _
    obtain ⟨ps, st, rfl⟩ := shaped_one hs
    obtain ⟨c, hfr, ⟨s, hs', hk'⟩, hout⟩ := leaf_origin (x := x) hon h hs.1 hs.2.2 hs.2.1
    have hst : k.stateful = true := by cases k <;> first | rfl | cases h
    refine ⟨c, x.mem, hb, Nat.lt_of_lt_of_le hx (step_later (.one k) (.one ps st) x g).used, ⟨hfr.node⟩, ?_⟩
    show Sto (k.leaf.step ps st x g).2.2 c (.one k) (.one ps (k.leaf.step ps st x g).2.1) ∧
      (_ → Rec (k.leaf.step ps st x g).2.2 c (.one k) (.one ps (k.leaf.step ps st x g).2.1) ∧
        ∀ y, (k.leaf.step ps st x g).1 = some y → Hits (k.leaf.step ps st x g).2.2.nodes y c)
    rw [hs']
    exact ⟨.leaf hst hk', fun _ => ⟨.leaf hst hk', hout⟩⟩
  | @seq a b h ih =>
    intro i x g base hf hon hs hb hx hbg
    obtain ⟨ia, ib, rfl, hsa, hsb⟩ := shaped_seq hs
    obtain ⟨c, m, hm1, hm2, hsv, hsto, hrec⟩ := ih ia x g base hf.1 hon hsa hb hx hbg
    have hl := step_later a ia x g
    simp only [Net.step]
    rcases hst : a.step ia x g with ⟨o, ia', g'⟩
    rw [hst] at hm2 hsv hsto hrec hl
    have hsub : ∀ p ∈ ia.params, p ∈ (Inst.two ia ib).params := fun p hp => List.mem_append_left _ hp
    cases o with
    | none =>
      exact ⟨c, m, hm1, hm2, hsv.later (.refl _) hsub, .seqL hsto,
        fun hbl => ⟨.seqL (hrec hbl.1).1 (blank_flows _ _ _ _ hbl.2), fun y hy => by cases hy⟩⟩
    | some y =>
      have hl' := step_later b ib y g'
      refine ⟨c, m, hm1, Nat.lt_of_lt_of_le hm2 hl'.used, hsv.later hl' hsub, .seqL (hsto.later hl'), fun hbl => ?_⟩
      obtain ⟨hr, ho⟩ := hrec hbl.1
      have hb := relay_step b hf.2 ib y g' (by rw [hl.on]; exact hon) hsb (blank_flows _ c _ _ hbl.2) (ho y rfl)
      exact ⟨.seqL (hr.later hl') hb.2, hb.1⟩
  | @layer w o b h ih =>
    intro i x g base hf hon hs hb hx hbg
    obtain ⟨ia, ib, rfl, hsa, hsb⟩ := shaped_seq hs
    have hl := step_later (.one (.layer w o)) ia x g
    obtain ⟨y, hy, hym, hyu⟩ : ∃ y, (Net.step (.one (.layer w o)) ia x g).1 = some y ∧ y.mem = g.used ∧
        y.mem < (Net.step (.one (.layer w o)) ia x g).2.2.used := by
      obtain ⟨ps, st, rfl⟩ := shaped_one hsa
      obtain ⟨y, hy, hm⟩ := layer_step (x := x) (g := g) hsa
      refine ⟨y, hy, hm, ?_⟩
      rw [hm]
      cases w <;> simp only [Net.step, Leaf.step, Kind.leaf, Grad.layer, run, Instr.exec, if_true, Bool.false_eq_true,
        if_false] <;> unfold Graph.make <;> split <;> exact Nat.lt_succ_self _
    rw [Net.step]
    rcases hst : Net.step (.one (.layer w o)) ia x g with ⟨q, ia', g'⟩
    rw [hst] at hl hy hyu
    cases hy
    obtain ⟨c, m, hm1, hm2, hsv, hsto, hrec⟩ := ih ib y g' base hf.2 (by rw [hl.on]; exact hon) hsb
      (by rw [hym]; exact hbg) hyu (Nat.le_trans hbg hl.used)
    exact ⟨c, m, hm1, hm2, hsv.later (.refl _) (fun p hp => List.mem_append_right _ hp), .seqR hsto,
      fun hbl => ⟨.seqR (hrec hbl.2).1, (hrec hbl.2).2⟩⟩
  | @weights o b h =>
    intro i x g base hf hon hs hb hx hbg
    obtain ⟨ia, ib, rfl, hsa, hsb⟩ := shaped_seq hs
    obtain ⟨ps, st, rfl⟩ := shaped_one hsa
    have hl := step_later (.one (.layer true o)) (.one ps st) x g
    obtain ⟨c, y, s, hy, hs', hs0, hfr, hh⟩ := layer_origin (o := o) (x := x) hon hsa.1 hsa.2.2 hsa.2.1
    rw [Net.step]
    have hstep : Net.step (.one (.layer true o)) (.one ps st) x g = (some y, .one ps (some s),
        ((Kind.layer true o).leaf.step ps st x g).2.2) := by
      simp only [Net.step]
      rw [hy, hs']
    rw [hstep] at hl ⊢
    simp only at hl ⊢
    set g' := ((Kind.layer true o).leaf.step ps st x g).2.2 with hg'
    have hl' := step_later b ib y g'
    have hks := keeps_start h ib y g' hf.2 (by rw [hl.on]; exact hon) hsb hh
    have hsv : Saver g' c x.mem ps := ⟨hfr.node⟩
    refine ⟨c, x.mem, hb, Nat.lt_of_lt_of_le (Nat.lt_of_lt_of_le hx hl.used) hl'.used,
      hsv.later hl' (fun p hp => List.mem_append_left _ hp), .seqR hks.1, fun hbl => ?_⟩
    have hbf := blank_flows g' c b ib hbl.2
    exact ⟨.seqR (hks.2 hbf), (relay_step b hf.2 ib y g' (by rw [hl.on]; exact hon) hsb hbf hh).1⟩
  | @sumL mul a b h ih =>
    intro i x g base hf hon hs hb hx hbg
    obtain ⟨ia, ib, rfl, hsa, hsb⟩ := shaped_sum hs
    obtain ⟨c, m, hm1, hm2, hsv, hsto, hrec⟩ := ih ia x g base hf.1 hon hsa hb hx hbg
    have hl := step_later a ia x g
    simp only [Net.step]
    rcases hst : a.step ia x g with ⟨o, ia', g'⟩
    rw [hst] at hm2 hsv hsto hrec hl
    have hl' := step_later b ib x g'
    simp only
    rcases hst' : b.step ib x g' with ⟨o', ib', g''⟩
    rw [hst'] at hl'
    have hsub : ∀ p ∈ ia.params, p ∈ (Inst.two ia ib).params := fun p hp => List.mem_append_left _ hp
    cases o with
    | none =>
      exact ⟨c, m, hm1, Nat.lt_of_lt_of_le hm2 hl'.used, hsv.later hl' hsub, .sumL (hsto.later hl'),
        fun hbl => ⟨.sumL ((hrec hbl.1).1.later hl'), fun y hy => by cases hy⟩⟩
    | some y =>
      cases o' with
      | none =>
        exact ⟨c, m, hm1, Nat.lt_of_lt_of_le hm2 hl'.used, hsv.later hl' hsub, .sumL (hsto.later hl'),
          fun hbl => ⟨.sumL ((hrec hbl.1).1.later hl'), fun y hy => by cases hy⟩⟩
      | some z =>
        have hl2 := hl'.trans (make_later g'' [y, z] (if mul then [y, z] else []) false mul)
        refine ⟨c, m, hm1, Nat.lt_of_lt_of_le hm2 hl2.used, hsv.later hl2 hsub, .sumL (hsto.later hl2),
          fun hbl => ⟨.sumL ((hrec hbl.1).1.later hl2), fun w hw => ?_⟩⟩
        cases hw
        exact make_hits (by rw [hl'.on, hl.on]; exact hon) ⟨y, by simp, hl'.hits ((hrec hbl.1).2 y rfl)⟩
  | @sumR mul a b h ih =>
    intro i x g base hf hon hs hb hx hbg
    obtain ⟨ia, ib, rfl, hsa, hsb⟩ := shaped_sum hs
    have hl := step_later a ia x g
    simp only [Net.step]
    rcases hst : a.step ia x g with ⟨o, ia', g'⟩
    rw [hst] at hl
    obtain ⟨c, m, hm1, hm2, hsv, hsto, hrec⟩ := ih ib x g' base hf.2 (by rw [hl.on]; exact hon) hsb hb
      (Nat.lt_of_lt_of_le hx hl.used) (Nat.le_trans hbg hl.used)
    have hlb := step_later b ib x g'
    simp only
    rcases hst' : b.step ib x g' with ⟨o', ib', g''⟩
    rw [hst'] at hm2 hsv hsto hrec hlb
    have hsub : ∀ p ∈ ib.params, p ∈ (Inst.two ia ib).params := fun p hp => List.mem_append_right _ hp
    cases o with
    | none =>
      exact ⟨c, m, hm1, hm2, hsv.later (.refl _) hsub, .sumR hsto,
        fun hbl => ⟨.sumR (hrec hbl.2).1, fun y hy => by cases hy⟩⟩
    | some y =>
      cases o' with
      | none =>
        exact ⟨c, m, hm1, hm2, hsv.later (.refl _) hsub, .sumR hsto,
          fun hbl => ⟨.sumR (hrec hbl.2).1, fun y hy => by cases hy⟩⟩
      | some z =>
        have hl2 := make_later g'' [y, z] (if mul then [y, z] else []) false mul
        refine ⟨c, m, hm1, Nat.lt_of_lt_of_le hm2 hl2.used, hsv.later hl2 hsub, .sumR (hsto.later hl2),
          fun hbl => ⟨.sumR ((hrec hbl.2).1.later hl2), fun w hw => ?_⟩⟩
        cases hw
        exact make_hits (by rw [hlb.on, hl.on]; exact hon) ⟨z, by simp, (hrec hbl.2).2 z rfl⟩

end CoInf.Grad
