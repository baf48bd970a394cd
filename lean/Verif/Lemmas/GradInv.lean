/-
Invariants of the graphs that streams build.
-/
import Verif.Lemmas.Grad

set_option autoImplicit false

namespace CoInf.Grad

open CoInf.Spec

/-! ### Nodes point to older nodes -/

/-- The node of a tensor is in the graph. -/
def FnLt (g : Graph) (t : Ten) : Prop := ∀ i, t.fn = some i → i < g.nodes.length

theorem FnLt.later {g g' : Graph} {t : Ten} (a : Later g g') (h : FnLt g t) : FnLt g' t :=
  fun i hi => Nat.lt_of_lt_of_le (h i hi) a.len

theorem reg_mem {P : Ten → Prop} (rs : List Ten) (h : ∀ t ∈ rs, P t) (h0 : P ⟨false, none, 0⟩) (i : Nat) :
    P (reg rs i) := by
  unfold reg
  rw [List.getD_eq_getElem?_getD]
  cases hi : rs[i]? with
  | none => exact h0
  | some t => exact h t (List.mem_of_getElem? hi)

theorem fnLt_default (g : Graph) : FnLt g ⟨false, none, 0⟩ := fun _ h => by cases h

theorem mem_fns {ts : List Ten} {i : Nat} : i ∈ fns ts ↔ ∃ t ∈ ts, t.fn = some i := by
  simp [fns, List.mem_filterMap]

theorem make_wf {g : Graph} {ts saved : List Ten} {so once : Bool} (hw : Wf g.nodes) (h : ∀ t ∈ ts, FnLt g t) :
    Wf (g.make ts saved so once).2.nodes ∧ FnLt (g.make ts saved so once).2 (g.make ts saved so once).1 := by
  unfold Graph.make
  split
  · refine ⟨⟨?_, hw⟩, ?_⟩
    · intro j hj
      obtain ⟨t, ht, hf⟩ := mem_fns.1 hj
      exact h t ht j hf
    · intro i hi
      cases hi
      simp
  · exact ⟨hw, fun i hi => by cases hi⟩

theorem view_wf {g : Graph} {a : Ten} (hw : Wf g.nodes) (h : FnLt g a) :
    Wf (g.view a).2.nodes ∧ FnLt (g.view a).2 (g.view a).1 := by
  unfold Graph.view
  split
  · refine ⟨⟨?_, hw⟩, ?_⟩
    · intro j hj
      obtain ⟨t, ht, hf⟩ := mem_fns.1 hj
      obtain rfl := List.mem_singleton.1 ht
      exact h j hf
    · intro i hi
      cases hi
      simp
  · exact ⟨hw, fun i hi => by cases hi⟩

theorem write_wf {g : Graph} {a v : Ten} (hw : Wf g.nodes) (ha : FnLt g a) (hv : FnLt g v) :
    Wf (g.write a v).2.nodes ∧ FnLt (g.write a v).2 (g.write a v).1 := by
  unfold Graph.write
  simp only
  split
  · refine ⟨⟨?_, hw⟩, ?_⟩
    · intro j hj
      obtain ⟨t, ht, hf⟩ := mem_fns.1 hj
      rcases List.mem_cons.1 ht with rfl | ht
      · exact ha j hf
      · obtain rfl := List.mem_singleton.1 ht
        exact hv j hf
    · intro i hi
      cases hi
      simp
  · exact ⟨hw, ha⟩

theorem exec_wf {g : Graph} {rs : List Ten} (c : Instr) (hw : Wf g.nodes) (h : ∀ t ∈ rs, FnLt g t) :
    Wf (c.exec rs g).2.nodes ∧ FnLt (c.exec rs g).2 (c.exec rs g).1 := by
  have hreg : ∀ i, FnLt g (reg rs i) := reg_mem rs h (fnLt_default g)
  have hmap : ∀ l : List Nat, ∀ t ∈ l.map (reg rs), FnLt g t := by
    intro l t ht
    obtain ⟨i, _, rfl⟩ := List.mem_map.1 ht
    exact hreg i
  cases c with
  | op args saved so once => exact make_wf hw (hmap args)
  | view a => exact view_wf hw (hreg a)
  | zeros => exact make_wf hw (by simp)
  | write a v => exact write_wf hw (hreg a) (hreg v)
  | push a v =>
    have h1 := make_wf (g := g) (ts := [reg rs a]) (saved := []) (so := false) (once := false) hw
      (by intro t ht; obtain rfl := List.mem_singleton.1 ht; exact hreg a)
    exact write_wf h1.1 h1.2 ((hreg v).later (make_later ..))

theorem run_wf : ∀ (cs : List Instr) (rs : List Ten) (g : Graph), Wf g.nodes → (∀ t ∈ rs, FnLt g t) →
    Wf (run cs rs g).2.nodes ∧ ∀ t ∈ (run cs rs g).1, FnLt (run cs rs g).2 t
  | [], _, _, hw, h => ⟨hw, h⟩
  | c :: cs, rs, g, hw, h => by
    have hc := exec_wf c hw h
    refine run_wf cs _ _ hc.1 ?_
    intro t ht
    rcases List.mem_append.1 ht with ht | ht
    · exact (h t ht).later (exec_later rs g c)
    · obtain rfl := List.mem_singleton.1 ht
      exact hc.2

/-- All tensors of the network are in the graph; the parameters are leaves. -/
def Inst.Lt (g : Graph) (i : Inst) : Prop := (∀ t ∈ i.params, t.fn = none) ∧ ∀ t ∈ i.kept, FnLt g t

theorem Inst.Lt.later {g g' : Graph} {i : Inst} (a : Later g g') (h : i.Lt g) : i.Lt g' :=
  ⟨h.1, fun t ht => (h.2 t ht).later a⟩

theorem Inst.Lt.two {g : Graph} {a b : Inst} : (Inst.two a b).Lt g ↔ a.Lt g ∧ b.Lt g := by
  simp only [Inst.Lt, Inst.params, Inst.kept, List.mem_append]
  constructor
  · intro h
    exact ⟨⟨fun t ht => h.1 t (.inl ht), fun t ht => h.2 t (.inl ht)⟩,
      ⟨fun t ht => h.1 t (.inr ht), fun t ht => h.2 t (.inr ht)⟩⟩
  · rintro ⟨ha, hb⟩
    exact ⟨fun t ht => ht.elim (ha.1 t) (hb.1 t), fun t ht => ht.elim (ha.2 t) (hb.2 t)⟩

theorem leaf_wf (l : Leaf) {ps : List Ten} {st : Option St} {x : Ten} {g : Graph} (hw : Wf g.nodes) (hx : FnLt g x)
    (hi : (Inst.one ps st).Lt g) :
    Wf (l.step ps st x g).2.2.nodes ∧ (∀ y, (l.step ps st x g).1 = some y → FnLt (l.step ps st x g).2.2 y) ∧
    (Inst.one ps (l.step ps st x g).2.1).Lt (l.step ps st x g).2.2 := by
  have hr := run_wf (l.code st.isNone (l.emits ((st.map Prod.snd).getD l.start)))
    (x :: ps ++ (st.map Prod.fst).getD []) g hw (by
      intro t ht
      simp only [List.cons_append, List.mem_cons, List.mem_append] at ht
      rcases ht with rfl | ht | ht
      · exact hx
      · intro i hf
        rw [hi.1 t ht] at hf
        cases hf
      · exact hi.2 t ht)
  have hreg := fun i => reg_mem _ hr.2 (fnLt_default _) i
  refine ⟨hr.1, ?_, hi.1, ?_⟩
  · intro y hy
    simp only [Leaf.step] at hy
    split at hy
    · cases hy
      exact hreg _
    · cases hy
  · intro t ht
    simp only [Leaf.step, Inst.kept, Option.map_some, Option.getD_some, List.mem_map] at ht
    obtain ⟨i, _, rfl⟩ := ht
    exact hreg i

theorem step_wf : ∀ (net : Net) (i : Inst) (x : Ten) (g : Graph), Wf g.nodes → FnLt g x → i.Lt g →
    Wf (net.step i x g).2.2.nodes ∧ (∀ y, (net.step i x g).1 = some y → FnLt (net.step i x g).2.2 y) ∧
    (net.step i x g).2.1.Lt (net.step i x g).2.2
  | .one k, .one ps st, x, g, hw, hx, hi => leaf_wf k.leaf hw hx hi
  | .seq a b, .two ia ib, x, g, hw, hx, hi => by
    obtain ⟨hia, hib⟩ := Inst.Lt.two.1 hi
    have ha := step_wf a ia x g hw hx hia
    have hl := step_later a ia x g
    simp only [Net.step]
    rcases hs : a.step ia x g with ⟨o, ia', g'⟩
    rw [hs] at ha hl
    cases o with
    | none => exact ⟨ha.1, (fun y hy => by cases hy), Inst.Lt.two.2 ⟨ha.2.2, hib.later hl⟩⟩
    | some y =>
      have hb := step_wf b ib y g' ha.1 (ha.2.1 y rfl) (hib.later hl)
      exact ⟨hb.1, hb.2.1, Inst.Lt.two.2 ⟨ha.2.2.later (step_later b ib y g'), hb.2.2⟩⟩
  | .sum mul a b, .two ia ib, x, g, hw, hx, hi => by
    obtain ⟨hia, hib⟩ := Inst.Lt.two.1 hi
    have ha := step_wf a ia x g hw hx hia
    have hl := step_later a ia x g
    simp only [Net.step]
    rcases hs : a.step ia x g with ⟨o, ia', g'⟩
    rw [hs] at ha hl
    have hb := step_wf b ib x g' ha.1 (hx.later hl) (hib.later hl)
    have hl' := step_later b ib x g'
    simp only
    rcases hs' : b.step ib x g' with ⟨o', ib', g''⟩
    rw [hs'] at hb hl'
    have hi' : (Inst.two ia' ib').Lt g'' := Inst.Lt.two.2 ⟨ha.2.2.later hl', hb.2.2⟩
    cases o with
    | none => exact ⟨hb.1, (fun y hy => by cases hy), hi'⟩
    | some y =>
      cases o' with
      | none => exact ⟨hb.1, (fun y hy => by cases hy), hi'⟩
      | some z =>
        have hm := make_wf (g := g'') (ts := [y, z]) (saved := if mul then [y, z] else []) (so := false) (once := mul)
          hb.1 (by
            intro t ht
            rcases List.mem_cons.1 ht with rfl | ht
            · exact (ha.2.1 t rfl).later hl'
            · obtain rfl := List.mem_singleton.1 ht
              exact hb.2.1 t rfl)
        exact ⟨hm.1, fun w hw => by cases hw; exact hm.2, hi'.later (make_later ..)⟩
  | .one _, .two _ _, _, g, hw, _, hi => ⟨hw, (fun y hy => by cases hy), hi⟩
  | .seq _ _, .one _ _, _, g, hw, _, hi => ⟨hw, (fun y hy => by cases hy), hi⟩
  | .sum _ _ _, .one _ _, _, g, hw, _, hi => ⟨hw, (fun y hy => by cases hy), hi⟩

theorem stream_wf (net : Net) : ∀ (n : Nat) (i : Inst) (g : Graph), Wf g.nodes → i.Lt g →
    Wf (net.stream n i g).2.2.nodes ∧ (∀ y ∈ (net.stream n i g).1, FnLt (net.stream n i g).2.2 y) ∧
    (net.stream n i g).2.1.Lt (net.stream n i g).2.2
  | 0, _, _, hw, hi => ⟨hw, by simp [Net.stream], hi⟩
  | n + 1, i, g, hw, hi => by
    obtain ⟨h1, h2, h3⟩ := stream_wf net n i g hw hi
    have hl := frame_later (net.stream n i g).2.2
    have hs := step_wf net (net.stream n i g).2.1 (net.stream n i g).2.2.frame.1 (net.stream n i g).2.2.frame.2
      h1 (fun i hi => by cases hi) (h3.later hl)
    refine ⟨hs.1, ?_, hs.2.2⟩
    intro y hy
    rcases List.mem_append.1 hy with hy | hy
    · exact (h2 y hy).later (hl.trans (step_later ..))
    · exact hs.2.1 y (Option.mem_toList.1 hy)

theorem clean_params : ∀ i : Inst, i.clean.params = i.params
  | .one _ _ => rfl
  | .two a b => by simp only [Inst.clean, Inst.params, clean_params a, clean_params b]

theorem clean_kept : ∀ i : Inst, i.clean.kept = []
  | .one _ _ => rfl
  | .two a b => by simp only [Inst.clean, Inst.kept, clean_kept a, clean_kept b, List.append_nil]

theorem newParams_fn : ∀ (n : Nat) (g : Graph), ∀ t ∈ (newParams n g).1,
    t.fn = none ∧ t.req = true ∧ g.used ≤ t.mem ∧ t.mem < (newParams n g).2.used
  | 0, _, t, ht => by simp [newParams] at ht
  | n + 1, g, t, ht => by
    have hu := (newParams_later n { g with used := g.used + 1 }).used
    simp only at hu
    rcases List.mem_cons.1 ht with rfl | ht
    · exact ⟨rfl, rfl, Nat.le_refl _, by simp only [newParams]; omega⟩
    · have := newParams_fn n { g with used := g.used + 1 } t ht
      simp only at this
      exact ⟨this.1, this.2.1, by omega, this.2.2.2⟩

theorem build_new : ∀ (net : Net) (g : Graph),
    (∀ t ∈ (net.build g).1.params, t.fn = none ∧ t.req = true ∧ t.mem < (net.build g).2.used) ∧
    (net.build g).1.kept = [] ∧ (net.build g).2.nodes = g.nodes ∧ (net.build g).2.gone = g.gone ∧
    (net.build g).2.on = g.on
  | .one k, g => by
    refine ⟨fun t ht => ?_, rfl, ?_⟩
    · have := newParams_fn _ g t ht
      exact ⟨this.1, this.2.1, this.2.2.2⟩
    · have : ∀ (n : Nat) (g : Graph), (newParams n g).2.nodes = g.nodes ∧ (newParams n g).2.gone = g.gone ∧
          (newParams n g).2.on = g.on := by
        intro n
        induction n with
        | zero => intro g; exact ⟨rfl, rfl, rfl⟩
        | succ n ih => intro g; exact ih { g with used := g.used + 1 }
      exact this _ g
  | .seq a b, g => by
    have ha := build_new a g
    have hb := build_new b (a.build g).2
    have hl := (build_later b (a.build g).2).used
    refine ⟨fun t ht => ?_, ?_, hb.2.2.1.trans ha.2.2.1, hb.2.2.2.1.trans ha.2.2.2.1, hb.2.2.2.2.trans ha.2.2.2.2⟩
    · rcases List.mem_append.1 ht with ht | ht
      · have := ha.1 t ht
        exact ⟨this.1, this.2.1, Nat.lt_of_lt_of_le this.2.2 hl⟩
      · exact hb.1 t ht
    · simp only [Net.build, Inst.kept, ha.2.1, hb.2.1, List.append_nil]
  | .sum _ a b, g => by
    have ha := build_new a g
    have hb := build_new b (a.build g).2
    have hl := (build_later b (a.build g).2).used
    refine ⟨fun t ht => ?_, ?_, hb.2.2.1.trans ha.2.2.1, hb.2.2.2.1.trans ha.2.2.2.1, hb.2.2.2.2.trans ha.2.2.2.2⟩
    · rcases List.mem_append.1 ht with ht | ht
      · have := ha.1 t ht
        exact ⟨this.1, this.2.1, Nat.lt_of_lt_of_le this.2.2 hl⟩
      · exact hb.1 t ht
    · simp only [Net.build, Inst.kept, ha.2.1, hb.2.1, List.append_nil]

/-! ### Which registers gradients of a node arrive from -/

/-- Whether the result of an operation depends on a register with `ts i = true`. -/
def Instr.taint (ts : List Bool) : Instr → Bool
  | .op args _ _ _ => args.any fun i => ts.getD i false
  | .view a => ts.getD a false
  | .zeros => false
  | .write a v => ts.getD a false || ts.getD v false
  | .push a v => ts.getD a false || ts.getD v false

def taint : List Instr → List Bool → List Bool
  | [], ts => ts
  | c :: cs, ts => taint cs (ts ++ [c.taint ts])

theorem hits_new {L : List Node} {t : Ten} {c : Nat} (n : Node) {m : Nat} (h : Hits L t c) (ht : t.fn.elim True (· ∈ n.ins)) :
    Hits (n :: L) ⟨true, some L.length, m⟩ c := by
  obtain ⟨_, i, hi, hr⟩ := h
  rw [hi] at ht
  refine ⟨rfl, L.length, rfl, ?_⟩
  have hroot : Arrives (n :: L) [L.length] i :=
    .step (i := L.length) (n := n) (.root (by simp)) (by simp [nodeAt]) ht
  clear ht hi
  have : ∀ j, Arrives L [i] j → Arrives (n :: L) [L.length] j := by
    intro j hj
    induction hj with
    | root hm => obtain rfl := List.mem_singleton.1 hm; exact hroot
    | step _ hn hj ih => exact .step ih (nodeAt_cons n hn) hj
  exact this c hr

theorem make_hits {g : Graph} (hon : g.on = true) {ts saved : List Ten} {so once : Bool} {c : Nat}
    (h : ∃ t ∈ ts, Hits g.nodes t c) :
    Hits (g.make ts saved so once).2.nodes (g.make ts saved so once).1 c := by
  obtain ⟨t, ht, hh⟩ := h
  have hreq : ts.any Ten.req = true := List.any_eq_true.2 ⟨t, ht, hh.1⟩
  unfold Graph.make
  rw [if_pos ⟨hon, hreq⟩]
  refine hits_new _ hh ?_
  cases hf : t.fn with
  | none => trivial
  | some i => exact mem_fns.2 ⟨t, ht, hf⟩

theorem view_hits {g : Graph} (hon : g.on = true) {a : Ten} {c : Nat} (h : Hits g.nodes a c) :
    Hits (g.view a).2.nodes (g.view a).1 c := by
  unfold Graph.view
  rw [if_pos ⟨hon, h.1⟩]
  refine hits_new _ h ?_
  cases hf : a.fn with
  | none => trivial
  | some i => exact mem_fns.2 ⟨a, by simp, hf⟩

theorem write_hits {g : Graph} (hon : g.on = true) {a v : Ten} {c : Nat}
    (h : Hits g.nodes a c ∨ Hits g.nodes v c) :
    Hits (g.write a v).2.nodes (g.write a v).1 c := by
  have hreq : a.req = true ∨ v.req = true := h.imp (·.1) (·.1)
  unfold Graph.write
  simp only
  rw [if_pos ⟨hon, hreq⟩]
  rcases h with h | h
  · refine hits_new _ h ?_
    cases hf : a.fn with
    | none => trivial
    | some i => exact mem_fns.2 ⟨a, by simp, hf⟩
  · refine hits_new _ h ?_
    cases hf : v.fn with
    | none => trivial
    | some i => exact mem_fns.2 ⟨v, by simp, hf⟩

/-- The registers that are marked depend on node `c`. -/
def Marked (g : Graph) (c : Nat) (rs : List Ten) (ts : List Bool) : Prop :=
  ts.length = rs.length ∧ ∀ i, ts.getD i false = true → Hits g.nodes (reg rs i) c

theorem exec_hits {g : Graph} (hon : g.on = true) {c : Nat} {rs : List Ten} {ts : List Bool} (h : Marked g c rs ts)
    (o : Instr) (ho : o.taint ts = true) : Hits (o.exec rs g).2.nodes (o.exec rs g).1 c := by
  cases o with
  | op args saved so once =>
    obtain ⟨i, hi, ht⟩ := List.any_eq_true.1 ho
    exact make_hits hon ⟨reg rs i, List.mem_map.2 ⟨i, hi, rfl⟩, h.2 i ht⟩
  | view a => exact view_hits hon (h.2 a ho)
  | zeros => cases ho
  | write a v =>
    simp only [Instr.taint, Bool.or_eq_true] at ho
    exact write_hits hon (ho.imp (h.2 a) (h.2 v))
  | push a v =>
    simp only [Instr.taint, Bool.or_eq_true] at ho
    refine write_hits (by rw [(make_later ..).on]; exact hon) ?_
    rcases ho with ho | ho
    · exact .inl (make_hits hon ⟨_, List.mem_singleton.2 rfl, h.2 a ho⟩)
    · exact .inr ((make_later ..).hits (h.2 v ho))

theorem reg_append_left {rs : List Ten} {i : Nat} (h : i < rs.length) (t : Ten) : reg (rs ++ [t]) i = reg rs i := by
  unfold reg
  simp only [List.getD_eq_getElem?_getD]
  rw [List.getElem?_append_left h]

theorem reg_append_last (rs : List Ten) (t : Ten) : reg (rs ++ [t]) rs.length = t := by
  unfold reg
  simp [List.getD_eq_getElem?_getD]

theorem getD_append_left {ts : List Bool} {i : Nat} (h : i < ts.length) (t : Bool) :
    (ts ++ [t]).getD i false = ts.getD i false := by
  simp only [List.getD_eq_getElem?_getD]
  rw [List.getElem?_append_left h]

theorem run_marked : ∀ (cs : List Instr) (rs : List Ten) (ts : List Bool) (g : Graph) (c : Nat), g.on = true →
    Marked g c rs ts → Marked (run cs rs g).2 c (run cs rs g).1 (taint cs ts)
  | [], _, _, _, _, _, h => h
  | o :: cs, rs, ts, g, c, hon, h => by
    have hl := exec_later rs g o
    refine run_marked cs _ _ _ c (by rw [hl.on]; exact hon) ⟨by simp [h.1], ?_⟩
    intro i hi
    by_cases hlt : i < rs.length
    · rw [reg_append_left hlt]
      rw [getD_append_left (by rw [h.1]; exact hlt)] at hi
      exact hl.hits (h.2 i hi)
    · by_cases he : i = rs.length
      · subst he
        rw [reg_append_last]
        refine exec_hits hon h o ?_
        simpa [List.getD_eq_getElem?_getD, ← h.1] using hi
      · exfalso
        rw [List.getD_eq_getElem?_getD, List.getElem?_eq_none (by simp [h.1]; omega)] at hi
        cases hi

end CoInf.Grad
