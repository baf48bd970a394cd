/-
Which outputs and states gradients of a frame arrive from.
-/
import Verif.Lemmas.GradSafe

set_option autoImplicit false

namespace CoInf.Grad

open CoInf.Spec

/-- Which parts of the state depend on what the module has seen (the memory of queries has no entries if the query is the
newest token). -/
def Kind.flows : Kind → List Bool
  | .layer _ _ => []
  | .conv .. => [true]
  | .pool .. => [true]
  | .delay .. => [true]
  | .single _ o => [o, true, true]
  | .retro _ => [true, true, true, true, true]

def Kind.isDelay : Kind → Bool
  | .delay .. => true
  | _ => false

/-- The marks of the registers before a step. -/
def Kind.marks (k : Kind) (x st first : Bool) : List Bool :=
  x :: List.replicate k.leaf.params false ++
    (if first then [] else if st then k.flows else List.replicate k.flows.length false)

/-- Marks of the state after a step. -/
def Kind.after (k : Kind) (first emit : Bool) (ts : List Bool) : List Bool :=
  (k.leaf.keep first emit).map fun i => (taint (k.leaf.code first emit) ts).getD i false

/-- Mark of the output. -/
def Kind.outMark (k : Kind) (first emit : Bool) (ts : List Bool) : Bool :=
  (taint (k.leaf.code first emit) ts).getD (k.leaf.out first emit) false

/-- A marked input marks the state. -/
def Kind.Absorbs (k : Kind) : Prop := ∀ first emit : Bool, k.after first emit (k.marks true false first) = k.flows

/-- A marked input and a marked state mark output and state. -/
def Kind.Relays (k : Kind) : Prop := ∀ first emit : Bool,
  k.after first emit (k.marks true true first) = k.flows ∧
  (emit = true → (k.isDelay && first) = false → k.outMark first emit (k.marks true true first) = true)

/-- A marked state marks output and state. -/
def Kind.Carries (k : Kind) : Prop := ∀ emit : Bool,
  k.after false emit (k.marks false true false) = k.flows ∧
  (emit = true → k.stateful = true → k.outMark false emit (k.marks false true false) = true)

instance (k : Kind) : Decidable k.Absorbs := by unfold Kind.Absorbs; infer_instance
instance (k : Kind) : Decidable k.Relays := by unfold Kind.Relays; infer_instance
instance (k : Kind) : Decidable k.Carries := by unfold Kind.Carries; infer_instance

def Kind.Flow (k : Kind) : Prop := k.Absorbs ∧ k.Relays ∧ k.Carries

instance (k : Kind) : Decidable k.Flow := by unfold Kind.Flow; infer_instance

theorem bare_flows (k : Kind) : k.bare.flows = k.flows := by cases k <;> rfl
theorem bare_delay (k : Kind) : k.bare.isDelay = k.isDelay := by cases k <;> rfl
theorem bare_stateful (k : Kind) : k.bare.stateful = k.stateful := by cases k <;> rfl

theorem flow_layer : ∀ w o, (Kind.layer w o).Flow := by decide +kernel
theorem flow_conv : ∀ r t, (Kind.conv 0 0 0 r t).Flow := by decide +kernel
theorem flow_pool : ∀ m r sp c, (Kind.pool 0 0 0 0 m r sp c).Flow := by decide +kernel
theorem flow_delay : ∀ sh r, (Kind.delay 0 sh r).Flow := by decide +kernel
theorem flow_single : ∀ o, (Kind.single 0 o).Flow := by decide +kernel
theorem flow_retro : (Kind.retro 0).Flow := by decide +kernel

theorem kind_flow (k : Kind) : k.Flow := by
  have h : k.bare.Flow := by
    cases k with
    | layer w o => exact flow_layer w o
    | conv K s p r t => exact flow_conv r t
    | pool K d s p m r sp c => exact flow_pool m r sp c
    | delay d sh r => exact flow_delay sh r
    | single N o => exact flow_single o
    | retro N => exact flow_retro
  unfold Kind.Flow Kind.Absorbs Kind.Relays Kind.Carries Kind.after Kind.outMark Kind.marks at h ⊢
  rw [bare_code, bare_out, bare_keep, bare_params, bare_flows, bare_delay, bare_stateful] at h
  exact h

/-! ### The node of the first operation with weights -/

/-- The step of a module with weights and a state: what comes before the operation with the weights, and after it. -/
def Kind.pre (k : Kind) (first : Bool) : List Instr :=
  match k with
  | .single .. => if first then [.zeros, .zeros, .zeros] else []
  | .retro _ => if first then [.zeros, .zeros, .zeros, .zeros, .zeros] else []
  | _ => []

def Kind.post (k : Kind) (first emit : Bool) : List Instr :=
  (k.leaf.code first emit).drop ((k.pre first).length + 1)

/-- The number of registers before a step. -/
def Kind.regs (k : Kind) (first : Bool) : Nat := 1 + k.leaf.params + (if first then 0 else k.flows.length)

/-- The operation with the weights marks output and state. -/
def Kind.Origin (k : Kind) : Prop := ∀ first emit : Bool,
  k.leaf.code first emit = k.pre first ++ .op [0, 1] [0, 1] false true :: k.post first emit ∧
  (let ts := taint (k.post first emit) (List.replicate (k.regs first + (k.pre first).length) false ++ [true])
   (k.leaf.keep first emit).map (fun i => ts.getD i false) = k.flows ∧
   (emit = true → ts.getD (k.leaf.out first emit) false = true))

instance (k : Kind) : Decidable k.Origin := by unfold Kind.Origin; infer_instance

theorem origin_conv : ∀ r t, (Kind.conv 0 0 0 r t).Origin := by decide +kernel
theorem origin_single : ∀ o, (Kind.single 0 o).Origin := by decide +kernel
theorem origin_retro : (Kind.retro 0).Origin := by decide +kernel

theorem bare_pre (k : Kind) : k.bare.pre = k.pre := by cases k <;> rfl

theorem kind_origin (k : Kind) (hk : k.heavy = true) : k.Origin := by
  have h : k.bare.Origin := by
    cases k with
    | layer w o => cases hk
    | conv K s p r t => exact origin_conv r t
    | pool K d s p m r sp c => cases hk
    | delay d sh r => cases hk
    | single N o => exact origin_single o
    | retro N => exact origin_retro
  unfold Kind.Origin Kind.post Kind.regs at h ⊢
  rw [bare_code, bare_out, bare_keep, bare_params, bare_flows, bare_pre] at h
  exact h

/-! ### One step of a module -/

/-- The state is marked. -/
def Kept (g : Graph) (c : Nat) (k : Kind) (s : St) : Prop := Marked g c s.1 k.flows

theorem Marked.later {g g' : Graph} {c : Nat} {rs : List Ten} {ts : List Bool} (a : Later g g') (h : Marked g c rs ts) :
    Marked g' c rs ts := ⟨h.1, fun i hi => a.hits (h.2 i hi)⟩

theorem marked_false (g : Graph) (c : Nat) (rs : List Ten) : Marked g c rs (List.replicate rs.length false) := by
  refine ⟨by simp, fun i hi => ?_⟩
  simp [List.getD_eq_getElem?_getD, List.getElem?_replicate] at hi
  split at hi <;> simp at hi

theorem Marked.append {g : Graph} {c : Nat} {rs rs' : List Ten} {ts ts' : List Bool} (h : Marked g c rs ts)
    (h' : Marked g c rs' ts') : Marked g c (rs ++ rs') (ts ++ ts') := by
  refine ⟨by simp [h.1, h'.1], fun i hi => ?_⟩
  unfold reg
  simp only [List.getD_eq_getElem?_getD] at hi ⊢
  by_cases hlt : i < ts.length
  · rw [List.getElem?_append_left hlt] at hi
    rw [List.getElem?_append_left (by rw [← h.1]; exact hlt)]
    have := h.2 i (by rw [List.getD_eq_getElem?_getD]; exact hi)
    unfold reg at this
    rwa [List.getD_eq_getElem?_getD] at this
  · rw [List.getElem?_append_right (by omega)] at hi
    rw [List.getElem?_append_right (by rw [← h.1]; omega), ← h.1]
    have := h'.2 (i - ts.length) (by rw [List.getD_eq_getElem?_getD]; exact hi)
    unfold reg at this
    rwa [List.getD_eq_getElem?_getD] at this

theorem Marked.single {g : Graph} {c : Nat} {x : Ten} (b : Bool) (h : b = true → Hits g.nodes x c) :
    Marked g c [x] [b] := by
  refine ⟨rfl, fun i hi => ?_⟩
  cases i with
  | zero => exact h hi
  | succ i => cases hi

/-- The marks of the registers, from those of input and state. -/
theorem marks_ok {g : Graph} {c : Nat} {k : Kind} {ps : List Ten} {st : Option St} {x : Ten} (b m : Bool)
    (hx : b = true → Hits g.nodes x c) (hp : ps.length = k.leaf.params)
    (hl : ∀ s, st = some s → s.1.length = k.flows.length) (hs : m = true → ∀ s, st = some s → Kept g c k s) :
    Marked g c (x :: ps ++ (st.map Prod.fst).getD []) (k.marks b m st.isNone) := by
  have h1 : Marked g c ([x] ++ ps) ([b] ++ List.replicate k.leaf.params false) :=
    (Marked.single b hx).append (by rw [← hp]; exact marked_false g c ps)
  refine h1.append ?_
  cases st with
  | none => exact ⟨rfl, fun i hi => by cases hi⟩
  | some s =>
    cases m with
    | true => exact hs rfl s rfl
    | false =>
      have := marked_false g c s.1
      rw [hl s rfl] at this
      exact this

/-- After the step: from the marks after the code. -/
theorem leaf_after {g : Graph} {c : Nat} {k : Kind} {st : Option St} {x : Ten} {ps : List Ten} {ts : List Bool}
    (hm : let e := k.leaf.emits ((st.map Prod.snd).getD k.leaf.start)
      let r := run (k.leaf.code st.isNone e) (x :: ps ++ (st.map Prod.fst).getD []) g
      Marked r.2 c r.1 ts)
    (hk : (k.leaf.keep st.isNone (k.leaf.emits ((st.map Prod.snd).getD k.leaf.start))).map (fun i => ts.getD i false)
      = k.flows) :
    (∃ s, (k.leaf.step ps st x g).2.1 = some s ∧ Kept (k.leaf.step ps st x g).2.2 c k s) ∧
    (ts.getD (k.leaf.out st.isNone (k.leaf.emits ((st.map Prod.snd).getD k.leaf.start))) false = true →
      ∀ y, (k.leaf.step ps st x g).1 = some y → Hits (k.leaf.step ps st x g).2.2.nodes y c) := by
  simp only at hm
  constructor
  · refine ⟨_, rfl, ?_⟩
    unfold Kept
    rw [← hk]
    refine ⟨by simp, fun i hi => ?_⟩
    unfold reg
    simp only [List.getD_eq_getElem?_getD, List.getElem?_map] at hi ⊢
    cases hj : (k.leaf.keep st.isNone (k.leaf.emits ((st.map Prod.snd).getD k.leaf.start)))[i]? with
    | none => rw [hj] at hi; cases hi
    | some j =>
      rw [hj] at hi
      simp only [Option.map_some, Option.getD_some] at hi ⊢
      exact hm.2 j (by rw [List.getD_eq_getElem?_getD]; exact hi)
  · intro ho y hy
    simp only [Leaf.step] at hy
    split at hy
    · cases hy
      exact hm.2 _ ho
    · cases hy

theorem delay_first {k : Kind} (hk : k.Fine) (he : k.leaf.emits k.leaf.start = true) : k.isDelay = false := by
  cases k with
  | delay d sh r =>
    exfalso
    have hd : 1 ≤ d := hk
    simp only [Kind.leaf, delay, decide_eq_true_eq] at he
    cases sh <;> simp at he <;> omega
  | _ => rfl

/-- A marked input and a marked state. -/
theorem leaf_relays {g : Graph} (hon : g.on = true) {c : Nat} {k : Kind} (hf : k.Fine) {ps : List Ten} {st : Option St}
    {x : Ten} (hp : ps.length = k.leaf.params) (hx : Hits g.nodes x c) (hs : ∀ s, st = some s → Kept g c k s) :
    (∃ s, (k.leaf.step ps st x g).2.1 = some s ∧ Kept (k.leaf.step ps st x g).2.2 c k s) ∧
    ∀ y, (k.leaf.step ps st x g).1 = some y → Hits (k.leaf.step ps st x g).2.2.nodes y c := by
  have hm := run_marked (k.leaf.code st.isNone (k.leaf.emits ((st.map Prod.snd).getD k.leaf.start))) _ _ g c hon
    (marks_ok (k := k) (ps := ps) (st := st) (x := x) true true (fun _ => hx) hp
      (fun s h => (hs s h).1.symm) (fun _ => hs))
  have hfl := (kind_flow k).2.1 st.isNone (k.leaf.emits ((st.map Prod.snd).getD k.leaf.start))
  have h := leaf_after hm hfl.1
  refine ⟨h.1, fun y hy => h.2 (hfl.2 ?_ ?_) y hy⟩
  · simp only [Leaf.step] at hy
    split at hy
    · assumption
    · cases hy
  · cases st with
    | some s => simp
    | none =>
      simp only [Option.isNone_none, Bool.and_true]
      refine delay_first hf ?_
      simp only [Leaf.step] at hy
      split at hy
      · assumption
      · cases hy

/-- A marked input marks the state. -/
theorem leaf_absorbs {g : Graph} (hon : g.on = true) {c : Nat} {k : Kind} {ps : List Ten} {st : Option St} {x : Ten}
    (hp : ps.length = k.leaf.params) (hl : ∀ s, st = some s → s.1.length = k.flows.length) (hx : Hits g.nodes x c) :
    ∃ s, (k.leaf.step ps st x g).2.1 = some s ∧ Kept (k.leaf.step ps st x g).2.2 c k s := by
  have hm := run_marked (k.leaf.code st.isNone (k.leaf.emits ((st.map Prod.snd).getD k.leaf.start))) _ _ g c hon
    (marks_ok (k := k) (ps := ps) (st := st) (x := x) true false (fun _ => hx) hp hl (fun h => by cases h))
  exact (leaf_after hm ((kind_flow k).1 _ _)).1

/-- A marked state. -/
theorem leaf_carries {g : Graph} (hon : g.on = true) {c : Nat} {k : Kind} {ps : List Ten} {s : St} {x : Ten}
    (hp : ps.length = k.leaf.params) (hs : Kept g c k s) :
    (∃ s', (k.leaf.step ps (some s) x g).2.1 = some s' ∧ Kept (k.leaf.step ps (some s) x g).2.2 c k s') ∧
    (k.stateful = true →
      ∀ y, (k.leaf.step ps (some s) x g).1 = some y → Hits (k.leaf.step ps (some s) x g).2.2.nodes y c) := by
  have hm := run_marked (k.leaf.code false (k.leaf.emits s.2)) _ _ g c hon
    (marks_ok (k := k) (ps := ps) (st := some s) (x := x) false true (fun h => by cases h) hp
      (fun s' h => by cases h; exact hs.1.symm) (fun _ s' h => by cases h; exact hs))
  have hfl := (kind_flow k).2.2 (k.leaf.emits s.2)
  have h := leaf_after (st := some s) hm hfl.1
  refine ⟨h.1, fun hst y hy => h.2 (hfl.2 ?_ hst) y hy⟩
  simp only [Leaf.step] at hy
  split at hy
  · assumption
  · cases hy

theorem run_append : ∀ (as bs : List Instr) (rs : List Ten) (g : Graph),
    run (as ++ bs) rs g = run bs (run as rs g).1 (run as rs g).2
  | [], _, _, _ => rfl
  | a :: as, bs, rs, g => by
    simp only [List.cons_append, run]
    exact run_append as bs _ _

theorem run_regs : ∀ (cs : List Instr) (rs : List Ten) (g : Graph), (run cs rs g).1.length = rs.length + cs.length
  | [], _, _ => by simp [run]
  | c :: cs, rs, g => by
    simp only [run]
    rw [run_regs cs]
    simp only [List.length_append, List.length_cons, List.length_nil]
    omega

theorem run_reg_old : ∀ (cs : List Instr) (rs : List Ten) (g : Graph) (i : Nat), i < rs.length →
    reg (run cs rs g).1 i = reg rs i
  | [], _, _, _, _ => rfl
  | c :: cs, rs, g, i, hi => by
    simp only [run]
    rw [run_reg_old cs _ _ i (by simp; omega), reg_append_left hi]

/-- A node that was made in this step, cannot be run twice, saved the input of the module and the weight in its present
version. -/
structure Fresh (g g' : Graph) (c m : Nat) (ps : List Ten) : Prop where
  new : g.nodes.length ≤ c
  node : ∃ n, nodeAt g'.nodes c = some n ∧ n.once = true ∧ m ∈ n.saved.map Prod.fst ∧
    ∃ p ∈ ps, ∃ v, (p.mem, v) ∈ n.saved ∧ v ≤ g'.ver p.mem

/-- The step of a module with weights and a state makes a node that marks output and state. -/
theorem leaf_origin {g : Graph} (hon : g.on = true) {k : Kind} (hk : k.heavy = true) {ps : List Ten} {st : Option St}
    {x : Ten} (hp : ps.length = k.leaf.params) (hl : ∀ s, st = some s → s.1.length = k.flows.length)
    (hq : ∀ p ∈ ps, p.req = true) :
    ∃ c, Fresh g (k.leaf.step ps st x g).2.2 c x.mem ps ∧
    (∃ s, (k.leaf.step ps st x g).2.1 = some s ∧ Kept (k.leaf.step ps st x g).2.2 c k s) ∧
    ∀ y, (k.leaf.step ps st x g).1 = some y → Hits (k.leaf.step ps st x g).2.2.nodes y c := by
  obtain ⟨hcode, hkeep, hout⟩ := kind_origin k hk st.isNone (k.leaf.emits ((st.map Prod.snd).getD k.leaf.start))
  obtain ⟨w, ps', rfl⟩ : ∃ w ps', ps = w :: ps' := by
    cases ps with
    | nil =>
      exfalso
      cases k <;> first | exact Bool.noConfusion hk | exact absurd hp (by show (0 : Nat) ≠ 2; decide)
    | cons w ps' => exact ⟨w, ps', rfl⟩
  set rs := x :: (w :: ps') ++ (st.map Prod.fst).getD [] with hrs
  set A := run (k.pre st.isNone) rs g with hA
  have hAl : A.1.length = k.regs st.isNone + (k.pre st.isNone).length := by
    rw [hA, run_regs, hrs]
    unfold Kind.regs
    simp only [List.cons_append, List.length_cons, List.length_append]
    simp only [List.length_cons] at hp
    cases st with
    | none => simp; omega
    | some s =>
      have := hl s rfl
      simp; omega
  have h0 : reg A.1 0 = x := by rw [hA, run_reg_old _ _ _ _ (by simp [hrs])]; rfl
  have h1 : reg A.1 1 = w := by rw [hA, run_reg_old _ _ _ _ (by simp [hrs])]; rfl
  have hon' : A.2.on = true := by rw [hA, (run_later ..).on]; exact hon
  have hwreq : w.req = true := hq w (by simp)
  -- the operation
  set B := Instr.exec A.1 A.2 (.op [0, 1] [0, 1] false true) with hB
  have hBe : B = (⟨true, some A.2.nodes.length, A.2.used⟩,
      { A.2 with
        used := A.2.used + 1
        nodes := ⟨fns [x, w], [(x.mem, A.2.ver x.mem), (w.mem, A.2.ver w.mem)], true⟩ :: A.2.nodes }) := by
    rw [hB]
    simp only [Instr.exec, List.map_cons, List.map_nil, h0, h1, Graph.make]
    rw [if_pos ⟨hon', by simp [hwreq]⟩]
    simp
  have hlB : Later A.2 B.2 := exec_later ..
  have hmark : Marked B.2 A.2.nodes.length (A.1 ++ [B.1])
      (List.replicate (k.regs st.isNone + (k.pre st.isNone).length) false ++ [true]) := by
    rw [← hAl]
    refine (marked_false _ _ _).append (Marked.single true fun _ => ?_)
    rw [hBe]
    exact ⟨rfl, _, rfl, .root (by simp)⟩
  have hrun := run_marked (k.post st.isNone (k.leaf.emits ((st.map Prod.snd).getD k.leaf.start))) _ _ _ _
    (by rw [hlB.on]; exact hon') hmark
  have hsplit : run (k.leaf.code st.isNone (k.leaf.emits ((st.map Prod.snd).getD k.leaf.start))) rs g =
      run (k.post st.isNone (k.leaf.emits ((st.map Prod.snd).getD k.leaf.start))) (A.1 ++ [B.1]) B.2 := by
    rw [hcode, run_append]
    rfl
  have hlast : Later B.2 (k.leaf.step (w :: ps') st x g).2.2 := by
    show Later B.2 (run (k.leaf.code st.isNone (k.leaf.emits ((st.map Prod.snd).getD k.leaf.start))) rs g).2
    rw [hsplit]
    exact run_later ..
  have haft := leaf_after (k := k) (ps := w :: ps') (st := st) (x := x) (g := g) (c := A.2.nodes.length)
    (by
      simp only
      rw [← hrs, hsplit]
      exact hrun) hkeep
  refine ⟨A.2.nodes.length, ⟨?_, ?_⟩, haft.1, fun y hy => haft.2 (hout ?_) y hy⟩
  · exact (run_later (k.pre st.isNone) rs g).len
  · refine ⟨_, hlast.node _ _ (by rw [hBe]; simp only [nodeAt]; rw [if_pos trivial]), rfl, by simp, w, by simp,
      A.2.ver w.mem, by simp, ?_⟩
    have := hlast.ver w.mem
    rw [hBe] at this
    exact this
  · simp only [Leaf.step] at hy
    split at hy
    · assumption
    · cases hy

/-- So does a layer with weights. -/
theorem layer_origin {g : Graph} (hon : g.on = true) {o : Bool} {ps : List Ten} {st : Option St} {x : Ten}
    (hp : ps.length = 1) (hl : ∀ s, st = some s → s.1.length = 0) (hq : ∀ p ∈ ps, p.req = true) :
    ∃ c y s, ((Kind.layer true o).leaf.step ps st x g).1 = some y ∧
      ((Kind.layer true o).leaf.step ps st x g).2.1 = some s ∧ s.1 = [] ∧
      Fresh g ((Kind.layer true o).leaf.step ps st x g).2.2 c x.mem ps ∧
      Hits ((Kind.layer true o).leaf.step ps st x g).2.2.nodes y c := by
  obtain ⟨w, rfl⟩ := List.length_eq_one_iff.1 hp
  have hwreq : w.req = true := hq w (by simp)
  have hkept : (st.map Prod.fst).getD [] = [] := by
    cases st with
    | none => rfl
    | some s => exact List.length_eq_zero_iff.1 (hl s rfl)
  set B := Graph.make g [x, w] [x, w] o true with hB
  have hBe : B = (⟨true, some g.nodes.length, g.used⟩,
      { g with
        used := g.used + 1
        nodes := ⟨fns [x, w], [(x.mem, g.ver x.mem), (w.mem, g.ver w.mem)] ++
          (if o then [(g.used, g.ver g.used)] else []), true⟩ :: g.nodes }) := by
    rw [hB, Graph.make, if_pos ⟨hon, by simp [hwreq]⟩]
    rfl
  have hstep : (Kind.layer true o).leaf.step [w] st x g = (some B.1, some ([], (st.map Prod.snd).getD 0), B.2) := by
    unfold Leaf.step
    rw [hkept]
    rfl
  rw [hstep]
  refine ⟨g.nodes.length, B.1, _, rfl, rfl, rfl, ⟨Nat.le_refl _, ?_⟩, ?_⟩
  · rw [hBe]
    refine ⟨_, by simp only [nodeAt]; rw [if_pos trivial], rfl, by simp, w, by simp, g.ver w.mem, by simp, ?_⟩
    exact Nat.le_refl _
  · rw [hBe]
    exact ⟨rfl, _, rfl, .root (by simp)⟩

end CoInf.Grad
