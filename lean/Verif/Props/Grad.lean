/-
C86-C88: training through the streaming interface.
-/
import Verif.Lemmas.GradNet

set_option autoImplicit false

namespace CoInf

open Grad Spec

namespace Grad

/-! ### A new stream -/

/-- The network before a stream: all that was released belongs to earlier nodes. -/
structure Start (net : Net) (i : Inst) (g : Graph) : Prop where
  wf : Wf g.nodes
  shaped : Shaped net i
  blank : Blank i
  fn : ∀ t ∈ i.params, t.fn = none
  mem : ∀ t ∈ i.params, t.mem < g.used
  gone : ∀ j ∈ g.gone, j < g.nodes.length

theorem blank_kept : ∀ {i : Inst}, Blank i → i.kept = []
  | .one _ st, h => by rw [show st = none from h]; rfl
  | .two a b, h => by simp only [Inst.kept, blank_kept h.1, blank_kept h.2, List.append_nil]

theorem Start.lt {net : Net} {i : Inst} {g : Graph} (h : Start net i g) : i.Lt g :=
  ⟨h.fn, by rw [blank_kept h.blank]; simp⟩

theorem build_start (net : Net) (on : Bool) : Start net (net.build (.empty on)).1 (net.build (.empty on)).2 := by
  have h := build_new net (.empty on)
  refine ⟨?_, build_shaped _ _, build_blank _ _, fun t ht => (h.1 t ht).1, fun t ht => (h.1 t ht).2.2, ?_⟩
  · rw [h.2.2.1]; trivial
  · rw [h.2.2.2.1]; simp [Graph.empty]

theorem start_instOk {g : Graph} {b : Nat} : ∀ {net : Net} {i : Inst}, Shaped net i → Blank i →
    (∀ t ∈ i.params, t.fn = none) → (∀ t ∈ i.params, t.mem < g.used) → InstOk b (fun _ => False) g net i
  | .one k, .one ps st, hs, hb, hf, hm => by
    refine ⟨⟨by rw [hs.1]; simp, fun i w hw => ?_⟩, fun s h => by rw [show st = none from hb] at h; cases h⟩
    have hlt : i < ps.length := by
      have := (List.getElem?_eq_some_iff.1 hw).1
      rw [List.length_replicate] at this
      rw [hs.1]; exact this
    have hw' : w = false := by
      rw [List.getElem?_replicate] at hw
      split at hw <;> simp at hw
      exact hw
    subst hw'
    have hmem : reg ps i ∈ ps := by
      unfold reg
      rw [List.getD_eq_getElem?_getD, List.getElem?_eq_getElem hlt]
      exact List.getElem_mem hlt
    exact ⟨(fun j hj => by rw [hf _ hmem] at hj; cases hj), hm _ hmem, by simp⟩
  | .seq a b', .two ia ib, hs, hb, hf, hm =>
    ⟨start_instOk hs.1 hb.1 (fun t ht => hf t (List.mem_append_left _ ht)) fun t ht => hm t (List.mem_append_left _ ht),
     start_instOk hs.2 hb.2 (fun t ht => hf t (List.mem_append_right _ ht)) fun t ht => hm t (List.mem_append_right _ ht)⟩
  | .sum _ a b', .two ia ib, hs, hb, hf, hm =>
    ⟨start_instOk hs.1 hb.1 (fun t ht => hf t (List.mem_append_left _ ht)) fun t ht => hm t (List.mem_append_left _ ht),
     start_instOk hs.2 hb.2 (fun t ht => hf t (List.mem_append_right _ ht)) fun t ht => hm t (List.mem_append_right _ ht)⟩
  | .one _, .two _ _, hs, _, _, _ => hs.elim
  | .seq _ _, .one _ _, hs, _, _, _ => hs.elim
  | .sum _ _ _, .one _ _, hs, _, _, _ => hs.elim

theorem start_inv {net : Net} {i : Inst} {g : Graph} (h : Start net i g) :
    Inv g.nodes.length (fun _ => False) g :=
  ⟨fun i n hn hb => absurd (nodeAt_lt hn) (by omega), fun i n hn hb => absurd (nodeAt_lt hn) (by omega), h.gone,
    fun _ hm => hm.elim, Nat.le_refl _⟩

/-- A backward pass from tensors of the present stream. -/
theorem backward_ok {b : Nat} {W : Nat → Prop} {g : Graph} (hI : Inv b W g) (hw : Wf g.nodes) {ts : List Ten}
    (hts : ∀ t ∈ ts, ∀ i, t.fn = some i → b ≤ i) (hreq : ts.any Ten.req = true) (retain : Bool) :
    ∃ v, g.backward retain ts = .ok (if retain then g else { g with gone := v ++ g.gone }) ∧
      ∀ j ∈ v, j < g.nodes.length := by
  have hreach : ∀ i, Arrives g.nodes (fns ts) i → b ≤ i := by
    intro i hi
    induction hi with
    | root h =>
      obtain ⟨t, ht, hf⟩ := mem_fns.1 h
      exact hts t ht _ hf
    | step _ hn hj ih => exact hI.ins _ _ hn ih _ hj
  obtain ⟨v, hv, hlt, _⟩ := visit_ok g.ver g.gone g.nodes (fns ts) hw (by
    rintro i n hi hn (⟨_, hg⟩ | hbad)
    · have := hI.gone i hg
      have := hreach i hi
      omega
    · exact hbad fun p hp => (hI.saved i n hn (hreach i hi) p hp).1)
  refine ⟨v, ?_, hlt⟩
  unfold Graph.backward
  rw [if_pos hreq, hv]
  rfl

theorem stream_backward {net : Net} (ht : net.Tame) {i : Inst} {g : Graph} (h : Start net i g) (n : Nat) (retain : Bool)
    {ts : List Ten} (hts : ∀ t ∈ ts, t ∈ (net.stream n i g).1) (hreq : ts.any Ten.req = true) :
    ∃ v, (net.stream n i g).2.2.backward retain ts =
        .ok (if retain then (net.stream n i g).2.2 else
          { (net.stream n i g).2.2 with gone := v ++ (net.stream n i g).2.2.gone }) ∧
      ∀ j ∈ v, j < (net.stream n i g).2.2.nodes.length := by
  obtain ⟨W, _, hI, hO, _⟩ := stream_inv net ht n i g _ _ (start_inv h)
    (start_instOk h.shaped h.blank h.fn h.mem)
  exact backward_ok hI (stream_wf net n i g h.wf h.lt).1 (fun t htt => (hO t (hts t htt)).fn) hreq retain

end Grad

/-- C86.  In a network of the modules above other than max pooling of views, `backward` from any outputs of a stream of any
length succeeds (if they require grad). -/
theorem C86_network_partial (net : Grad.Net) (ht : net.Tame) (n : Nat) (retain : Bool) :
    let B := net.build (.empty true)
    let S := net.stream n B.1 B.2
    ∀ ts : List Ten, (∀ t ∈ ts, t ∈ S.1) → ts.any Ten.req = true → ∃ g', S.2.2.backward retain ts = .ok g' := by
  intro B S ts hts hreq
  obtain ⟨v, hv, _⟩ := stream_backward ht (build_start net true) n retain hts hreq
  exact ⟨_, hv⟩

namespace Grad

theorem write_mem (g : Graph) (a v : Ten) : (g.write a v).1.mem = a.mem := by
  unfold Graph.write
  simp only
  split <;> rfl

theorem write_ver (g : Graph) (a v : Ten) : (g.write a v).2.ver a.mem = g.ver a.mem + 1 := by
  unfold Graph.write
  simp only
  split <;> simp

theorem write_req {g : Graph} (hon : g.on = true) (a : Ten) {v : Ten} (hv : v.req = true) :
    (g.write a v).1.req = true := by
  unfold Graph.write
  simp only
  rw [if_pos ⟨hon, .inr hv⟩]

/-- What max pooling of a view of the buffer does in a step: before, the write, and after. -/
theorem max_pool_run (K d s p : Nat) (r sp first emit : Bool) :
    ∃ pre, (pool K d s p true r sp false).code first emit =
        pre ++ .write (if first then (if sp then 3 else 2) else 1) (if sp then (if first then 1 else 2) else 0) ::
          (if emit then [.view ((if first then 1 else 2) + pre.length), .op [(if first then 1 else 2) + pre.length + 1]
            [(if first then 1 else 2) + pre.length + 1] false true, .view ((if first then 1 else 2) + pre.length + 2)]
          else []) ∧
      (sp = true → ∃ pre', pre = .op [0] [0] false true :: pre') ∧
      (first = false → pre = if sp then [.op [0] [0] false true] else []) ∧
      (pool K d s p true r sp false).out first emit = (if first then 1 else 2) + pre.length + 3 ∧
      (pool K d s p true r sp false).keep first emit = [(if first then 1 else 2) + pre.length] := by
  refine ⟨(if sp then [.op [0] [0] false true] else []) ++
      (if first then [if r then .op [if sp then 1 else 0] [] false false else .zeros,
        .op [if sp then 2 else 1] [] false false] else []), ?_⟩
  cases sp <;> cases first <;> cases emit <;> cases r <;>
    exact ⟨rfl, (fun h => by first | (cases h; done) | exact ⟨_, rfl⟩), (fun h => by first | (cases h; done) | rfl), rfl, rfl⟩

/-- Max pooling of a view: the output depends on a node that saved the buffer, and the next step writes into it. -/
theorem max_pool_step {K d s p : Nat} {r sp : Bool} {st : Option St} {x : Ten} {g : Graph} (hon : g.on = true)
    (hx : x.req = true) (hl : ∀ s, st = some s → s.1.length = 1) :
    let R := (pool K d s p true r sp false).step [] st x g
    ∃ t c', R.2.1 = some ([t], c') ∧
      (∀ y, R.1 = some y → ∃ c n v, Hits R.2.2.nodes y c ∧ nodeAt R.2.2.nodes c = some n ∧ (t.mem, v) ∈ n.saved ∧
        v ≤ R.2.2.ver t.mem) ∧
      (∀ s, st = some s → t.mem = (reg s.1 0).mem ∧ g.ver t.mem < R.2.2.ver t.mem) := by
  intro R
  set first := st.isNone with hfirst
  set kept := (st.map Prod.fst).getD [] with hkept
  set cc := (st.map Prod.snd).getD (pool K d s p true r sp false).start with hcc
  set e := (pool K d s p true r sp false).emits cc with he
  obtain ⟨pre, hcode, hpre, hpre2, hout, hkeep⟩ := max_pool_run K d s p r sp first e
  have hRe : R = (if e then some (reg (run ((pool K d s p true r sp false).code first e) (x :: [] ++ kept) g).1
        ((pool K d s p true r sp false).out first e)) else none,
      some (((pool K d s p true r sp false).keep first e).map
        (reg (run ((pool K d s p true r sp false).code first e) (x :: [] ++ kept) g).1),
        (pool K d s p true r sp false).next cc),
      (run ((pool K d s p true r sp false).code first e) (x :: [] ++ kept) g).2) := rfl
  rw [hcode, hout, hkeep, run_append] at hRe
  set A := run pre (x :: [] ++ kept) g with hA
  have hlA : Later g A.2 := run_later ..
  have hAl : A.1.length = (if first then 1 else 2) + pre.length := by
    rw [hA, run_regs]
    cases st with
    | none => simp [hkept, hfirst]
    | some s =>
      have := hl s rfl
      simp [hkept, hfirst, this]
  set N := (if first then 1 else 2) + pre.length with hN
  have hA0 : reg A.1 0 = x := by rw [hA, run_reg_old _ _ _ _ (by simp)]; rfl
  -- the frame requires grad
  have hfreq : (reg A.1 (if sp then (if first then 1 else 2) else 0)).req = true := by
    cases hsp : sp with
    | false => simp only [Bool.false_eq_true, if_false]; rw [hA0]; exact hx
    | true =>
      obtain ⟨pre', hp'⟩ := hpre hsp
      simp only [if_true]
      have hlen : (x :: [] ++ kept).length = if first then 1 else 2 := by
        cases st with
        | none => simp [hkept, hfirst]
        | some s =>
          have := hl s rfl
          simp [hkept, hfirst, this]
      have hA' : A = run pre' ((x :: [] ++ kept) ++ [(Instr.exec (x :: [] ++ kept) g (.op [0] [0] false true)).1])
          (Instr.exec (x :: [] ++ kept) g (.op [0] [0] false true)).2 := by
        rw [hA, hp']
        rfl
      rw [hA', run_reg_old _ _ _ _ (by rw [← hlen]; simp), ← hlen, reg_append_last]
      simp only [Instr.exec, List.map_cons, List.map_nil]
      have h0 : reg (x :: [] ++ kept) 0 = x := rfl
      rw [h0]
      unfold Graph.make
      rw [if_pos ⟨hon, by simp [hx]⟩]
  set a := reg A.1 (if first then (if sp then 3 else 2) else 1) with ha
  set f := reg A.1 (if sp then (if first then 1 else 2) else 0) with hf
  have honA : A.2.on = true := by rw [hlA.on]; exact hon
  set Wr := A.2.write a f with hWr
  have hWreq : Wr.1.req = true := write_req honA a hfreq
  have hWon : Wr.2.on = true := by rw [hWr, (write_later ..).on]; exact honA
  -- the state of the buffer
  have hstate : ∀ s, st = some s → a = reg s.1 0 := by
    intro s hs
    have hf0 : first = false := by rw [hfirst, hs]; rfl
    rw [ha, hf0]
    simp only [Bool.false_eq_true, if_false]
    have h1 := hl s hs
    rw [hA, run_reg_old _ _ _ _ (by simp [hkept, hs, h1])]
    rw [hkept, hs]
    rfl
  cases hee : e with
  | false =>
    rw [hee] at hRe
    simp only [Bool.false_eq_true, if_false, run, List.map_cons, List.map_nil] at hRe
    have hexec : Instr.exec A.1 A.2 (.write (if first then (if sp then 3 else 2) else 1)
        (if sp then (if first then 1 else 2) else 0)) = Wr := rfl
    rw [hexec] at hRe
    rw [show reg (A.1 ++ [Wr.1]) N = Wr.1 from by rw [← hAl]; exact reg_append_last _ _] at hRe
    rw [hRe]
    refine ⟨Wr.1, _, rfl, (fun y hy => by cases hy), fun s hs => ⟨?_, ?_⟩⟩
    · rw [hWr, write_mem, hstate s hs]
    · rw [show Wr.1.mem = a.mem from write_mem _ _ _, hWr, write_ver]
      exact Nat.lt_succ_of_le (hlA.ver _)
  | true =>
    rw [hee] at hRe
    simp only [if_true, run, List.map_cons, List.map_nil] at hRe
    have hexec : Instr.exec A.1 A.2 (.write (if first then (if sp then 3 else 2) else 1)
        (if sp then (if first then 1 else 2) else 0)) = Wr := rfl
    rw [hexec] at hRe
    have hr1 : reg (A.1 ++ [Wr.1]) N = Wr.1 := by rw [← hAl]; exact reg_append_last _ _
    set V := Wr.2.view Wr.1 with hV
    have hexec2 : Instr.exec (A.1 ++ [Wr.1]) Wr.2 (.view N) = V := by
      simp only [Instr.exec, hr1]
      exact hV.symm
    rw [hexec2] at hRe
    have hVe : V = (⟨true, some Wr.2.nodes.length, Wr.1.mem⟩,
        { Wr.2 with nodes := ⟨fns [Wr.1], [], false⟩ :: Wr.2.nodes }) := by
      rw [hV, Graph.view, if_pos ⟨hWon, hWreq⟩]
    have hr2 : reg (A.1 ++ [Wr.1] ++ [V.1]) (N + 1) = V.1 := by
      rw [← hAl]
      have : A.1.length + 1 = (A.1 ++ [Wr.1]).length := by simp
      rw [this]
      exact reg_append_last _ _
    set M := V.2.make [V.1] [V.1] false true with hM
    have hexec3 : Instr.exec (A.1 ++ [Wr.1] ++ [V.1]) V.2 (.op [N + 1] [N + 1] false true) = M := by
      simp only [Instr.exec, List.map_cons, List.map_nil, hr2]
      exact hM.symm
    rw [hexec3] at hRe
    have hVon : V.2.on = true := by rw [hVe]; exact hWon
    have hVreq : V.1.req = true := by rw [hVe]
    have hMe : M = (⟨true, some V.2.nodes.length, V.2.used⟩,
        { V.2 with
          used := V.2.used + 1
          nodes := ⟨fns [V.1], [(V.1.mem, V.2.ver V.1.mem)], true⟩ :: V.2.nodes }) := by
      rw [hM, Graph.make, if_pos ⟨hVon, by simp [hVreq]⟩]
      rfl
    have hr3 : reg (A.1 ++ [Wr.1] ++ [V.1] ++ [M.1]) (N + 2) = M.1 := by
      rw [← hAl]
      have : A.1.length + 2 = (A.1 ++ [Wr.1] ++ [V.1]).length := by simp
      rw [this]
      exact reg_append_last _ _
    set Q := M.2.view M.1 with hQ
    have hexec4 : Instr.exec (A.1 ++ [Wr.1] ++ [V.1] ++ [M.1]) M.2 (.view (N + 2)) = Q := by
      simp only [Instr.exec, hr3]
      exact hQ.symm
    rw [hexec4] at hRe
    have hlast : reg (A.1 ++ [Wr.1] ++ [V.1] ++ [M.1] ++ [Q.1]) (N + 3) = Q.1 := by
      rw [← hAl]
      have : A.1.length + 3 = (A.1 ++ [Wr.1] ++ [V.1] ++ [M.1]).length := by simp
      rw [this]
      exact reg_append_last _ _
    have hbuf : reg (A.1 ++ [Wr.1] ++ [V.1] ++ [M.1] ++ [Q.1]) N = Wr.1 := by
      have h1 : N < (A.1 ++ [Wr.1]).length := by simp [hAl]
      rw [reg_append_left (by simp at h1 ⊢; omega), reg_append_left (by simp at h1 ⊢; omega), reg_append_left (by exact h1),
        hr1]
    rw [hlast, hbuf] at hRe
    have hMon : M.2.on = true := by rw [hMe]; exact hVon
    have hhit : Hits M.2.nodes M.1 V.2.nodes.length := by
      rw [hMe]
      exact ⟨rfl, _, rfl, .root (by simp)⟩
    have hlQ : Later M.2 Q.2 := view_later ..
    have hver : Q.2.ver Wr.1.mem = Wr.2.ver Wr.1.mem := by
      have h1 : Q.2.ver = M.2.ver := by
        rw [hQ]
        unfold Graph.view
        split <;> rfl
      rw [h1, hMe, hVe]
    rw [hRe]
    refine ⟨Wr.1, _, rfl, ?_, fun s hs => ⟨?_, ?_⟩⟩
    · intro y hy
      cases hy
      refine ⟨V.2.nodes.length, ⟨fns [V.1], [(V.1.mem, V.2.ver V.1.mem)], true⟩, V.2.ver V.1.mem, ?_, ?_, ?_, ?_⟩
      · exact view_hits hMon hhit
      · refine hlQ.node _ _ ?_
        rw [hMe]
        simp only [nodeAt]
        rw [if_pos trivial]
      · rw [show V.1.mem = Wr.1.mem from by rw [hVe]]
        simp
      · show V.2.ver V.1.mem ≤ Q.2.ver Wr.1.mem
        rw [hver, hVe]
        exact Nat.le_refl _
    · rw [hWr, write_mem, hstate s hs]
    · show g.ver Wr.1.mem < Q.2.ver Wr.1.mem
      rw [hver, show Wr.1.mem = a.mem from write_mem _ _ _, hWr, write_ver]
      exact Nat.lt_succ_of_le (hlA.ver _)

/-! ### Backward passes that fail -/

theorem backward_err {g : Graph} (hw : Wf g.nodes) {ts : List Ten} {t : Ten} (ht : t ∈ ts) {c : Nat} (hc : Hits g.nodes t c)
    {n : Node} (hn : nodeAt g.nodes c = some n) (hb : Bad g.ver g.gone c n) (retain : Bool) :
    g.backward retain ts = .error .runtime := by
  obtain ⟨hr, i, hi, hre⟩ := hc
  have hreach : Arrives g.nodes (fns ts) c := by
    refine Arrives.roots (fun j hj => ?_) hre
    rw [List.mem_singleton.1 hj]
    exact mem_fns.2 ⟨t, ht, hi⟩
  unfold Graph.backward
  rw [if_pos (List.any_eq_true.2 ⟨t, ht, hr⟩), visit_err _ _ _ _ c n hw hreach hn hb]
  rfl

theorem backward_gone {g g' : Graph} (hw : Wf g.nodes) {ts : List Ten} {t : Ten} (ht : t ∈ ts) {c : Nat}
    (hc : Hits g.nodes t c) (hlt : c < g.nodes.length) (h : g.backward false ts = .ok g') :
    c ∈ g'.gone ∧ Later g g' ∧ g'.nodes = g.nodes := by
  obtain ⟨hr, i, hi, hre⟩ := hc
  have hreach : Arrives g.nodes (fns ts) c := by
    refine Arrives.roots (fun j hj => ?_) hre
    rw [List.mem_singleton.1 hj]
    exact mem_fns.2 ⟨t, ht, hi⟩
  unfold Graph.backward at h
  rw [if_pos (List.any_eq_true.2 ⟨t, ht, hr⟩)] at h
  cases hv : visit g.ver g.gone g.nodes (fns ts) with
  | error e => rw [hv] at h; cases h
  | ok v =>
    rw [hv] at h
    cases h
    exact ⟨List.mem_append_left _ (visit_mem _ _ hw hv hreach hlt),
      ⟨rfl, Nat.le_refl _, Nat.le_refl _, fun _ _ h => h, fun _ => Nat.le_refl _, fun _ h => List.mem_append_right _ h⟩, rfl⟩

theorem update_later (g : Graph) (ps : List Ten) : Later g (g.update ps) :=
  ⟨rfl, Nat.le_refl _, Nat.le_refl _, fun _ _ h => h, fun m => by
    show g.ver m ≤ if m ∈ ps.map Ten.mem then g.ver m + 1 else g.ver m
    split <;> omega, fun _ h => h⟩

theorem stream_add (net : Net) (n : Nat) (i : Inst) (g : Graph) : ∀ m,
    net.stream (n + m) i g = ((net.stream n i g).1 ++ (net.stream m (net.stream n i g).2.1 (net.stream n i g).2.2).1,
      (net.stream m (net.stream n i g).2.1 (net.stream n i g).2.2).2)
  | 0 => by simp [Net.stream]
  | m + 1 => by
    rw [← Nat.add_assoc]
    simp only [Net.stream]
    rw [stream_add net n i g m]
    simp [List.append_assoc]

/-- From a recorded node on, every output depends on it. -/
theorem rec_stream {c : Nat} {net : Net} (hf : net.Fine) : ∀ (n : Nat) (i : Inst) (g : Graph), Rec g c net i →
    g.on = true → Shaped net i →
    (∀ y ∈ (net.stream n i g).1, Hits (net.stream n i g).2.2.nodes y c) ∧
    Rec (net.stream n i g).2.2 c net (net.stream n i g).2.1
  | 0, _, _, h, _, _ => ⟨by simp [Net.stream], h⟩
  | n + 1, i, g, h, hon, hs => by
    obtain ⟨h1, h2⟩ := rec_stream hf n i g h hon hs
    have hl := frame_later (net.stream n i g).2.2
    have hon' : (net.stream n i g).2.2.frame.2.on = true := by
      rw [hl.on, (stream_later net n i g).on]; exact hon
    obtain ⟨h3, h4⟩ := rec_step (h2.later hl) hf hon' (stream_shaped net n i g hs) (net.stream n i g).2.2.frame.1
    refine ⟨?_, h4⟩
    intro y hy
    rcases List.mem_append.1 hy with hy | hy
    · exact (hl.trans (step_later ..)).hits (h1 y hy)
    · exact h3 y (Option.mem_toList.1 hy)

/-- The first frame of a stream: a node that all the outputs depend on. -/
theorem first_frame {net : Net} (hk : Remembers net) (hf : net.Fine) {i : Inst} {g : Graph} (hon : g.on = true)
    (hs : Shaped net i) (hb : Blank i) (n : Nat) :
    ∃ c m, c < (net.stream 1 i g).2.2.nodes.length ∧ Saver (net.stream (n + 1) i g).2.2 c m i.params ∧
      (∀ y ∈ (net.stream (n + 1) i g).1, Hits (net.stream (n + 1) i g).2.2.nodes y c) ∧
      Rec (net.stream (n + 1) i g).2.2 c net (net.stream (n + 1) i g).2.1 := by
  obtain ⟨c, m, _, _, hsv, _, hrec⟩ := remembers_start hk i g.frame.1 g.frame.2 0 hf hon hs (Nat.zero_le _)
    (Nat.lt_succ_self _) (Nat.zero_le _)
  obtain ⟨hr, hy⟩ := hrec hb
  set S := net.step i g.frame.1 g.frame.2 with hS
  have h1 : net.stream 1 i g = (S.1.toList, S.2.1, S.2.2) := by simp [Net.stream, hS]
  have hlt : c < (net.stream 1 i g).2.2.nodes.length := by
    rw [h1]
    obtain ⟨nd, hnd, _⟩ := hsv.node
    exact nodeAt_lt hnd
  rw [h1] at hlt ⊢
  rw [show n + 1 = 1 + n by omega, stream_add, h1]
  have honS : S.2.2.on = true := by rw [hS, (step_later ..).on]; exact hon
  obtain ⟨h2, h3⟩ := rec_stream hf n S.2.1 S.2.2 hr honS (step_shaped _ _ _ _ hs)
  refine ⟨c, m, hlt, hsv.later (stream_later ..) (fun _ h => h), ?_, h3⟩
  intro y hy'
  rcases List.mem_append.1 hy' with hy' | hy'
  · exact (stream_later net n S.2.1 S.2.2).hits (hy y (Option.mem_toList.1 hy'))
  · exact h2 y hy'

end Grad

/-- C86.  The gradients arrive at the first frame: all outputs of a stream depend on one node that saved a weight of the
network, and that the first frame made. -/
theorem C86_first_frame (net : Grad.Net) (hk : Remembers net) (hf : net.Fine) (n : Nat) :
    let B := net.build (.empty true)
    let S := net.stream (n + 1) B.1 B.2
    ∃ c nd p, (∀ y ∈ S.1, Hits S.2.2.nodes y c) ∧ nodeAt S.2.2.nodes c = some nd ∧ p ∈ B.1.params ∧
      p.mem ∈ nd.saved.map Prod.fst ∧ c < (net.stream 1 B.1 B.2).2.2.nodes.length := by
  intro B S
  have hst := build_start net true
  have hon : B.2.on = true := by rw [(build_new net _).2.2.2.2]; rfl
  obtain ⟨c, m, hlt, hsv, hy, _⟩ := first_frame hk hf hon hst.shaped hst.blank n
  obtain ⟨nd, hnd, _, _, p, hp, v, hv, _⟩ := hsv.node
  exact ⟨c, nd, p, hy, hnd, hp, List.mem_map.2 ⟨_, hv, rfl⟩, hlt⟩

/-- C86.  In a convolution or an attention, the gradients of every output arrive at all the frames up to then: at a node
that saved the frame and a weight. -/
theorem C86_every_frame (k : Kind) (hk : k.heavy = true) (j m : Nat) :
    let B := (Grad.Net.one k).build (.empty true)
    let S := (Grad.Net.one k).stream j B.1 B.2
    let T := (Grad.Net.one k).stream (j + 1 + m) B.1 B.2
    ∃ c nd p, nodeAt T.2.2.nodes c = some nd ∧ S.2.2.frame.1.mem ∈ nd.saved.map Prod.fst ∧ p ∈ B.1.params ∧
      p.mem ∈ nd.saved.map Prod.fst ∧ ∃ ys, T.1 = S.1 ++ ys ∧ ∀ y ∈ ys, Hits T.2.2.nodes y c := by
  intro B S T
  have hst := build_start (.one k) true
  have hon : B.2.on = true := by rw [(build_new (.one k) _).2.2.2.2]; rfl
  have hfine : (Grad.Net.one k).Fine := by
    show k.Fine
    cases k <;> first | trivial | cases hk
  have hsh := stream_shaped (.one k) j B.1 B.2 hst.shaped
  obtain ⟨ps, st, he⟩ := shaped_one hsh
  have hsh' : Shaped (.one k) (.one ps st) := he ▸ hsh
  have hps : ps = B.1.params := by
    have := stream_params (.one k) j B.1 B.2
    rw [he] at this
    exact this
  have honS : S.2.2.frame.2.on = true := by
    rw [(frame_later _).on, (stream_later ..).on]; exact hon
  obtain ⟨c, hfr, ⟨s, hs', hk'⟩, hout⟩ :=
    leaf_origin (x := S.2.2.frame.1) honS hk hsh'.1 hsh'.2.2 hsh'.2.1
  set R := k.leaf.step ps st S.2.2.frame.1 S.2.2.frame.2 with hR
  have h1 : (Grad.Net.one k).stream (j + 1) B.1 B.2 = (S.1 ++ R.1.toList, .one ps R.2.1, R.2.2) := by
    show ((S.1 ++ _, _, _) : List Ten × Inst × Graph) = _
    rw [show S.2.1 = .one ps st from he]
    rfl
  have hT : T = _ := stream_add (.one k) (j + 1) B.1 B.2 m
  rw [h1] at hT
  simp only at hT
  have hst' : k.stateful = true := by cases k <;> first | rfl | cases hk
  have hrec : Rec R.2.2 c (.one k) (.one ps R.2.1) := by
    rw [hs']
    exact .leaf hst' hk'
  have honR : R.2.2.on = true := by
    rw [hR, (leaf_later ..).on]; exact honS
  have hshR : Shaped (.one k) (.one ps R.2.1) := by
    have := stream_shaped (.one k) (j + 1) B.1 B.2 hst.shaped
    rw [h1] at this
    exact this
  obtain ⟨h2, _⟩ := rec_stream hfine m (.one ps R.2.1) R.2.2 hrec honR hshR
  have hl := stream_later (.one k) m (.one ps R.2.1) R.2.2
  obtain ⟨nd, hnd, _, hm, p, hp, v, hv, _⟩ := hfr.node
  rw [hT]
  refine ⟨c, nd, p, hl.node _ _ hnd, hm, hps ▸ hp, List.mem_map.2 ⟨_, hv, rfl⟩, _, List.append_assoc .., ?_⟩
  intro y hy
  rcases List.mem_append.1 hy with hy | hy
  · exact hl.hits (hout y (Option.mem_toList.1 hy))
  · exact h2 y hy

namespace Grad

/-- The output `y` depends on a node that saved the storage `m`. -/
def Pinned (g : Graph) (m : Nat) (y : Ten) : Prop :=
  ∃ c n v, Hits g.nodes y c ∧ nodeAt g.nodes c = some n ∧ (m, v) ∈ n.saved ∧ v ≤ g.ver m

/-- ... and it has been written since. -/
def Stale (g : Graph) (y : Ten) : Prop :=
  ∃ c n m v, Hits g.nodes y c ∧ nodeAt g.nodes c = some n ∧ (m, v) ∈ n.saved ∧ v < g.ver m

theorem Pinned.later {g g' : Graph} (l : Later g g') {m : Nat} {y : Ten} (h : Pinned g m y) : Pinned g' m y := by
  obtain ⟨c, n, v, h1, h2, h3, h4⟩ := h
  exact ⟨c, n, v, l.hits h1, l.node _ _ h2, h3, Nat.le_trans h4 (l.ver _)⟩

theorem Pinned.stale {g g' : Graph} (l : Later g g') {m : Nat} {y : Ten} (h : Pinned g m y) (hm : g.ver m < g'.ver m) :
    Stale g' y := by
  obtain ⟨c, n, v, h1, h2, h3, h4⟩ := h
  exact ⟨c, n, m, v, l.hits h1, l.node _ _ h2, h3, Nat.lt_of_le_of_lt h4 hm⟩

theorem Stale.later {g g' : Graph} (l : Later g g') {y : Ten} (h : Stale g y) : Stale g' y := by
  obtain ⟨c, n, m, v, h1, h2, h3, h4⟩ := h
  exact ⟨c, n, m, v, l.hits h1, l.node _ _ h2, h3, Nat.lt_of_lt_of_le h4 (l.ver _)⟩

section MaxPool

variable (K d s p : Nat) (o r sp : Bool)

/-- A layer with weights and max pooling of views. -/
abbrev maxNet : Net := .seq (.one (.layer true o)) (.one (.pool K d s p true r sp false))

theorem max_step (i : Inst) (x : Ten) (g : Graph) (hon : g.on = true) (hs : Shaped (maxNet K d s p o r sp) i) :
    ∃ ps sl st t c', i = .two (.one ps sl) (.one [] st) ∧
      (∃ ps' sl', (Net.step (maxNet K d s p o r sp) i x g).2.1 = .two (.one ps' sl') (.one [] (some ([t], c')))) ∧
      (∀ y, (Net.step (maxNet K d s p o r sp) i x g).1 = some y → Pinned (Net.step (maxNet K d s p o r sp) i x g).2.2 t.mem y) ∧
      (∀ s', st = some s' → t.mem = (reg s'.1 0).mem ∧ g.ver t.mem < (Net.step (maxNet K d s p o r sp) i x g).2.2.ver t.mem) := by
  obtain ⟨ia, ib, rfl, hsa, hsb⟩ := shaped_seq hs
  obtain ⟨ps, sl, rfl⟩ := shaped_one hsa
  obtain ⟨ps2, st, rfl⟩ := shaped_one hsb
  have hps2 : ps2 = [] := List.length_eq_zero_iff.1 hsb.1
  subst hps2
  obtain ⟨c, z, _, hz, _, _, _, hzh⟩ := layer_origin (o := o) (x := x) (st := sl) hon hsa.1 hsa.2.2 hsa.2.1
  have hl := leaf_later (Kind.layer true o).leaf ps sl x g
  have hstep : Net.step (maxNet K d s p o r sp) (.two (.one ps sl) (.one [] st)) x g =
      (((Kind.pool K d s p true r sp false).leaf.step [] st z ((Kind.layer true o).leaf.step ps sl x g).2.2).1,
        .two (.one ps ((Kind.layer true o).leaf.step ps sl x g).2.1) (.one []
          ((Kind.pool K d s p true r sp false).leaf.step [] st z ((Kind.layer true o).leaf.step ps sl x g).2.2).2.1),
        ((Kind.pool K d s p true r sp false).leaf.step [] st z ((Kind.layer true o).leaf.step ps sl x g).2.2).2.2) := by
    simp only [Net.step]
    rw [hz]
  rw [hstep]
  obtain ⟨t, c', h1, h2, h3⟩ := max_pool_step (K := K) (d := d) (s := s) (p := p) (r := r) (sp := sp) (st := st) (x := z)
    (g := ((Kind.layer true o).leaf.step ps sl x g).2.2) (by rw [hl.on]; exact hon) hzh.1 hsb.2.2
  refine ⟨ps, sl, st, t, c', rfl, ⟨ps, ((Kind.layer true o).leaf.step ps sl x g).2.1, ?_⟩, h2, ?_⟩
  · show Inst.two _ (.one [] ((pool K d s p true r sp false).step [] st z _).2.1) = _
    rw [h1]
  · intro s' hs'
    exact ⟨(h3 s' hs').1, Nat.lt_of_le_of_lt (hl.ver _) (h3 s' hs').2⟩

/-- All outputs so far are pinned to the buffer. -/
theorem max_stream (i : Inst) (g : Graph) (hon : g.on = true) (hs : Shaped (maxNet K d s p o r sp) i) : ∀ n,
    (Net.stream (maxNet K d s p o r sp) n i g).1 = [] ∨ ∃ ps sl t c', (Net.stream (maxNet K d s p o r sp) n i g).2.1 = .two (.one ps sl) (.one [] (some ([t], c'))) ∧
      ∀ y ∈ (Net.stream (maxNet K d s p o r sp) n i g).1, Pinned (Net.stream (maxNet K d s p o r sp) n i g).2.2 t.mem y
  | 0 => .inl rfl
  | n + 1 => by
    have ih := max_stream i g hon hs n
    have hl := frame_later (Net.stream (maxNet K d s p o r sp) n i g).2.2
    have hon' : (Net.stream (maxNet K d s p o r sp) n i g).2.2.frame.2.on = true := by
      rw [hl.on, (stream_later ..).on]; exact hon
    obtain ⟨ps, sl, st, t, c', he, ⟨ps', sl', he'⟩, hy, hv⟩ := max_step K d s p o r sp (Net.stream (maxNet K d s p o r sp) n i g).2.1
      (Net.stream (maxNet K d s p o r sp) n i g).2.2.frame.1 (Net.stream (maxNet K d s p o r sp) n i g).2.2.frame.2 hon' (stream_shaped _ n i g hs)
    refine .inr ⟨ps', sl', t, c', he', ?_⟩
    intro y hy'
    rcases List.mem_append.1 hy' with hy' | hy'
    · rcases ih with ih | ⟨ps1, sl1, t1, c1, he1, hp1⟩
      · rw [ih] at hy'; cases hy'
      · rw [he1] at he
        cases he
        have := (hv _ rfl).1
        have ht : t.mem = t1.mem := this
        rw [ht]
        exact (hp1 y hy').later (hl.trans (step_later ..))
    · exact hy y (Option.mem_toList.1 hy')

end MaxPool

end Grad

/-- C86.  Max pooling of a view of the buffer (1d pooling of dilation one, for example) behind a layer with weights: once
a further frame has been pooled, `backward` from an earlier output raises. -/
theorem C86_max_pool_refuted (K d s p : Nat) (o r sp : Bool) (n m : Nat) (retain : Bool) :
    let net : Grad.Net := .seq (.one (.layer true o)) (.one (.pool K d s p true r sp false))
    let B := net.build (.empty true)
    let S := net.stream n B.1 B.2
    let T := net.stream (n + (m + 1)) B.1 B.2
    ∀ y ∈ S.1, ∀ ts, y ∈ ts → T.2.2.backward retain ts = .error .runtime := by
  intro net B S T y hy ts hts
  have hst := build_start net true
  have hon : B.2.on = true := by rw [(build_new net _).2.2.2.2]; rfl
  have hwf := (stream_wf net (n + (m + 1)) B.1 B.2 hst.wf hst.lt).1
  -- the frame after
  have hl := frame_later S.2.2
  have hon' : S.2.2.frame.2.on = true := by
    rw [hl.on, (stream_later ..).on]; exact hon
  obtain ⟨ps, sl, st, t, c', he, _, _, hv⟩ := max_step K d s p o r sp S.2.1 S.2.2.frame.1 S.2.2.frame.2 hon'
    (stream_shaped _ n B.1 B.2 hst.shaped)
  have h1 : Stale (net.stream (n + 1) B.1 B.2).2.2 y := by
    rcases max_stream K d s p o r sp B.1 B.2 hon hst.shaped n with h | ⟨ps1, sl1, t1, c1, he1, hp1⟩
    · rw [show S.1 = [] from h] at hy; cases hy
    · rw [show S.2.1 = _ from he1] at he
      cases he
      obtain ⟨h3, h4⟩ := hv _ rfl
      have h3' : t.mem = t1.mem := h3
      rw [h3'] at h4
      exact (hp1 y hy).stale (hl.trans (step_later ..)) h4
  have h2 : Stale T.2.2 y := by
    have : T = net.stream (n + 1 + m) B.1 B.2 := by
      show net.stream (n + (m + 1)) B.1 B.2 = _
      rw [Nat.add_assoc, Nat.add_comm 1 m]
    rw [this, stream_add]
    exact h1.later (stream_later ..)
  obtain ⟨c, nd, m', v, h3, h4, h5, h6⟩ := h2
  exact backward_err hwf hts h3 h4 (.inr fun hall => absurd (hall _ h5) (Nat.ne_of_gt h6)) retain

/-! ### Training on a stream -/

namespace Grad

/-- Later steps of a stream whose first frame was released, or whose weights were changed. -/
theorem stale_stream {net : Net} (hf : net.Fine) {i : Inst} {g : Graph} {c : Nat} {nd : Node} (hw : Wf g.nodes) (hi : i.Lt g)
    (hon : g.on = true) (hs : Shaped net i) (hr : Rec g c net i) (hn : nodeAt g.nodes c = some nd)
    (hb : ∀ g', Later g g' → Bad g'.ver g'.gone c nd) (m : Nat) (retain : Bool) {us : List Ten} (hne : us ≠ [])
    (hus : ∀ u ∈ us, u ∈ (net.stream m i g).1) : (net.stream m i g).2.2.backward retain us = .error .runtime := by
  obtain ⟨u, hu⟩ := List.exists_mem_of_ne_nil us hne
  have hl := stream_later net m i g
  exact backward_err (stream_wf net m i g hw hi).1 hu ((rec_stream hf m i g hr hon hs).1 u (hus u hu)) (hl.node _ _ hn)
    (hb _ hl) retain

end Grad

/-- C87.  A network that remembers frames through weights cannot be trained output by output: after a backward pass over
some outputs, every backward pass over later outputs raises (with an update of the weights between them, or without). -/
theorem C87_refuted (net : Grad.Net) (hk : Remembers net) (hf : net.Fine) (n : Nat) (upd : Bool) :
    let B := net.build (.empty true)
    let S := net.stream n B.1 B.2
    ∀ ts, ts ≠ [] → (∀ t ∈ ts, t ∈ S.1) → ∀ g', S.2.2.backward false ts = .ok g' →
      ∀ m retain us, us ≠ [] →
        let T := net.stream m S.2.1 (if upd then g'.update B.1.params else g')
        (∀ u ∈ us, u ∈ T.1) → T.2.2.backward retain us = .error .runtime := by
  intro B S ts hne hts g' hg' m retain us hus T hT
  have hst := build_start net true
  have hon : B.2.on = true := by rw [(build_new net _).2.2.2.2]; rfl
  obtain ⟨t, ht⟩ := List.exists_mem_of_ne_nil ts hne
  cases n with
  | zero => exact absurd (hts t ht) (by simp [S, Grad.Net.stream])
  | succ n =>
    obtain ⟨c, m', _, hsv, hy, hrec⟩ := first_frame hk hf hon hst.shaped hst.blank n
    obtain ⟨nd, hnd, ho, _⟩ := hsv.node
    obtain ⟨hw, _, hlt⟩ := stream_wf net (n + 1) B.1 B.2 hst.wf hst.lt
    obtain ⟨hgone, hl, hnodes⟩ := backward_gone hw ht (hy t (hts t ht)) (nodeAt_lt hnd) hg'
    have hl2 : Later g' (if upd then g'.update B.1.params else g') := by
      cases upd
      · exact .refl _
      · exact update_later ..
    have hl3 := hl.trans hl2
    have hn2 : (if upd then g'.update B.1.params else g').nodes = S.2.2.nodes := by
      cases upd
      · exact hnodes
      · exact hnodes
    refine stale_stream hf (by rw [hn2]; exact hw) (hlt.later hl3) ?_ (stream_shaped net _ B.1 B.2 hst.shaped)
      (hrec.later hl3) (hl3.node _ _ hnd) ?_ m retain hus hT
    · rw [hl3.on, (stream_later ..).on]; exact hon
    · intro g'' hl4
      exact .inl ⟨ho, hl4.gone _ (hl2.gone _ hgone)⟩

/-- C87.  Retaining the graph does not help once the weights have been updated. -/
theorem C87_retained_refuted (net : Grad.Net) (hk : Remembers net) (hf : net.Fine) (n : Nat) :
    let B := net.build (.empty true)
    let S := net.stream (n + 1) B.1 B.2
    ∀ m retain us, us ≠ [] →
      let T := net.stream m S.2.1 (S.2.2.update B.1.params)
      (∀ u ∈ us, u ∈ T.1) → T.2.2.backward retain us = .error .runtime := by
  intro B S m retain us hus T hT
  have hst := build_start net true
  have hon : B.2.on = true := by rw [(build_new net _).2.2.2.2]; rfl
  obtain ⟨c, m', _, hsv, hy, hrec⟩ := first_frame hk hf hon hst.shaped hst.blank n
  obtain ⟨nd, hnd, ho, _, p, hp, v, hv, hle⟩ := hsv.node
  obtain ⟨hw, _, hlt⟩ := stream_wf net (n + 1) B.1 B.2 hst.wf hst.lt
  have hl := update_later S.2.2 B.1.params
  refine stale_stream (g := S.2.2.update B.1.params) hf hw (hlt.later hl) ?_ (stream_shaped net _ B.1 B.2 hst.shaped)
    (hrec.later hl) (hl.node _ _ hnd) ?_ m retain hus hT
  · rw [hl.on, (stream_later ..).on]; exact hon
  · intro g'' hl4
    refine .inr fun hall => ?_
    have h1 : g''.ver p.mem = v := hall _ hv
    have h2 : (S.2.2.update B.1.params).ver p.mem = S.2.2.ver p.mem + 1 := by
      simp only [Graph.update]
      rw [if_pos (List.mem_map.2 ⟨p, hp, rfl⟩)]
    have h3 := hl4.ver p.mem
    have h4 : v ≤ S.2.2.ver p.mem := hle
    omega

namespace Grad

theorem light_tame : ∀ {net : Net}, net.Light → net.Tame
  | .one k, h => by cases k <;> first | trivial | cases h
  | .seq _ _, h => ⟨light_tame h.1, light_tame h.2⟩
  | .sum _ _ _, h => ⟨light_tame h.1, light_tame h.2⟩

/-- What survives between two backward passes. -/
structure Rest (net : Net) (i : Inst) (g : Graph) : Prop where
  wf : Wf g.nodes
  shaped : Shaped net i
  fn : ∀ t ∈ i.params, t.fn = none
  mem : ∀ t ∈ i.params, t.mem < g.used
  gone : ∀ j ∈ g.gone, j < g.nodes.length

theorem Start.rest {net : Net} {i : Inst} {g : Graph} (h : Start net i g) : Rest net i g :=
  ⟨h.wf, h.shaped, h.fn, h.mem, h.gone⟩

theorem Rest.start {net : Net} {i : Inst} {g : Graph} (h : Rest net i g) : Start net i.clean g :=
  ⟨h.wf, clean_shaped _ _ h.shaped, clean_blank _, by rw [clean_params]; exact h.fn, by rw [clean_params]; exact h.mem,
    h.gone⟩

theorem light_kept : ∀ {net : Net} {i : Inst}, net.Light → Shaped net i → i.kept = []
  | .one (.layer _ _), .one _ st, _, h => by
    cases st with
    | none => rfl
    | some s => exact List.length_eq_zero_iff.1 (h.2.2 s rfl)
  | .one (.conv ..), _, h, _ => by cases h
  | .one (.pool ..), _, h, _ => by cases h
  | .one (.delay ..), _, h, _ => by cases h
  | .one (.single ..), _, h, _ => by cases h
  | .one (.retro _), _, h, _ => by cases h
  | .seq _ _, .two _ _, hl, h => by simp only [Inst.kept, light_kept hl.1 h.1, light_kept hl.2 h.2, List.append_nil]
  | .sum _ _ _, .two _ _, hl, h => by simp only [Inst.kept, light_kept hl.1 h.1, light_kept hl.2 h.2, List.append_nil]
  | .seq _ _, .one _ _, _, h => h.elim
  | .sum _ _ _, .one _ _, _, h => h.elim
  | .one (.layer _ _), .two _ _, _, h => h.elim

/-- One round of training: a stream, a backward pass, an update. -/
theorem round {net : Net} (ht : net.Tame) {i : Inst} {g : Graph} (h : Rest net i g) (hi : i.Lt g)
    (hok : InstOk g.nodes.length (fun _ => False) g net i) (n : Nat) :
    let S := net.stream n i g
    Rest net S.2.1 S.2.2 ∧
    (S.1.any Ten.req = true → ∃ g', S.2.2.backward false S.1 = .ok g' ∧ Rest net S.2.1 (g'.update S.2.1.params)) := by
  intro S
  have hI : Inv g.nodes.length (fun _ => False) g :=
    ⟨fun i n hn hb => absurd (nodeAt_lt hn) (by omega), fun i n hn hb => absurd (nodeAt_lt hn) (by omega), h.gone,
      fun _ hm => hm.elim, Nat.le_refl _⟩
  obtain ⟨W, _, hI', hO, _⟩ := stream_inv net ht n i g _ _ hI hok
  obtain ⟨hw, _, _⟩ := stream_wf net n i g h.wf hi
  have hl := stream_later net n i g
  have hsh := stream_shaped net n i g h.shaped
  have hps := stream_params net n i g
  have hfn : ∀ t ∈ S.2.1.params, t.fn = none := by rw [hps]; exact h.fn
  have hmem : ∀ t ∈ S.2.1.params, t.mem < S.2.2.used := by
    rw [hps]; exact fun t ht => Nat.lt_of_lt_of_le (h.mem t ht) hl.used
  have hgone : ∀ j ∈ S.2.2.gone, j < S.2.2.nodes.length := fun j hj => Nat.lt_of_lt_of_le (hI'.gone j hj) hl.len
  refine ⟨⟨hw, hsh, hfn, hmem, hgone⟩, ?_⟩
  intro hreq
  obtain ⟨v, hv, hvl⟩ := backward_ok hI' hw (fun t htt => (hO t htt).fn) hreq false
  refine ⟨_, hv, hw, hsh, hfn, hmem, ?_⟩
  intro j hj
  rcases List.mem_append.1 hj with hj | hj
  · exact hvl j hj
  · exact hgone j hj

theorem train_ok {net : Net} (ht : net.Tame) : ∀ (ns : List Nat) (i : Inst) (g : Graph), Rest net i g →
    ∃ p, train net ns (i, g) = .ok p
  | [], i, g, _ => ⟨_, rfl⟩
  | n :: ns, i, g, h => by
    have hst := h.start
    obtain ⟨h1, h2⟩ := round ht hst.rest hst.lt (start_instOk hst.shaped hst.blank hst.fn hst.mem) n
    simp only [train]
    by_cases hreq : (net.stream n i.clean g).1.any Ten.req = true
    · rw [if_pos hreq]
      obtain ⟨g', hg', hr⟩ := h2 hreq
      rw [hg']
      exact train_ok ht ns _ _ hr
    · rw [if_neg hreq]
      exact train_ok ht ns _ _ h1

theorem light_instOk {g : Graph} {b : Nat} : ∀ {net : Net} {i : Inst}, net.Light → Shaped net i →
    (∀ t ∈ i.params, t.fn = none) → (∀ t ∈ i.params, t.mem < g.used) → InstOk b (fun _ => False) g net i
  | .one (.layer w o), .one ps st, _, hs, hf, hm => by
    have h := start_instOk (b := b) (g := g) (net := .one (.layer w o)) (i := .one ps none)
      ⟨hs.1, hs.2.1, fun s hs => by cases hs⟩ rfl hf hm
    refine ⟨h.1, fun s hs' => ?_⟩
    have h0 : s.1 = [] := List.length_eq_zero_iff.1 (hs.2.2 s hs')
    rw [h0]
    exact ⟨rfl, fun i w hw => by cases hw⟩
  | .one (.conv ..), _, h, _, _, _ => by cases h
  | .one (.pool ..), _, h, _, _, _ => by cases h
  | .one (.delay ..), _, h, _, _, _ => by cases h
  | .one (.single ..), _, h, _, _, _ => by cases h
  | .one (.retro _), _, h, _, _, _ => by cases h
  | .seq a b', .two ia ib, hl, hs, hf, hm =>
    ⟨light_instOk hl.1 hs.1 (fun t ht => hf t (List.mem_append_left _ ht)) fun t ht => hm t (List.mem_append_left _ ht),
     light_instOk hl.2 hs.2 (fun t ht => hf t (List.mem_append_right _ ht)) fun t ht => hm t (List.mem_append_right _ ht)⟩
  | .sum _ a b', .two ia ib, hl, hs, hf, hm =>
    ⟨light_instOk hl.1 hs.1 (fun t ht => hf t (List.mem_append_left _ ht)) fun t ht => hm t (List.mem_append_left _ ht),
     light_instOk hl.2 hs.2 (fun t ht => hf t (List.mem_append_right _ ht)) fun t ht => hm t (List.mem_append_right _ ht)⟩
  | .seq _ _, .one _ _, _, h, _, _ => h.elim
  | .sum _ _ _, .one _ _, _, h, _, _ => h.elim
  | .one (.layer _ _), .two _ _, _, h, _, _ => h.elim

theorem online_ok {net : Net} (hl : net.Light) : ∀ (n : Nat) (i : Inst) (g : Graph), Rest net i g →
    ∃ p, online net n (i, g) = .ok p
  | 0, i, g, _ => ⟨_, rfl⟩
  | n + 1, i, g, h => by
    obtain ⟨h1, h2⟩ := round (light_tame hl) h ⟨h.fn, by rw [light_kept hl h.shaped]; simp⟩
      (light_instOk hl h.shaped h.fn h.mem) 1
    simp only [online]
    by_cases hreq : (net.stream 1 i g).1.any Ten.req = true
    · rw [if_pos hreq]
      obtain ⟨g', hg', hr⟩ := h2 hreq
      rw [hg']
      exact online_ok hl n _ _ hr
    · rw [if_neg hreq]
      exact online_ok hl n _ _ h1

end Grad

/-- C87.  With `clean_state` before every clip, training on any number of clips of any lengths succeeds. -/
theorem C87_clips_partial (net : Grad.Net) (ht : net.Tame) (ns : List Nat) :
    ∃ p, train net ns (net.build (.empty true)) = .ok p :=
  train_ok ht ns _ _ (build_start net true).rest

/-- C87.  Networks without state can be trained output by output. -/
theorem C87_stateless_partial (net : Grad.Net) (hl : net.Light) (n : Nat) :
    ∃ p, online net n (net.build (.empty true)) = .ok p :=
  online_ok hl n _ _ (build_start net true).rest

/-! ### Memory -/

namespace Grad

/-- The storages that the state of the network keeps alive. -/
theorem stream_holds {net : Net} (hk : Remembers net) (hf : net.Fine) {i : Inst} {g : Graph} (hon : g.on = true)
    (hs : Shaped net i) : ∀ n, ∃ l : List Nat, l.Nodup ∧ l.length = n ∧
      ∀ m ∈ l, m < (net.stream n i g).2.2.used ∧ ∃ c, Saver (net.stream n i g).2.2 c m i.params ∧
        Sto (net.stream n i g).2.2 c net (net.stream n i g).2.1
  | 0 => ⟨[], .nil, rfl, by simp⟩
  | n + 1 => by
    obtain ⟨l, h1, h2, h3⟩ := stream_holds hk hf hon hs n
    set S := net.stream n i g with hS
    have hl := frame_later S.2.2
    have honS : S.2.2.frame.2.on = true := by
      rw [hl.on, hS, (stream_later ..).on]; exact hon
    have hsh := stream_shaped net n i g hs
    obtain ⟨c, m, hm1, hm2, hsv, hsto, _⟩ := remembers_start hk S.2.1 S.2.2.frame.1 S.2.2.frame.2 S.2.2.used hf honS hsh
      (Nat.le_refl _) (Nat.lt_succ_self _) (Nat.le_succ _)
    have hps : S.2.1.params = i.params := stream_params net n i g
    rw [hps] at hsv
    have hl2 := step_later net S.2.1 S.2.2.frame.1 S.2.2.frame.2
    have hl3 := hl.trans hl2
    refine ⟨m :: l, List.nodup_cons.2 ⟨?_, h1⟩, by simp [h2], ?_⟩
    · intro hm
      exact absurd (h3 m hm).1 (Nat.not_lt.2 hm1)
    · intro m' hm'
      rcases List.mem_cons.1 hm' with rfl | hm'
      · exact ⟨hm2, c, hsv, hsto⟩
      · obtain ⟨h4, c', h5, h6⟩ := h3 m' hm'
        exact ⟨Nat.lt_of_lt_of_le h4 hl3.used, c', h5.later hl3 (fun _ h => h),
          sto_step (h6.later hl) honS hsh _⟩

/-! Without grad mode -/

theorem make_off {g : Graph} (h : g.on = false) (ts sv : List Ten) (so once : Bool) : (g.make ts sv so once).2.nodes = g.nodes := by
  unfold Graph.make; rw [if_neg (by simp [h])]

theorem view_off {g : Graph} (h : g.on = false) (a : Ten) : (g.view a).2.nodes = g.nodes := by
  unfold Graph.view; rw [if_neg (by simp [h])]

theorem write_off {g : Graph} (h : g.on = false) (a v : Ten) : (g.write a v).2.nodes = g.nodes := by
  unfold Graph.write
  simp only
  rw [if_neg (by simp [h])]

theorem exec_off {g : Graph} (h : g.on = false) (rs : List Ten) : ∀ c : Instr, (c.exec rs g).2.nodes = g.nodes
  | .op .. => make_off h ..
  | .view _ => view_off h _
  | .zeros => make_off h ..
  | .write _ _ => write_off h ..
  | .push a v => by
    simp only [Instr.exec]
    rw [write_off (by rw [(make_later ..).on]; exact h), make_off h]

theorem run_off : ∀ (cs : List Instr) (rs : List Ten) (g : Graph), g.on = false → (run cs rs g).2.nodes = g.nodes
  | [], _, _, _ => rfl
  | c :: cs, rs, g, h => by
    simp only [run]
    rw [run_off cs _ _ (by rw [(exec_later ..).on]; exact h), exec_off h]

theorem step_off : ∀ (net : Net) (i : Inst) (x : Ten) (g : Graph), g.on = false → (net.step i x g).2.2.nodes = g.nodes
  | .one k, .one ps st, x, g, h => run_off _ _ _ h
  | .seq a b, .two ia ib, x, g, h => by
    have ha := step_off a ia x g h
    have hl := step_later a ia x g
    simp only [Net.step]
    rcases hs : a.step ia x g with ⟨o, ia', g'⟩
    rw [hs] at ha hl
    cases o with
    | none => exact ha
    | some y => exact (step_off b ib y g' (by rw [hl.on]; exact h)).trans ha
  | .sum mul a b, .two ia ib, x, g, h => by
    have ha := step_off a ia x g h
    have hl := step_later a ia x g
    simp only [Net.step]
    rcases hs : a.step ia x g with ⟨o, ia', g'⟩
    rw [hs] at ha hl
    have hb := step_off b ib x g' (by rw [hl.on]; exact h)
    have hlb := step_later b ib x g'
    simp only
    rcases hs' : b.step ib x g' with ⟨o', ib', g''⟩
    rw [hs'] at hb hlb
    have hon : g''.on = false := by rw [hlb.on, hl.on]; exact h
    cases o <;> cases o' <;> simp only
    · exact hb.trans ha
    · exact hb.trans ha
    · exact hb.trans ha
    · rw [make_off hon]; exact hb.trans ha
  | .one _, .two _ _, _, _, _ => rfl
  | .seq _ _, .one _ _, _, _, _ => rfl
  | .sum _ _ _, .one _ _, _, _, _ => rfl

theorem stream_off (net : Net) : ∀ (n : Nat) (i : Inst) (g : Graph), g.on = false →
    (net.stream n i g).2.2.nodes = g.nodes
  | 0, _, _, _ => rfl
  | n + 1, i, g, h => by
    simp only [Net.stream]
    rw [step_off net _ _ _ (by rw [(frame_later _).on, (stream_later ..).on]; exact h)]
    exact stream_off net n i g h

theorem shaped_slots : ∀ {net : Net} {i : Inst}, Shaped net i → i.kept.length ≤ net.slots
  | .one k, .one ps st, h => by
    cases st with
    | none => exact Nat.zero_le _
    | some s =>
      have := h.2.2 s rfl
      show s.1.length ≤ _
      rw [this]
      cases k <;> exact Nat.le_refl _
  | .seq a b, .two ia ib, h => by
    simp only [Inst.kept, List.length_append, Net.slots]
    exact Nat.add_le_add (shaped_slots h.1) (shaped_slots h.2)
  | .sum _ a b, .two ia ib, h => by
    simp only [Inst.kept, List.length_append, Net.slots]
    exact Nat.add_le_add (shaped_slots h.1) (shaped_slots h.2)
  | .one _, .two _ _, h => h.elim
  | .seq _ _, .one _ _, h => h.elim
  | .sum _ _ _, .one _ _, h => h.elim

end Grad

/-- C88.  With grad mode on (the default of torch), the state of a network that remembers frames through weights keeps at
least one more storage alive with every frame. -/
theorem C88_refuted (net : Grad.Net) (hk : Remembers net) (hf : net.Fine) (n : Nat) :
    let B := net.build (.empty true)
    let S := net.stream n B.1 B.2
    ∃ l : List Nat, l.Nodup ∧ l.length = n ∧ ∀ m ∈ l, HeldBy S.2.2.nodes S.2.1.kept m := by
  intro B S
  have hst := build_start net true
  have hon : B.2.on = true := by rw [(build_new net _).2.2.2.2]; rfl
  obtain ⟨l, h1, h2, h3⟩ := stream_holds hk hf hon hst.shaped n
  refine ⟨l, h1, h2, fun m hm => ?_⟩
  obtain ⟨_, c, hsv, hsto⟩ := h3 m hm
  obtain ⟨t, ht, hh⟩ := sto_kept hsto
  obtain ⟨nd, hnd, _, hmm, _⟩ := hsv.node
  exact ⟨t, ht, c, nd, hh, hnd, hmm⟩

/-- C88.  Under `torch.no_grad()` nothing but the tensors of the state is kept, and their number has a bound. -/
theorem C88_no_grad_partial (net : Grad.Net) (n : Nat) :
    let B := net.build (.empty true)
    let S := net.stream n B.1 { B.2 with on := false }
    S.2.2.nodes = [] ∧ (∀ m, ¬ HeldBy S.2.2.nodes S.2.1.kept m) ∧ S.2.1.kept.length ≤ net.slots := by
  intro B S
  have h0 : S.2.2.nodes = [] := by
    rw [stream_off net n B.1 _ rfl]
    exact (build_new net _).2.2.1
  refine ⟨h0, ?_, shaped_slots (stream_shaped net n B.1 _ (build_shaped net _))⟩
  rintro m ⟨t, _, c, nd, _, hn, _⟩
  rw [h0] at hn
  cases hn

/-- C88.  `clean_state` lets go of everything. -/
theorem C88_clean_partial (i : Inst) (L : List Node) (m : Nat) : ¬ HeldBy L i.clean.kept m := by
  rintro ⟨t, ht, _⟩
  rw [clean_kept] at ht
  cases ht

/-! ### Examples -/

/-- A convolution of kernel size 3, an activation, and a residual connection around a
convolution (in `eval` mode). -/
def gradNet : Grad.Net :=
  .seq (.one (.conv 3 1 0 false true)) (.seq (.one (.layer false true))
    (.sum false (.one (.conv 3 1 0 false false)) (.one (.delay 2 false false))))

example : gradNet.Tame ∧ gradNet.Fine ∧ Remembers gradNet :=
  ⟨⟨trivial, trivial, trivial, trivial⟩, ⟨trivial, trivial, trivial, by show 1 ≤ 2; decide⟩, .seq (.one rfl)⟩

/-- Its fifth frame gives an output, which requires grad; the backward pass from it succeeds, and the one from the next
output fails. -/
example :
    let B := gradNet.build (.empty true)
    let S := gradNet.stream 5 B.1 B.2
    (S.1.length, S.1.any Ten.req,
      match S.2.2.backward false S.1 with
      | .ok g =>
        let T := gradNet.stream 1 S.2.1 (g.update B.1.params)
        some (T.1.length, match T.2.2.backward false T.1 with | .ok _ => none | .error e => some e)
      | .error _ => none) = (1, true, some (1, some Err.runtime)) := by decide +kernel

/-- Two clips of six frames. -/
example : (match train gradNet [6, 6] (gradNet.build (.empty true)) with | .ok _ => true | .error _ => false) = true ∧
    (match online gradNet 6 (gradNet.build (.empty true)) with | .ok _ => true | .error _ => false) = false := by
  decide +kernel

/-- `Linear` and `MaxPool1d(2)`: the second frame gives the first output. -/
example :
    let net : Grad.Net := .seq (.one (.layer true false)) (.one (.pool 2 1 1 0 true false false false))
    let B := net.build (.empty true)
    (net.stream 2 B.1 B.2).1.length = 1 ∧ (net.stream 3 B.1 B.2).1.length = 2 := by decide +kernel

/-- A stateless network. -/
example : (Grad.Net.seq (.one (.layer true false)) (.sum true (.one (.layer false true)) (.one (.layer true false)))).Light :=
  ⟨rfl, rfl, rfl⟩

end CoInf
