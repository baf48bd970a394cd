/-
Lemmas on the graphs of autograd.
-/
import Verif.Spec.Grad
import Mathlib.Tactic.Common

set_option autoImplicit false

namespace CoInf.Grad

open CoInf.Spec

/-! ### The engine -/

/-- Nodes point to older nodes. -/
def Wf : List Node → Prop
  | [] => True
  | n :: r => (∀ j ∈ n.ins, j < r.length) ∧ Wf r

theorem nodeAt_lt : ∀ {L : List Node} {i : Nat} {n : Node}, nodeAt L i = some n → i < L.length
  | [], _, _, h => by simp [nodeAt] at h
  | m :: r, i, n, h => by
    simp only [nodeAt] at h
    by_cases hi : i = r.length
    · subst hi; simp
    · rw [if_neg hi] at h
      have := nodeAt_lt h
      simp only [List.length_cons]; omega

theorem nodeAt_cons {L : List Node} {i : Nat} {n : Node} (m : Node) (h : nodeAt L i = some n) :
    nodeAt (m :: L) i = some n := by
  have hi := nodeAt_lt h
  simp only [nodeAt]
  rw [if_neg (by omega)]
  exact h

theorem nodeAt_some : ∀ {L : List Node} {i : Nat}, i < L.length → ∃ n, nodeAt L i = some n
  | [], _, h => by simp at h
  | m :: r, i, h => by
    simp only [nodeAt]
    by_cases hi : i = r.length
    · exact ⟨m, by rw [if_pos hi]⟩
    · obtain ⟨n, hn⟩ := nodeAt_some (L := r) (i := i) (by simp only [List.length_cons] at h; omega)
      exact ⟨n, by rw [if_neg hi]; exact hn⟩

theorem Wf.nodeAt : ∀ {L : List Node} {i : Nat} {n : Node}, Wf L → nodeAt L i = some n → ∀ j ∈ n.ins, j < i
  | [], _, _, _, h => by simp [Grad.nodeAt] at h
  | m :: r, i, n, hw, h => by
    simp only [Grad.nodeAt] at h
    by_cases hi : i = r.length
    · rw [if_pos hi] at h
      obtain rfl := Option.some.inj h
      rw [hi]; exact hw.1
    · rw [if_neg hi] at h
      exact hw.2.nodeAt h

theorem Arrives.mono {L : List Node} {R R' : List Nat} (hR : ∀ i ∈ R, i ∈ R') (m : Node) {i : Nat} (h : Arrives L R i) :
    Arrives (m :: L) R' i := by
  induction h with
  | root h => exact .root (hR _ h)
  | step _ hn hj ih => exact .step ih (nodeAt_cons m hn) hj

theorem Arrives.roots {L : List Node} {R R' : List Nat} (hR : ∀ i ∈ R, i ∈ R') {i : Nat} (h : Arrives L R i) :
    Arrives L R' i := by
  induction h with
  | root h => exact .root (hR _ h)
  | step _ hn hj ih => exact .step ih hn hj

/-- The newest node is reached only if it is asked for. -/
theorem reach_newest {m : Node} {r : List Node} (hw : Wf (m :: r)) {R : List Nat} {i : Nat}
    (h : Arrives (m :: r) R i) : r.length ≤ i → i ∈ R := by
  induction h with
  | root h => intro _; exact h
  | step _ hn hj ih =>
    intro hi
    have h1 := Wf.nodeAt hw hn _ hj
    have h2 := nodeAt_lt hn
    simp only [List.length_cons] at h2
    omega

/-- What is reached below the newest node. -/
theorem reach_cons {m : Node} {r : List Node} (hw : Wf (m :: r)) {R : List Nat} {i : Nat}
    (h : Arrives (m :: r) R i) : i < r.length → Arrives r (if r.length ∈ R then m.ins ++ R else R) i := by
  have hsub : ∀ i ∈ R, i ∈ (if r.length ∈ R then m.ins ++ R else R) := by
    intro i hi
    split
    · exact List.mem_append_right _ hi
    · exact hi
  induction h with
  | root h => intro _; exact .root (hsub _ h)
  | @step i j n hr hn hj ih =>
    intro _
    simp only [nodeAt] at hn
    by_cases hi : i = r.length
    · rw [if_pos hi] at hn
      obtain rfl := Option.some.inj hn
      have := reach_newest hw hr (by omega)
      rw [hi] at this
      refine .root ?_
      rw [if_pos this]
      exact List.mem_append_left _ hj
    · rw [if_neg hi] at hn
      exact .step (ih (nodeAt_lt hn)) hn hj

theorem reach_uncons {m : Node} {r : List Node} {R : List Nat} {i : Nat}
    (h : Arrives r (if r.length ∈ R then m.ins ++ R else R) i) : Arrives (m :: r) R i := by
  induction h with
  | root h =>
    split at h
    · rename_i hr
      rcases List.mem_append.1 h with h | h
      · exact .step (.root hr) (by simp [nodeAt]) h
      · exact .root h
    · exact .root h
  | step _ hn hj ih => exact .step ih (nodeAt_cons m hn) hj

/-- The node cannot be run. -/
def Bad (ver : Nat → Nat) (gone : List Nat) (i : Nat) (n : Node) : Prop :=
  (n.once = true ∧ i ∈ gone) ∨ ¬ (∀ p ∈ n.saved, ver p.1 = p.2)

theorem visit_ok (ver : Nat → Nat) (gone : List Nat) : ∀ (L : List Node) (R : List Nat), Wf L →
    (∀ i n, Arrives L R i → nodeAt L i = some n → ¬ Bad ver gone i n) →
    ∃ v, visit ver gone L R = .ok v ∧ (∀ i ∈ v, i < L.length) ∧ ∀ i, Arrives L R i → i < L.length → i ∈ v
  | [], R, _, _ => ⟨[], rfl, by simp, by simp⟩
  | m :: r, R, hw, h => by
    have hrec : ∀ i n, Arrives r (if r.length ∈ R then m.ins ++ R else R) i → nodeAt r i = some n → ¬ Bad ver gone i n :=
      fun i n hi hn => h i n (reach_uncons hi) (nodeAt_cons m hn)
    by_cases hr : r.length ∈ R
    · have hb : ¬ Bad ver gone r.length m := h r.length m (.root hr) (by simp [nodeAt])
      obtain ⟨v, hv, hlt, hall⟩ := visit_ok ver gone r (m.ins ++ R) hw.2 (by rw [if_pos hr] at hrec; exact hrec)
      refine ⟨r.length :: v, ?_, ?_, ?_⟩
      · simp only [visit]
        rw [if_pos hr, if_neg (by exact hb), hv]
        rfl
      · intro i hi
        simp only [List.length_cons]
        rcases List.mem_cons.1 hi with rfl | hi
        · omega
        · have := hlt i hi; omega
      · intro i hi hlt'
        simp only [List.length_cons] at hlt'
        by_cases he : i = r.length
        · subst he; exact List.mem_cons_self
        · refine List.mem_cons_of_mem _ (hall i ?_ (by omega))
          have := reach_cons hw hi (by omega)
          rwa [if_pos hr] at this
    · obtain ⟨v, hv, hlt, hall⟩ := visit_ok ver gone r R hw.2 (by rw [if_neg hr] at hrec; exact hrec)
      refine ⟨v, ?_, ?_, ?_⟩
      · simp only [visit]
        rw [if_neg hr, hv]
      · intro i hi
        simp only [List.length_cons]
        have := hlt i hi; omega
      · intro i hi hlt'
        simp only [List.length_cons] at hlt'
        have hne : i ≠ r.length := fun he => hr (he ▸ reach_newest hw hi (by omega))
        refine hall i ?_ (by omega)
        have := reach_cons hw hi (by omega)
        rwa [if_neg hr] at this

theorem visit_err (ver : Nat → Nat) (gone : List Nat) : ∀ (L : List Node) (R : List Nat) (i : Nat) (n : Node), Wf L →
    Arrives L R i → nodeAt L i = some n → Bad ver gone i n → visit ver gone L R = .error .runtime
  | [], _, _, _, _, _, hn, _ => by simp [nodeAt] at hn
  | m :: r, R, i, n, hw, hi, hn, hb => by
    simp only [visit]
    have hlt := nodeAt_lt hn
    simp only [List.length_cons] at hlt
    by_cases he : i = r.length
    · have hr := reach_newest hw hi (by omega)
      rw [he] at hr
      simp only [nodeAt, if_pos he] at hn
      obtain rfl := Option.some.inj hn
      rw [if_pos hr, if_pos (by rw [← he]; exact hb)]
    · simp only [nodeAt, if_neg he] at hn
      have hrec := reach_cons hw hi (by omega)
      by_cases hr : r.length ∈ R
      · rw [if_pos hr] at hrec ⊢
        rw [visit_err ver gone r _ i n hw.2 hrec hn hb]
        split <;> rfl
      · rw [if_neg hr] at hrec ⊢
        exact visit_err ver gone r R i n hw.2 hrec hn hb

/-- What is run is what is reached. -/
theorem visit_mem (ver : Nat → Nat) (gone : List Nat) {L : List Node} {R v : List Nat} (hw : Wf L)
    (h : visit ver gone L R = .ok v) {i : Nat} (hi : Arrives L R i) (hlt : i < L.length) : i ∈ v := by
  by_cases hall : ∀ i n, Arrives L R i → nodeAt L i = some n → ¬ Bad ver gone i n
  · obtain ⟨v', hv', _, hm⟩ := visit_ok ver gone L R hw hall
    rw [h] at hv'
    cases hv'
    exact hm i hi hlt
  · push Not at hall
    obtain ⟨j, n, hj, hn, hb⟩ := hall
    rw [visit_err ver gone L R j n hw hj hn hb] at h
    cases h

/-! ### Graphs only grow -/

/-- `g'` comes after `g`. -/
structure Later (g g' : Graph) : Prop where
  on : g'.on = g.on
  used : g.used ≤ g'.used
  len : g.nodes.length ≤ g'.nodes.length
  node : ∀ i n, nodeAt g.nodes i = some n → nodeAt g'.nodes i = some n
  ver : ∀ m, g.ver m ≤ g'.ver m
  gone : ∀ i ∈ g.gone, i ∈ g'.gone

theorem Later.refl (g : Graph) : Later g g := ⟨rfl, Nat.le_refl _, Nat.le_refl _, fun _ _ h => h, fun _ => Nat.le_refl _, fun _ h => h⟩

theorem Later.trans {g g' g'' : Graph} (a : Later g g') (b : Later g' g'') : Later g g'' :=
  ⟨b.on.trans a.on, Nat.le_trans a.used b.used, Nat.le_trans a.len b.len, fun i n h => b.node i n (a.node i n h),
    fun m => Nat.le_trans (a.ver m) (b.ver m), fun i h => b.gone i (a.gone i h)⟩

theorem Later.reach {g g' : Graph} (a : Later g g') {R : List Nat} {i : Nat} (h : Arrives g.nodes R i) :
    Arrives g'.nodes R i := by
  induction h with
  | root h => exact .root h
  | step _ hn hj ih => exact .step ih (a.node _ _ hn) hj

theorem Later.hits {g g' : Graph} (a : Later g g') {t : Ten} {c : Nat} (h : Hits g.nodes t c) : Hits g'.nodes t c := by
  obtain ⟨hr, i, hi, h⟩ := h
  exact ⟨hr, i, hi, a.reach h⟩

theorem make_later (g : Graph) (ts saved : List Ten) (so once : Bool) : Later g (g.make ts saved so once).2 := by
  unfold Graph.make
  split
  · exact ⟨rfl, Nat.le_succ _, by simp, fun i n h => nodeAt_cons _ h, fun _ => Nat.le_refl _, fun _ h => h⟩
  · exact ⟨rfl, Nat.le_succ _, Nat.le_refl _, fun i n h => h, fun _ => Nat.le_refl _, fun _ h => h⟩

theorem view_later (g : Graph) (a : Ten) : Later g (g.view a).2 := by
  unfold Graph.view
  split
  · exact ⟨rfl, Nat.le_refl _, by simp, fun i n h => nodeAt_cons _ h, fun _ => Nat.le_refl _, fun _ h => h⟩
  · exact .refl g

theorem bump_le (ver : Nat → Nat) (a m : Nat) : ver m ≤ (if m = a then ver m + 1 else ver m) := by
  split <;> omega

theorem write_later (g : Graph) (a v : Ten) : Later g (g.write a v).2 := by
  unfold Graph.write
  simp only
  split
  · exact ⟨rfl, Nat.le_refl _, by simp, fun i n h => nodeAt_cons _ h, fun m => bump_le _ _ _, fun _ h => h⟩
  · exact ⟨rfl, Nat.le_refl _, Nat.le_refl _, fun i n h => h, fun m => bump_le _ _ _, fun _ h => h⟩

theorem exec_later (rs : List Ten) (g : Graph) (c : Instr) : Later g (c.exec rs g).2 := by
  cases c with
  | op => exact make_later ..
  | view => exact view_later ..
  | zeros => exact make_later ..
  | write => exact write_later ..
  | push a v => exact (make_later g [reg rs a] [] false false).trans (write_later ..)

theorem run_later : ∀ (cs : List Instr) (rs : List Ten) (g : Graph), Later g (run cs rs g).2
  | [], _, g => .refl g
  | c :: cs, rs, g => (exec_later rs g c).trans (run_later cs _ _)

theorem leaf_later (l : Leaf) (ps : List Ten) (st : Option St) (x : Ten) (g : Graph) :
    Later g (l.step ps st x g).2.2 := run_later ..

theorem newParams_later : ∀ (n : Nat) (g : Graph), Later g (newParams n g).2
  | 0, g => .refl g
  | n + 1, g =>
    Later.trans (g' := { g with used := g.used + 1 })
      ⟨rfl, Nat.le_succ _, Nat.le_refl _, fun _ _ h => h, fun _ => Nat.le_refl _, fun _ h => h⟩
      (newParams_later n { g with used := g.used + 1 })

theorem build_later : ∀ (net : Net) (g : Graph), Later g (net.build g).2
  | .one _, g => newParams_later _ g
  | .seq a b, g => (build_later a g).trans (build_later b _)
  | .sum _ a b, g => (build_later a g).trans (build_later b _)

theorem step_later : ∀ (net : Net) (i : Inst) (x : Ten) (g : Graph), Later g (net.step i x g).2.2
  | .one k, .one ps st, x, g => leaf_later _ ps st x g
  | .seq a b, .two ia ib, x, g => by
    have ha := step_later a ia x g
    simp only [Net.step]
    rcases hs : a.step ia x g with ⟨o, ia', g'⟩
    rw [hs] at ha
    cases o with
    | none => exact ha
    | some y => exact ha.trans (step_later b ib y g')
  | .sum mul a b, .two ia ib, x, g => by
    have ha := step_later a ia x g
    simp only [Net.step]
    rcases hs : a.step ia x g with ⟨o, ia', g'⟩
    rw [hs] at ha
    have hb := step_later b ib x g'
    simp only
    rcases hs' : b.step ib x g' with ⟨o', ib', g''⟩
    rw [hs'] at hb
    cases o <;> cases o' <;> simp only <;> first | exact ha.trans hb | exact (ha.trans hb).trans (make_later ..)
  | .one _, .two _ _, _, g => .refl g
  | .seq _ _, .one _ _, _, g => .refl g
  | .sum _ _ _, .one _ _, _, g => .refl g

theorem frame_later (g : Graph) : Later g g.frame.2 :=
  ⟨rfl, Nat.le_succ _, Nat.le_refl _, fun _ _ h => h, fun _ => Nat.le_refl _, fun _ h => h⟩

theorem stream_later (net : Net) : ∀ (n : Nat) (i : Inst) (g : Graph), Later g (net.stream n i g).2.2
  | 0, _, g => .refl g
  | n + 1, i, g => ((stream_later net n i g).trans (frame_later _)).trans (step_later ..)

end CoInf.Grad
