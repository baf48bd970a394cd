import Verif.Lemmas.Corner

namespace CoInf
open Spec
variable {X Y : Type}

theorem reach_held {M : CoMod (.stream X) (.stream Y)} (T : Tame M) (Q : M.Inst → Prop)
    (hstep : ∀ {i x o i'}, (i = M.init ∨ Q i) → M.step i true x = .ok (o, i') → Q i')
    (hsteps : ∀ {i xs o i'}, (i = M.init ∨ Q i) → xs ≠ [] → M.steps i false true xs = .ok (o, i') → Q i')
    {h i} (hr : Reach M h i) : h ≠ [] → Q i := by
  have key : (h = [] ∧ i = M.init) ∨ Q i := by
    induction hr with
    | init => exact .inl ⟨rfl, rfl⟩
    | clean _ _ => exact .inl ⟨rfl, T.clean _⟩
    | step u x _ hs ih =>
      cases u with
      | true => exact .inr (hstep (ih.imp And.right id) hs)
      | false => rw [T.step_false hs]; exact ih
    | steps u xs hx _ hs ih =>
      cases u with
      | true => exact .inr (hsteps (ih.imp And.right id) hx hs)
      | false => rw [T.steps_false hs]; exact ih
    | fwd _ hf ih => rw [T.fwd_state hf]; exact ih
  intro hne
  rcases key with ⟨h0, _⟩ | hq
  · exact absurd h0 hne
  · exact hq

/-- Invariant of a leaf whose step always returns a state. -/
theorem leaf_held {L : Leaf X Y} (Q : L.St → Prop)
    (hp : ∀ {x s o s'}, (∀ st, s = some st → Q st) → L.pstep x s = .ok (o, s') → ∃ st', s' = some st' ∧ Q st')
    {s : Option L.St} (hs : ∀ st, s = some st → Q st) (xs : List X) (hx : xs ≠ []) {ys s'}
    (h : L.loop s xs = .ok (ys, s')) : ∃ st', s' = some st' ∧ Q st' := by
  induction xs generalizing s ys with
  | nil => exact absurd rfl hx
  | cons x xs ih =>
    rw [Leaf.loop] at h
    cases h1 : L.pstep x s with
    | error e => rw [h1, err_bind] at h; cases h
    | ok p =>
      rw [h1, ok_bind] at h
      simp only at h
      obtain ⟨st1, e1, q1⟩ := hp hs (show L.pstep x s = .ok (p.1, p.2) from h1)
      cases h2 : L.loop p.2 xs with
      | error e => rw [h2, err_bind] at h; cases h
      | ok q =>
        rw [h2, ok_bind] at h
        cases h
        by_cases hx' : xs = []
        · subst hx'; cases h2; exact ⟨st1, e1, q1⟩
        · exact ih (s := p.2) (fun st e => by rw [e1] at e; cases e; exact q1) hx' h2

theorem leaf_steps_held {L : Leaf X Y} (Q : L.St → Prop)
    (hp : ∀ {x s o s'}, (∀ st, s = some st → Q st) → L.pstep x s = .ok (o, s') → ∃ st', s' = some st' ∧ Q st')
    {i xs o i'} (hs : ∀ st, L.get i = some st → Q st) (hx : xs ≠ [])
    (h : L.forwardSteps i false true xs = .ok (o, i')) : ∃ st', i' = L.set st' i ∧ Q st' := by
  unfold Leaf.forwardSteps at h
  cases h1 : L.loop (L.get i) xs with
  | error e => rw [h1, err_bind] at h; cases h
  | ok p =>
    rw [h1, ok_bind] at h
    simp only [Bool.false_eq_true, if_false] at h
    obtain ⟨st', e, q⟩ := leaf_held Q hp hs xs hx (show L.loop (L.get i) xs = .ok (p.1, p.2) from h1)
    cases h
    exact ⟨st', by rw [e]; rfl, q⟩

theorem leaf_step_held {L : Leaf X Y} (Q : L.St → Prop)
    (hp : ∀ {x s o s'}, (∀ st, s = some st → Q st) → L.pstep x s = .ok (o, s') → ∃ st', s' = some st' ∧ Q st')
    {i x o i'} (hs : ∀ st, L.get i = some st → Q st)
    (h : L.forwardStep i true x = .ok (o, i')) : ∃ st', i' = L.set st' i ∧ Q st' := by
  unfold Leaf.forwardStep at h
  cases h1 : L.pstep x (L.get i) with
  | error e => rw [h1, err_bind] at h; cases h
  | ok p =>
    rw [h1, ok_bind] at h
    obtain ⟨st', e, q⟩ := hp hs (show L.pstep x (L.get i) = .ok (p.1, p.2) from h1)
    cases h
    exact ⟨st', by rw [e]; rfl, q⟩

namespace Pool
variable (c : Cfg X Y)

theorem pstep_some_held {x : X} {st : St Y} {o s'} (hl : st.buffer.length = bufLen c)
    (h : pstep c x (some st) = .ok (o, s')) : ∃ st', s' = some st' ∧ st'.buffer.length = bufLen c := by
  unfold pstep at h
  simp only at h
  cases h1 : pySet st.buffer st.index (c.spatial x) with
  | error e => rw [h1, err_bind] at h; cases h
  | ok b =>
    rw [h1, ok_bind] at h
    have hb := pySet_length h1
    split at h
    · cases h2 : select c b ((st.index + 1) % (c.K : Int)) with
      | error e => rw [h2] at h; cases h
      | ok sel =>
        rw [h2] at h
        cases h
        exact ⟨_, rfl, by rw [hb, hl]⟩
    · cases h
      exact ⟨_, rfl, by rw [hb, hl]⟩

theorem pstep_held {x : X} {s : Option (St Y)} {o s'} (hs : ∀ st, s = some st → st.buffer.length = bufLen c)
    (h : pstep c x s = .ok (o, s')) : ∃ st', s' = some st' ∧ st'.buffer.length = bufLen c := by
  cases s with
  | some st => exact pstep_some_held c (hs st rfl) h
  | none =>
    exact pstep_some_held c (st := initState c (c.spatial x)) (by simp [initState]) h

theorem held {h i} (hr : Reach (mod c) h i) (hne : h ≠ []) : i.buffer.length = bufLen c := by
  have hget : ∀ i : St Y, (i = (mod c).init ∨ i.buffer.length = bufLen c) →
      ∀ st, (leaf c).get i = some st → st.buffer.length = bufLen c := by
    intro i hi st hst
    have hst : (if i.buffer.length > 0 then some i else none) = some st := hst
    split at hst
    · cases hst
      rcases hi with rfl | hi
      · rename_i h0; simp at h0
      · exact hi
    · cases hst
  refine reach_held (tame c) (fun i => i.buffer.length = bufLen c) ?_ ?_ hr hne
  · intro i x o i' hi h
    obtain ⟨st', e, q⟩ := leaf_step_held (L := leaf c) (fun st => st.buffer.length = bufLen c)
      (pstep_held c) (hget i hi) h
    rw [e]; exact q
  · intro i xs o i' hi hx h
    obtain ⟨st', e, q⟩ := leaf_steps_held (L := leaf c) (fun st => st.buffer.length = bufLen c)
      (pstep_held c) (hget i hi) hx h
    rw [e]; exact q

end Pool

namespace Conv
theorem pySet_mem {Y : Type} {b b' : List Y} {i : Int} {a : Y} (h : pySet b i a = .ok b') :
    ∀ r ∈ b', r ∈ b ∨ r = a := by
  unfold pySet at h
  generalize (if i < 0 then i + (b.length : Int) else i) = j at h
  simp only at h
  by_cases h1 : j < 0
  · rw [if_pos h1] at h; cases h
  · rw [if_neg h1] at h
    by_cases h2 : j.toNat < b.length
    · rw [if_pos h2] at h; cases h
      intro r hr
      exact List.mem_or_eq_of_mem_set hr
    · rw [if_neg h2] at h; cases h

/-- `K-1` slots with `K-1` partial results each. -/
def Sized (c : Cfg X Y) (st : St Y) : Prop := st.buffer.length = c.K - 1 ∧ ∀ r ∈ st.buffer, r.length = c.K - 1

variable [Zero X] [AddCommMonoid Y] (c : Cfg X Y)

theorem pstep_some_held (hs : stateless c = false) {x : X} {st : St Y} {o s'}
    (hl : Sized c st) (h : pstep c x (some st) = .ok (o, s')) : ∃ st', s' = some st' ∧ Sized c st' := by
  unfold pstep at h
  rw [if_neg (by simp [hs])] at h
  cases h0 : pyGet (taps c x) 0 with
  | error e => rw [h0, err_bind] at h; cases h
  | ok xo =>
    rw [h0, ok_bind] at h
    simp only at h
    cases h1 : output c st xo with
    | error e => rw [h1, err_bind] at h; cases h
    | ok out =>
      rw [h1, ok_bind] at h
      cases h2 : writeBack c st ((taps c x).drop 1) with
      | error e => rw [h2, err_bind] at h; cases h
      | ok q =>
        rw [h2, ok_bind] at h
        cases h
        refine ⟨_, rfl, ?_⟩
        unfold writeBack at h2
        split at h2
        · cases h3 : pySet st.buffer st.index ((taps c x).drop 1) with
          | error e => rw [h3, err_bind] at h2; cases h2
          | ok b =>
            rw [h3, ok_bind] at h2
            cases h2
            refine ⟨(Pool.pySet_length h3).trans hl.1, fun r hr => ?_⟩
            rcases pySet_mem h3 r hr with hr | hr
            · exact hl.2 r hr
            · rw [hr]; exact rest_length c x
        · cases h2; exact hl

theorem pstep_held (hs : stateless c = false) {x : X} {s : Option (St Y)} {o s'}
    (hq : ∀ st, s = some st → Sized c st) (h : pstep c x s = .ok (o, s')) : ∃ st', s' = some st' ∧ Sized c st' := by
  cases s with
  | some st => exact pstep_some_held c hs (hq st rfl) h
  | none =>
    have e : pstep c x none = pstep c x (some (initState c ((taps c x).drop 1))) := by
      unfold pstep
      rw [if_neg (by simp [hs]), if_neg (by simp [hs])]
    refine pstep_some_held c hs (st := initState c ((taps c x).drop 1))
      ⟨by simp [initState], fun r hr => ?_⟩ (e ▸ h)
    rw [(List.mem_replicate.1 hr).2, padRest_length]
    exact rest_length c x

theorem held {h i} (hr : Reach (mod c) h i) (hne : h ≠ []) : Sized c i := by
  by_cases hs : stateless c = true
  · have hK : c.K = 1 := by
      unfold stateless at hs; simp only [decide_eq_true_eq] at hs; exact hs.1
    have hgen : i = (mod c).init := by
      have hstep : ∀ x s o s', pstep c x s = .ok (o, s') → s' = s := by
        intro x s o s' h
        unfold pstep at h
        rw [if_pos hs] at h
        cases h1 : forward c [x] with
        | error e => rw [h1, err_bind] at h; cases h
        | ok ys =>
          rw [h1, ok_bind] at h
          cases h2 : pyGet ys 0 with
          | error e => rw [h2, err_bind] at h; cases h
          | ok y => rw [h2, ok_bind] at h; cases h; rfl
      have hloop : ∀ (xs : List X) s ys s', (leaf c).loop s xs = .ok (ys, s') → s' = s := by
        intro xs
        induction xs with
        | nil => intro s ys s' h; cases h; rfl
        | cons x xs ih =>
          intro s ys s' h
          rw [Leaf.loop] at h
          cases h1 : (leaf c).pstep x s with
          | error e => rw [h1, err_bind] at h; cases h
          | ok p =>
            rw [h1, ok_bind] at h
            simp only at h
            cases h2 : (leaf c).loop p.2 xs with
            | error e => rw [h2, err_bind] at h; cases h
            | ok q =>
              rw [h2, ok_bind] at h
              cases h
              rw [ih p.2 q.1 q.2 h2, hstep x s p.1 p.2 h1]
      refine reach_held (tame c) (fun i => i = (mod c).init) ?_ ?_ hr hne
      · intro i x o i' hi h
        have hi : i = (mod c).init := hi.elim id id
        subst hi
        have h : (leaf c).forwardStep (leaf c).init true x = .ok (o, i') := h
        unfold Leaf.forwardStep at h
        cases h1 : (leaf c).pstep x ((leaf c).get (leaf c).init) with
        | error e => rw [h1, err_bind] at h; cases h
        | ok p =>
          rw [h1, ok_bind] at h
          have e : p.2 = (leaf c).get (leaf c).init := hstep x ((leaf c).get (leaf c).init) p.1 p.2 h1
          cases h
          rw [e]; rfl
      · intro i xs o i' hi hx h
        have hi : i = (mod c).init := hi.elim id id
        subst hi
        have h : (leaf c).forwardSteps (leaf c).init false true xs = .ok (o, i') := h
        unfold Leaf.forwardSteps at h
        cases h1 : (leaf c).loop ((leaf c).get (leaf c).init) xs with
        | error e => rw [h1, err_bind] at h; cases h
        | ok p =>
          rw [h1, ok_bind] at h
          have e := hloop _ _ p.1 p.2 h1
          cases h
          rw [e]; rfl
    rw [hgen]
    exact ⟨by simp [hK], fun r hr => by cases hr⟩
  · have hs : stateless c = false := by simpa using hs
    have hget : ∀ i : St Y, (i = (mod c).init ∨ Sized c i) →
        ∀ st, (leaf c).get i = some st → Sized c st := by
      intro i hi st hst
      have hst : (if i.buffer.length > 0 then some i else none) = some st := hst
      split at hst
      · cases hst
        rcases hi with rfl | hi
        · rename_i h0; simp at h0
        · exact hi
      · cases hst
    refine reach_held (tame c) (Sized c) ?_ ?_ hr hne
    · intro i x o i' hi h
      obtain ⟨st', e, q⟩ := leaf_step_held (L := leaf c) (Sized c) (pstep_held c hs) (hget i hi) h
      rw [e]; exact q
    · intro i xs o i' hi hx h
      obtain ⟨st', e, q⟩ := leaf_steps_held (L := leaf c) (Sized c) (pstep_held c hs) (hget i hi) hx h
      rw [e]; exact q

end Conv

namespace Delay
variable (c : Cfg X)

theorem held {h i} (hr : Reach (mod c) h i) (hne : h ≠ []) : i.1.length = c.d := by
  rcases Nat.eq_zero_or_pos c.d with h0 | hd
  · refine reach_held (tame c) (fun i => i.1.length = c.d) ?_ ?_ hr hne
    · intro i x o i' hi h
      simp only [h0, if_true] at h
      cases h
      rcases hi with rfl | hi
      · simp [h0]
      · exact hi
    · intro i xs o i' hi hx h
      simp only [h0, if_true] at h
      cases h
      rcases hi with rfl | hi
      · simp [h0]
      · exact hi
  · have sim := simRel c hd
    rcases sim.of_reach hr with ⟨h0, _⟩ | ⟨b, idx, pad, _, hg, hring, _⟩
    · exact absurd h0 hne
    · have hg : (if i.1.length > 0 then some i else none) = some (b, idx) := hg
      split at hg
      · cases hg; exact hring.len
      · cases hg

end Delay
end CoInf

namespace CoInf
open Spec
variable {X Y : Type}

/-- Invariants of arbitrary scripts of calls (any flags, end padding, failing calls). -/
theorem calls_held {M : CoMod (.stream X) (.stream Y)} (T : Tame M) (Q : M.Inst → Prop)
    (hstep : ∀ {i x o i'}, (i = M.init ∨ Q i) → M.step i true x = .ok (o, i') → (i' = M.init ∨ Q i'))
    (hsteps : ∀ {i p xs o i'}, (i = M.init ∨ Q i) → M.steps i p true xs = .ok (o, i') → (i' = M.init ∨ Q i'))
    (cs : List (Call (.stream X))) : ∀ {i}, (i = M.init ∨ Q i) → ∀ i' ∈ (calls M i cs).2, i' = M.init ∨ Q i' := by
  induction cs with
  | nil => intro i hi i' h; cases h; exact hi
  | cons c cs ih =>
    intro i hi i' h
    rw [calls] at h
    cases hc : call M i c with
    | error e => rw [hc] at h; cases h
    | ok p =>
      rw [hc] at h
      refine ih (i := p.2) ?_ i' h
      have map_ok : ∀ {α β : Type} {e : Except Err (α × M.Inst)} {f : α → β} {q : β × M.Inst},
          (e.map fun a => (f a.1, a.2)) = .ok q → ∃ a, e = .ok (a, q.2) := by
        intro α β e f q h
        cases e with
        | error e => cases h
        | ok a => cases h; exact ⟨a.1, rfl⟩
      cases c with
      | step u x =>
        obtain ⟨o, h1⟩ := map_ok hc
        cases u with
        | true => exact hstep hi h1
        | false => rw [T.step_false h1]; exact hi
      | steps q u xs =>
        obtain ⟨o, h1⟩ := map_ok hc
        cases u with
        | true => exact hsteps hi h1
        | false => rw [T.steps_false h1]; exact hi
      | clean => cases hc; exact .inl (T.clean i)
      | fwd xs =>
        obtain ⟨o, h1⟩ := map_ok hc
        rw [T.fwd_state h1]; exact hi

/-- The object saved by `forward_steps` is that of the call without end padding. -/
theorem leaf_steps_unpad {L : Leaf X Y} {i p xs o i'} (h : L.forwardSteps i p true xs = .ok (o, i')) :
    ∃ o', L.forwardSteps i false true xs = .ok (o', i') := by
  cases p with
  | false => exact ⟨o, h⟩
  | true =>
    have : ∃ o' i'', L.forwardSteps i false true xs = .ok (o', i'') := by
      unfold Leaf.forwardSteps at h ⊢
      cases h1 : L.loop (L.get i) xs with
      | error e => rw [h1, err_bind] at h; cases h
      | ok q => rw [ok_bind]; exact ⟨_, _, rfl⟩
    obtain ⟨o', i'', h'⟩ := this
    rw [Leaf.steps_pad_state L h h']
    exact ⟨o', h'⟩

/-- As `leaf_held`, for steps that may also return no state. -/
theorem leaf_held_weak {L : Leaf X Y} (Q : L.St → Prop)
    (hp : ∀ {x s o s'}, (∀ st, s = some st → Q st) → L.pstep x s = .ok (o, s') → ∀ st', s' = some st' → Q st')
    (xs : List X) : ∀ {s : Option L.St} {ys s'}, (∀ st, s = some st → Q st) → L.loop s xs = .ok (ys, s') →
      ∀ st', s' = some st' → Q st' := by
  induction xs with
  | nil => intro s ys s' hs h; cases h; exact hs
  | cons x xs ih =>
    intro s ys s' hs h
    rw [Leaf.loop] at h
    cases h1 : L.pstep x s with
    | error e => rw [h1, err_bind] at h; cases h
    | ok p =>
      rw [h1, ok_bind] at h
      simp only at h
      cases h2 : L.loop p.2 xs with
      | error e => rw [h2, err_bind] at h; cases h
      | ok q =>
        rw [h2, ok_bind] at h
        cases h
        exact ih (hp hs (show L.pstep x s = .ok (p.1, p.2) from h1)) h2

/-- Invariants of a leaf under arbitrary scripts. -/
theorem leaf_calls_held {M : CoMod (.stream X) (.stream Y)} (T : Tame M) {L : Leaf X Y} (Q : L.St → Prop)
    (R : L.Inst → Prop) (e : M.Inst = L.Inst) (hinit : R L.init)
    (hget : ∀ {i}, R i → ∀ st, L.get i = some st → Q st) (hset : ∀ {st i}, Q st → R (L.set st i))
    (hp : ∀ {x s o s'}, (∀ st, s = some st → Q st) → L.pstep x s = .ok (o, s') → ∀ st', s' = some st' → Q st')
    (he : e ▸ M.init = L.init)
    (hstep : ∀ {i x o i'}, M.step i true x = .ok (o, i') →
      e ▸ i' = e ▸ i ∨ L.forwardStep (e ▸ i) true x = .ok (o, e ▸ i'))
    (hsteps : ∀ {i p xs o i'}, M.steps i p true xs = .ok (o, i') →
      e ▸ i' = e ▸ i ∨ L.forwardSteps (e ▸ i) p true xs = .ok (o, e ▸ i'))
    (cs : List (Call (.stream X))) : ∀ i ∈ (calls M M.init cs).2, R (e ▸ i) := by
  have hsave : ∀ {i s'}, R i → (∀ st', s' = some st' → Q st') → R (L.save true s' i) := by
    intro i s' hi h
    unfold Leaf.save
    rw [if_pos rfl]
    cases s' with
    | none => exact hi
    | some st => exact hset (h st rfl)
  have key := calls_held T (fun i => R (e ▸ i)) ?_ ?_ cs (i := M.init) (.inl rfl)
  · intro i hi
    rcases key i hi with h | h
    · rw [h, he]; exact hinit
    · exact h
  · intro i x o i' hi h
    right
    have hi : R (e ▸ i) := by
      rcases hi with rfl | hi
      · rw [he]; exact hinit
      · exact hi
    rcases hstep h with h | h
    · rw [h]; exact hi
    · unfold Leaf.forwardStep at h
      cases h1 : L.pstep x (L.get (e ▸ i)) with
      | error e => rw [h1, err_bind] at h; cases h
      | ok p =>
        rw [h1, ok_bind] at h
        have := hp (hget hi) (show L.pstep x (L.get (e ▸ i)) = .ok (p.1, p.2) from h1)
        injection h with h
        injection h with _ h
        rw [← h]
        exact hsave hi this
  · intro i p xs o i' hi h
    right
    have hi : R (e ▸ i) := by
      rcases hi with rfl | hi
      · rw [he]; exact hinit
      · exact hi
    rcases hsteps h with h | h
    · rw [h]; exact hi
    · obtain ⟨o', h⟩ := leaf_steps_unpad h
      unfold Leaf.forwardSteps at h
      cases h1 : L.loop (L.get (e ▸ i)) xs with
      | error e => rw [h1, err_bind] at h; cases h
      | ok p =>
        rw [h1, ok_bind] at h
        have := leaf_held_weak Q hp xs (hget hi) h1
        simp only [Bool.false_eq_true, if_false] at h
        injection h with h
        injection h with _ h
        rw [← h]
        exact hsave hi this

theorem Pool.held_calls (c : Pool.Cfg X Y) (cs : List (Call (.stream X))) :
    ∀ i ∈ (calls (mod c) (mod c).init cs).2, i.buffer = [] ∨ i.buffer.length = bufLen c := by
  refine leaf_calls_held (L := leaf c) (tame c) (fun st => st.buffer.length = bufLen c)
    (fun i => i.buffer = [] ∨ i.buffer.length = bufLen c) rfl (.inl rfl) ?_ (fun h => .inr h) ?_ rfl
    (fun h => .inr h) (fun h => .inr h) cs
  · intro i hi st hst
    have hst : (if i.buffer.length > 0 then some i else none) = some st := hst
    split at hst
    · cases hst
      rcases hi with hi | hi
      · rename_i h0; simp [hi] at h0
      · exact hi
    · cases hst
  · intro x s o s' hs h st' e
    obtain ⟨st'', e', q⟩ := pstep_held c hs h
    rw [e'] at e; cases e; exact q

theorem Conv.held_calls [Zero X] [AddCommMonoid Y] (c : Conv.Cfg X Y) (cs : List (Call (.stream X))) :
    ∀ i ∈ (calls (mod c) (mod c).init cs).2, i.buffer = [] ∨ Sized c i := by
  refine leaf_calls_held (L := leaf c) (tame c) (Sized c)
    (fun i => i.buffer = [] ∨ Sized c i) rfl (.inl rfl) ?_ (fun h => .inr h) ?_ rfl
    (fun h => .inr h) (fun h => .inr h) cs
  · intro i hi st hst
    have hst : (if i.buffer.length > 0 then some i else none) = some st := hst
    split at hst
    · cases hst
      rcases hi with hi | hi
      · rename_i h0; simp [hi] at h0
      · exact hi
    · cases hst
  · intro x s o s' hs h st' e
    by_cases hst : stateless c = true
    · have h : pstep c x s = .ok (o, s') := h
      unfold pstep at h
      rw [if_pos hst] at h
      cases h1 : forward c [x] with
      | error e => rw [h1, err_bind] at h; cases h
      | ok ys =>
        rw [h1, ok_bind] at h
        cases h2 : pyGet ys 0 with
        | error e => rw [h2, err_bind] at h; cases h
        | ok y => rw [h2, ok_bind] at h; cases h; exact hs st' e
    · obtain ⟨st'', e', q⟩ := pstep_held c (by simpa using hst) hs h
      rw [e'] at e; cases e; exact q

theorem Delay.pstep_held (c : Delay.Cfg X) {x : X} {s o s'} (hs : ∀ st, s = some st → st.1.length = c.d)
    (h : pstep c x s = .ok (o, s')) : ∀ st', s' = some st' → st'.1.length = c.d := by
  intro st' e
  have key : ∀ (b : List X) (idx : Int) {o s'}, b.length = c.d → (do
      let output ← if idx ≥ 0 then (pyGet b idx).map some else .ok none
      let buffer' ← pySet b (idx % c.d) x
      let newIndex := idx + 1
      let newIndex := if newIndex > 0 then newIndex % c.d else newIndex
      return (output, some (buffer', newIndex)) : Except Err (Option X × Option (St X))) = .ok (o, s') →
      ∀ st', s' = some st' → st'.1.length = c.d := by
    intro b idx o s' hb h st' e
    have fin : ∀ {out : Option X}, (pySet b (idx % c.d) x >>= fun buffer' =>
        pure (out, some (buffer', if idx + 1 > 0 then (idx + 1) % (c.d : Int) else idx + 1))) =
          Except.ok (o, s') → st'.1.length = c.d := by
      intro out h
      cases h2 : pySet b (idx % c.d) x with
      | error e => rw [h2, err_bind] at h; cases h
      | ok b' =>
        rw [h2, ok_bind] at h
        cases h; cases e
        exact (Pool.pySet_length h2).trans hb
    simp only at h
    split at h
    · cases h1 : (pyGet b idx).map some with
      | error e => rw [h1, err_bind] at h; cases h
      | ok out => rw [h1, ok_bind] at h; exact fin h
    · exact fin h
  unfold pstep at h
  by_cases hd : c.d = 0
  · rw [if_pos hd] at h; cases h; exact hs st' e
  · rw [if_neg hd] at h
    cases s with
    | none => exact key _ _ (by simp) h st' e
    | some st => exact key st.1 st.2 (hs st rfl) h st' e

theorem Delay.held_calls (c : Delay.Cfg X) (cs : List (Call (.stream X))) :
    ∀ i ∈ (calls (mod c) (mod c).init cs).2, i.1 = [] ∨ i.1.length = c.d := by
  refine leaf_calls_held (L := leaf c) (tame c) (fun st => st.1.length = c.d)
    (fun i => i.1 = [] ∨ i.1.length = c.d) rfl (.inl rfl) ?_ (fun h => .inr h) (pstep_held c) rfl
    ?_ ?_ cs
  · intro i hi st hst
    have hst : (if i.1.length > 0 then some i else none) = some st := hst
    split at hst
    · cases hst
      rcases hi with hi | hi
      · rename_i h0; simp [hi] at h0
      · exact hi
    · cases hst
  · intro i x o i' h
    have h : (if c.d = 0 then .ok (some x, i) else (leaf c).forwardStep i true x) = Except.ok (o, i') := h
    split at h
    · cases h; exact .inl rfl
    · exact .inr h
  · intro i p xs o i' h
    have h : (if c.d = 0 then .ok (some xs, i) else (leaf c).forwardSteps i p true xs) = Except.ok (o, i') := h
    split at h
    · cases h; exact .inl rfl
    · exact .inr h

end CoInf
