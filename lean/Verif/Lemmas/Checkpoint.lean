import Verif.Lemmas.HeapLeaves

set_option autoImplicit false

namespace CoInf.Heap
open Spec
variable {X Y V : Type} {ip : Bool} {H : HLeaf X Y V} {L : Leaf X Y} {fwd : List X → Except Err (List Y)}
  {eI : List V × H.A → L.Inst} {eS : List V × H.A → L.St}

theorem plain_ofCall (c : Call (.stream X)) : HCall.plain (ofCall c) := by cases c <;> trivial

theorem allowed_ofCalls {ip : Bool} (cs : List (Call (.stream X))) : ∀ c ∈ cs.map ofCall, Allowed ip c := by
  intro c hc
  obtain ⟨c', _, rfl⟩ := List.mem_map.1 hc
  exact .inl (plain_ofCall c')

/-- Public calls of the module with immutable tensors. -/
theorem vcalls_eq {M : CoMod (.stream X) (.stream Y)} (toM : L.Inst → M.Inst)
    (hstep : ∀ i u x, M.step (toM i) u x = (L.forwardStep i u x).map fun p => (p.1, toM p.2))
    (hsteps : ∀ i p u xs, M.steps (toM i) p u xs = (L.forwardSteps i p u xs).map fun p => (p.1, toM p.2))
    (hclean : ∀ i, M.clean (toM i) = toM (L.clean i))
    (hfwd : ∀ i xs, M.fwd (toM i) xs = (fwd xs).map fun ys => (ys, toM i)) :
    ∀ (cs : List (Call (.stream X))) (i : L.Inst) (k : List (Option L.St)),
      (vcalls L fwd ⟨i, k⟩ (cs.map ofCall)).1 = (calls M (toM i) cs).1 := by
  intro cs
  induction cs with
  | nil => intro i k; rfl
  | cons c cs ih =>
    intro i k
    simp only [List.map_cons, vcalls, calls]
    cases c with
    | step u x =>
      simp only [ofCall, vcall, call, hstep]
      cases L.forwardStep i u x with
      | error e => rfl
      | ok p => simp only [Except.map]; rw [ih]
    | steps p u xs =>
      simp only [ofCall, vcall, call, hsteps]
      cases L.forwardSteps i p u xs with
      | error e => rfl
      | ok p => simp only [Except.map]; rw [ih]
    | clean =>
      simp only [ofCall, vcall, call, hclean]
      rw [ih]
    | fwd xs =>
      simp only [ofCall, vcall, call, hfwd]
      cases fwd xs with
      | error e => rfl
      | ok p => simp only [Except.map]; rw [ih]

theorem seen_values (M : Models ip H L fwd eI eS) (cs : List (HCall X)) (hc : ∀ c ∈ cs, Allowed ip c) :
    seen H cs = (vcalls L fwd ⟨L.init, []⟩ cs).1 := (run_spec M cs (new_rel M) hc).1

/-- States kept by the user do not matter for the public calls. -/
theorem hcalls_kept : ∀ (cs : List (Call (.stream X))) (i : H.Inst) (k k' : List (Option (Nat × H.A))) (h : Mem V),
    (hcalls H ⟨i, k, h⟩ (cs.map ofCall)).1 = (hcalls H ⟨i, k', h⟩ (cs.map ofCall)).1 ∧
      (hcalls H ⟨i, k, h⟩ (cs.map ofCall)).2.mem = (hcalls H ⟨i, k', h⟩ (cs.map ofCall)).2.mem := by
  intro cs
  induction cs with
  | nil => intro i k k' h; exact ⟨rfl, rfl⟩
  | cons c cs ih =>
    intro i k k' h
    simp only [List.map_cons, hcalls]
    cases c with
    | step u x =>
      simp only [ofCall, hcall]
      cases H.forwardStep i u x h with
      | error e => exact ⟨rfl, rfl⟩
      | ok p =>
        obtain ⟨o, i', h'⟩ := p
        obtain ⟨a, b⟩ := ih i' k k' h'
        exact ⟨by simp only; rw [a], b⟩
    | steps p u xs =>
      simp only [ofCall, hcall]
      cases H.forwardSteps i p u xs h with
      | error e => exact ⟨rfl, rfl⟩
      | ok p =>
        obtain ⟨o, i', h'⟩ := p
        obtain ⟨a, b⟩ := ih i' k k' h'
        exact ⟨by simp only; rw [a], b⟩
    | clean =>
      simp only [ofCall, hcall]
      obtain ⟨a, b⟩ := ih (H.clean i h).1 k k' (H.clean i h).2
      exact ⟨by rw [a], b⟩
    | fwd xs =>
      simp only [ofCall, hcall]
      cases H.fwd xs with
      | error e => exact ⟨rfl, rfl⟩
      | ok ys =>
        obtain ⟨a, b⟩ := ih i k k' h
        exact ⟨by simp only; rw [a], b⟩

/-- What public calls show in a world that stands for the value `v`. -/
theorem seenFrom_obj (M : Models ip H L fwd eI eS) {w : World H} {v : L.Inst} (r : ObjRel eI w.mem w.obj v)
    (cs : List (Call (.stream X))) : seenFrom H w (cs.map ofCall) = (vcalls L fwd ⟨v, []⟩ (cs.map ofCall)).1 := by
  have hr : WRel ip eI eS (⟨w.obj, [], w.mem⟩ : World H) (⟨v, []⟩ : VWorld L) := ⟨r, .nil⟩
  rw [← (run_spec M (cs.map ofCall) hr (allowed_ofCalls cs)).1]
  unfold seenFrom
  obtain ⟨a, b⟩ := hcalls_kept (H := H) cs w.obj w.kept [] w.mem
  have a' : (hcalls H w (cs.map ofCall)).1 = (hcalls H ⟨w.obj, [], w.mem⟩ (cs.map ofCall)).1 := a
  have b' : (hcalls H w (cs.map ofCall)).2.mem = (hcalls H ⟨w.obj, [], w.mem⟩ (cs.map ofCall)).2.mem := b
  rw [a', b']

theorem hcalls_append : ∀ (cs ds : List (HCall X)) (w : World H), Fine (hcalls H w cs).1 →
    hcalls H w (cs ++ ds) = ((hcalls H w cs).1 ++ (hcalls H (hcalls H w cs).2 ds).1, (hcalls H (hcalls H w cs).2 ds).2) := by
  intro cs ds
  induction cs with
  | nil => intro w _; rfl
  | cons c cs ih =>
    intro w hf
    simp only [List.cons_append, hcalls] at hf ⊢
    cases hc : hcall H w c with
    | error e => rw [hc] at hf; exact absurd rfl (hf _ (by simp) e)
    | ok p =>
      obtain ⟨r, w'⟩ := p
      rw [hc] at hf
      simp only at hf ⊢
      rw [ih w' (fun r' hr => hf r' (by simp [hr]))]
      rfl

theorem hcalls_fine_prefix : ∀ (cs ds : List (HCall X)) (w : World H), Fine (hcalls H w (cs ++ ds)).1 → Fine (hcalls H w cs).1 := by
  intro cs ds
  induction cs with
  | nil => intro w _ r hr; simp [hcalls] at hr
  | cons c cs ih =>
    intro w hf
    simp only [List.cons_append, hcalls] at hf ⊢
    cases hc : hcall H w c with
    | error e => rw [hc] at hf; exact absurd rfl (hf _ (by simp) e)
    | ok p =>
      obtain ⟨r, w'⟩ := p
      rw [hc] at hf
      simp only at hf ⊢
      intro r' hr
      rcases List.mem_cons.1 hr with rfl | hr
      · exact hf _ (by simp)
      · exact ih w' (fun r'' h'' => hf r'' (by simp [h''])) r' hr

/-- Kept states stay where they are. -/
theorem hcalls_keeps : ∀ (cs : List (HCall X)) (w : World H), ∃ t, (hcalls H w cs).2.kept = w.kept ++ t := by
  intro cs
  induction cs with
  | nil => intro w; exact ⟨[], by simp [hcalls]⟩
  | cons c cs ih =>
    intro w
    simp only [hcalls]
    cases hc : hcall H w c with
    | error e => exact ⟨[], by simp⟩
    | ok p =>
      obtain ⟨r, w'⟩ := p
      obtain ⟨t, ht⟩ := ih w'
      simp only
      rw [ht]
      have : ∃ t', w'.kept = w.kept ++ t' := by
        cases c with
        | step u x =>
          simp only [hcall] at hc
          cases hs : H.forwardStep w.obj u x w.mem with
          | error e => rw [hs] at hc; cases hc
          | ok q => rw [hs] at hc; cases hc; exact ⟨[], by simp⟩
        | steps p u xs =>
          simp only [hcall] at hc
          cases hs : H.forwardSteps w.obj p u xs w.mem with
          | error e => rw [hs] at hc; cases hc
          | ok q => rw [hs] at hc; cases hc; exact ⟨[], by simp⟩
        | clean => cases hc; exact ⟨[], by simp⟩
        | fwd xs =>
          simp only [hcall] at hc
          cases hs : H.fwd xs with
          | error e => rw [hs] at hc; cases hc
          | ok q => rw [hs] at hc; cases hc; exact ⟨[], by simp⟩
        | save => cases hc; exact ⟨_, rfl⟩
        | saveClone =>
          simp only [hcall] at hc
          cases hs : H.get w.obj w.mem with
          | none => rw [hs] at hc; cases hc; exact ⟨_, rfl⟩
          | some q => rw [hs] at hc; cases hc; exact ⟨_, rfl⟩
        | restore k =>
          simp only [hcall] at hc
          cases hs : w.kept[k]? with
          | none => rw [hs] at hc; cases hc
          | some q => cases q with
            | none => rw [hs] at hc; cases hc
            | some q => rw [hs] at hc; cases hc; exact ⟨[], by simp⟩
      obtain ⟨t', ht'⟩ := this
      exact ⟨t' ++ t, by rw [ht', List.append_assoc]⟩

/-- Keeping the state (`sv`), doing other things, and putting it back: the object stands for the same value again. -/
theorem checkpoint (M : Models ip H L fwd eI eS) {w : World H} {v : VWorld L} (r : WRel ip eI eS w v) (sv : HCall X)
    (hsv : sv = .saveClone ∨ (ip = false ∧ sv = .save)) (mid : List (HCall X)) (hmid : ∀ c ∈ mid, Allowed ip c)
    (hf : Fine (hcalls H w (sv :: mid ++ [.restore w.kept.length])).1) :
    ObjRel eI (hcalls H w (sv :: mid ++ [.restore w.kept.length])).2.mem
      (hcalls H w (sv :: mid ++ [.restore w.kept.length])).2.obj v.obj := by
  have hf1 := hcalls_fine_prefix _ _ _ hf
  rw [hcalls_append _ _ _ hf1] at hf ⊢
  -- the world after keeping the state
  have hall : ∀ c ∈ sv :: mid, Allowed ip c := by
    intro c hc
    rcases List.mem_cons.1 hc with rfl | hc
    · rcases hsv with h | ⟨h, _⟩
      · exact .inr (.inl h)
      · exact .inr (.inr h)
    · exact hmid c hc
  obtain ⟨w1, hw1, hk1⟩ : ∃ w1, hcall H w sv = .ok (.done, w1) ∧ ∃ s, w1.kept = w.kept ++ [s] := by
    rcases hsv with h | ⟨_, h⟩ <;> subst h
    · simp only [hcall]
      cases H.get w.obj w.mem with
      | none => exact ⟨_, rfl, _, rfl⟩
      | some q => exact ⟨_, rfl, _, rfl⟩
    · exact ⟨_, rfl, _, rfl⟩
  obtain ⟨s, hs⟩ := hk1
  have hv1 : vcall L fwd v sv = .ok (.done, ⟨v.obj, v.kept ++ [L.get v.obj]⟩) := by
    rcases hsv with h | ⟨_, h⟩ <;> subst h <;> rfl
  have hr1 := call_spec M r sv (hall sv (by simp))
  rw [hv1] at hr1
  obtain ⟨ho, w1', k1, k2, _⟩ := hr1
  rw [hw1] at k1
  have e1 : w1 = w1' := by cases k1; rfl
  subst e1
  have hm := (run_spec M mid k2 hmid).2.1
  have e2 : (hcalls H w (sv :: mid)).2 = (hcalls H w1 mid).2 := by simp only [hcalls, hw1]
  rw [e2] at hf ⊢
  obtain ⟨t, ht⟩ := hcalls_keeps mid w1
  have hlk := k2.kept.length_eq
  have hlen : w.kept.length = v.kept.length := r.kept.length_eq
  -- the kept entry after the calls
  have hent : (hcalls H w1 mid).2.kept[w.kept.length]? = some s := by
    rw [ht, hs, List.append_assoc, List.getElem?_append_right (Nat.le_refl _)]; simp
  have hvent : ∃ t', (vcalls L fwd ⟨v.obj, v.kept ++ [L.get v.obj]⟩ mid).2.kept = v.kept ++ [L.get v.obj] ++ t' := by
    clear hm hmid hf hf1 hall e2 ht hent
    have gen : ∀ (mid : List (HCall X)) (u : VWorld L), ∃ t', (vcalls L fwd u mid).2.kept = u.kept ++ t' := by
      intro mid
      induction mid with
      | nil => intro u; exact ⟨[], by simp [vcalls]⟩
      | cons c cs ih =>
        intro u
        simp only [vcalls]
        cases hc : vcall L fwd u c with
        | error e => exact ⟨[], by simp⟩
        | ok p =>
          obtain ⟨o, u'⟩ := p
          obtain ⟨t, ht⟩ := ih u'
          simp only
          rw [ht]
          have : ∃ t', u'.kept = u.kept ++ t' := by
            cases c with
            | step b x =>
              simp only [vcall] at hc
              cases hs : L.forwardStep u.obj b x with
              | error e => rw [hs] at hc; cases hc
              | ok q => rw [hs] at hc; cases hc; exact ⟨[], by simp⟩
            | steps p b xs =>
              simp only [vcall] at hc
              cases hs : L.forwardSteps u.obj p b xs with
              | error e => rw [hs] at hc; cases hc
              | ok q => rw [hs] at hc; cases hc; exact ⟨[], by simp⟩
            | clean => cases hc; exact ⟨[], by simp⟩
            | fwd xs =>
              simp only [vcall] at hc
              cases hs : fwd xs with
              | error e => rw [hs] at hc; cases hc
              | ok q => rw [hs] at hc; cases hc; exact ⟨[], by simp⟩
            | save => cases hc; exact ⟨_, rfl⟩
            | saveClone => cases hc; exact ⟨_, rfl⟩
            | restore k =>
              simp only [vcall] at hc
              cases hs : u.kept[k]? with
              | none => rw [hs] at hc; cases hc
              | some q => cases q with
                | none => rw [hs] at hc; cases hc
                | some q => rw [hs] at hc; cases hc; exact ⟨[], by simp⟩
          obtain ⟨t', ht'⟩ := this
          exact ⟨t' ++ t, by rw [ht', List.append_assoc]⟩
    exact gen mid ⟨v.obj, v.kept ++ [L.get v.obj]⟩
  obtain ⟨t', ht'⟩ := hvent
  have hent' : (vcalls L fwd ⟨v.obj, v.kept ++ [L.get v.obj]⟩ mid).2.kept[w.kept.length]? = some (L.get v.obj) := by
    rw [ht', hlen, List.append_assoc, List.getElem?_append_right (Nat.le_refl _)]; simp
  have hk := hm.kept
  obtain ⟨a1, a2⟩ : absS eS (hcalls H w1 mid).2.mem s = L.get v.obj ∧ ∀ a, s.map Prod.fst = some a →
      a < (hcalls H w1 mid).2.mem.length ∧ (ip = false ∨ a ≠ (hcalls H w1 mid).2.obj.1) := by
    obtain ⟨h1, e3⟩ := List.getElem?_eq_some_iff.1 hent
    obtain ⟨h2, e4⟩ := List.getElem?_eq_some_iff.1 hent'
    have := (List.forall₂_iff_get.1 hk).2 w.kept.length h1 h2
    simp only [List.get_eq_getElem, e3, e4] at this
    exact this
  cases s with
  | none =>
    exfalso
    refine hf (.raised .type) ?_ .type rfl
    simp [hcalls, hcall, hent]
  | some st =>
    simp only [hcalls, hcall, hent]
    refine ⟨(a2 st.1 rfl).1, ?_⟩
    -- the value put back is the value of the object at the time
    obtain ⟨p, hp⟩ : ∃ p, v.obj = eI p := ⟨_, r.obj.2⟩
    rw [hp, M.get] at a1
    split at a1
    · simp only [absS, Option.map_some, Option.some.injEq] at a1
      rw [← M.set _ v.obj, a1, M.set, hp]
    · cases a1

end CoInf.Heap
