import Verif.Spec.Heap

set_option autoImplicit false

namespace CoInf.Heap
open Spec
variable {X Y V : Type}

theorem read_append_lt {h : Mem V} {q : Nat} (hq : q < h.length) (t : Mem V) : read (h ++ t) q = read h q := by
  simp [read, List.getD, List.getElem?_append_left hq]

theorem read_alloc (h : Mem V) (b : List V) : read (h ++ [b]) h.length = b := by
  simp [read, List.getD]

theorem read_set_self {h : Mem V} {a : Nat} (ha : a < h.length) (b : List V) : read (h.set a b) a = b := by
  simp [read, List.getD, ha]

theorem read_set_ne {h : Mem V} {a q : Nat} (hq : q ≠ a) (b : List V) : read (h.set a b) q = read h q := by
  simp [read, List.getD, List.getElem?_set_ne (Ne.symm hq)]

/-- Only the buffer of the state `s` may have been written, and only if it has rows (nothing, if the module does not
write in place). -/
def Frame (ip : Bool) {A : Type} (s : Option (Nat × A)) (h h' : Mem V) : Prop :=
  h.length ≤ h'.length ∧
    ∀ q < h.length, (ip = false ∨ s.map Prod.fst ≠ some q ∨ read h q = []) → read h' q = read h q

/-- The buffer of the state `s'` is that of `s` or a new one. -/
def Owned {A : Type} (s : Option (Nat × A)) (h : Mem V) (s' : Option (Nat × A)) (h' : Mem V) : Prop :=
  ∀ st, s' = some st → st.1 < h'.length ∧ (h.length ≤ st.1 ∨ s.map Prod.fst = some st.1)

theorem Frame.refl {ip : Bool} {A : Type} (s : Option (Nat × A)) (h : Mem V) : Frame ip s h h := ⟨Nat.le_refl _, fun _ _ _ => rfl⟩

theorem Frame.trans {ip : Bool} {A : Type} {s s' : Option (Nat × A)} {h h1 h2 : Mem V} (f1 : Frame ip s h h1) (o : Owned s h s' h1)
    (f2 : Frame ip s' h1 h2) : Frame ip s h h2 := by
  refine ⟨Nat.le_trans f1.1 f2.1, fun q hq hs => ?_⟩
  have e1 := f1.2 q hq hs
  rw [f2.2 q (Nat.lt_of_lt_of_le hq f1.1), e1]
  rcases hs with hs | hs | hs
  · exact .inl hs
  · refine .inr (.inl fun he => ?_)
    cases s' with
    | none => cases he
    | some st =>
      have e : st.1 = q := by simpa using he
      rcases (o st rfl).2 with h | h
      · omega
      · exact hs (e ▸ h)
  · exact .inr (.inr (e1.trans hs))

theorem Owned.trans {A : Type} {s s1 s2 : Option (Nat × A)} {h h1 h2 : Mem V} (o1 : Owned s h s1 h1) (hle : h.length ≤ h1.length)
    (o2 : Owned s1 h1 s2 h2) : Owned s h s2 h2 := by
  intro st hst
  obtain ⟨a, b⟩ := o2 st hst
  refine ⟨a, ?_⟩
  rcases b with b | b
  · exact .inl (Nat.le_trans hle b)
  · cases s1 with
    | none => cases b
    | some st1 =>
      have e : st1.1 = st.1 := by simpa using b
      rcases (o1 st1 rfl).2 with c | c
      · exact .inl (e ▸ c)
      · exact .inr (e ▸ c)

/-- The demand of `Models` on one step. -/
def StepOk {A T : Type} (ip : Bool) (frame : V → Option Y) (e : List V × A → T) (s : Option (Nat × A)) (h : Mem V)
    (vp : Except Err (Option Y × Option T)) (hp : Except Err (Out V A)) : Prop :=
  match vp with
  | .error er => hp = .error er
  | .ok (o, t) => ∃ r, hp = .ok r ∧ t = (r.state.map fun st => e (read r.mem st.1, st.2)) ∧
      (r.state = none → s = none) ∧ Frame ip s h r.mem ∧ Owned s h r.state r.mem ∧
      (match r.out with
        | none => o = none
        | some v => (∃ z, v.read r.mem = some z ∧ frame z = o) ∧ o.isSome ∧ h.length ≤ v.addr ∧ v.addr < r.mem.length ∧
          ∀ st, r.state = some st → st.1 ≠ v.addr)

/-- `H` with mutable tensors models `L` with immutable ones; `ip` says whether it may write to the buffer it is given. -/
structure Models (ip : Bool) (H : HLeaf X Y V) (L : Leaf X Y) (fwd : List X → Except Err (List Y))
    (eI : List V × H.A → L.Inst) (eS : List V × H.A → L.St) : Prop where
  init : L.init = eI ([], H.reset)
  clean : ∀ i, L.clean i = eI ([], H.reset)
  get : ∀ p, L.get (eI p) = if p.1.length > 0 then some (eS p) else none
  set : ∀ p i, L.set (eS p) i = eI p
  padding : L.padding = H.padding
  makePad : L.makePad = H.makePad
  fwd : H.fwd = fwd
  pstep : ∀ x (s : Option (Nat × H.A)) (h : Mem V), (∀ st, s = some st → st.1 < h.length) →
    StepOk ip H.frame eS s h (L.pstep x (s.map fun st => eS (read h st.1, st.2))) (H.pstep x s h)

variable {ip : Bool} {H : HLeaf X Y V} {L : Leaf X Y} {fwd : List X → Except Err (List Y)}
  {eI : List V × H.A → L.Inst} {eS : List V × H.A → L.St}

/-- The value that a state stands for. -/
def absS (eS : List V × H.A → L.St) (h : Mem V) (s : Option (Nat × H.A)) : Option L.St :=
  s.map fun st => eS (read h st.1, st.2)

def Valid {A : Type} (s : Option (Nat × A)) (h : Mem V) : Prop := ∀ st, s = some st → st.1 < h.length

/-- A collected output: shows the frame `y`, and lies in memory between `n` and the end, apart from the state's buffer. -/
def Shows (H : HLeaf X Y V) (h : Mem V) (n : Nat) (s : Option (Nat × H.A)) (v : View) (y : Y) : Prop :=
  (∃ z, v.read h = some z ∧ H.frame z = some y) ∧ n ≤ v.addr ∧ v.addr < h.length ∧ s.map Prod.fst ≠ some v.addr

theorem Shows.later {h h' : Mem V} {n : Nat} {s s' : Option (Nat × H.A)} {v : View} {y : Y} (hs : Shows H h n s v y)
    (f : Frame ip s h h') (o : Owned s h s' h') : Shows H h' n s' v y := by
  obtain ⟨⟨z, h1, h2⟩, h3, h4, h5⟩ := hs
  refine ⟨⟨z, ?_, h2⟩, h3, Nat.lt_of_lt_of_le h4 f.1, ?_⟩
  · unfold View.read at h1 ⊢
    rw [f.2 v.addr h4 (.inr (.inl h5))]; exact h1
  · intro he
    cases s' with
    | none => cases he
    | some st =>
      have e : st.1 = v.addr := by simpa using he
      rcases (o st rfl).2 with c | c
      · omega
      · exact h5 (e ▸ c)

theorem loop_spec (M : Models ip H L fwd eI eS) : ∀ (xs : List X) (s : Option (Nat × H.A)) (h : Mem V), Valid s h →
    match L.loop (absS eS h s) xs with
    | .error e => H.loop xs s h = .error e
    | .ok (ys, t) => ∃ os s' h', H.loop xs s h = .ok (os, s', h') ∧ t = absS eS h' s' ∧ (s' = none → s = none) ∧
      Frame ip s h h' ∧ Owned s h s' h' ∧ List.Forall₂ (Shows H h' h.length s') os ys := by
  intro xs
  induction xs with
  | nil =>
    intro s h hv
    simp only [Leaf.loop, HLeaf.loop]
    exact ⟨[], s, h, rfl, rfl, id, Frame.refl s h, fun st hst => ⟨hv st hst, .inr (by rw [hst]; rfl)⟩, .nil⟩
  | cons x xs ih =>
    intro s h hv
    have hp := M.pstep x s h hv
    unfold StepOk at hp
    simp only [Leaf.loop, HLeaf.loop]
    have ea : absS eS h s = s.map fun st => eS (read h st.1, st.2) := rfl
    rw [ea]
    cases hr : L.pstep x (s.map fun st => eS (read h st.1, st.2)) with
    | error e =>
      rw [hr] at hp
      simp only at hp
      simp only [hp, bind, Except.bind]
    | ok p =>
      obtain ⟨o, t⟩ := p
      rw [hr] at hp
      obtain ⟨r, p1, p2, p3, p4, p5, p6⟩ := hp
      have hv' : Valid r.state r.mem := fun st hst => (p5 st hst).1
      have hl := ih r.state r.mem hv'
      rw [show absS eS r.mem r.state = t from p2.symm] at hl
      simp only [bind, Except.bind, p1]
      cases hk : L.loop t xs with
      | error e => rw [hk] at hl; simp only at hl; simp only [hl]
      | ok q =>
        obtain ⟨ys, t'⟩ := q
        rw [hk] at hl
        obtain ⟨os, s', h', l1, l2, l3, l4, l5, l6⟩ := hl
        simp only [l1, pure, Except.pure]
        refine ⟨_, s', h', rfl, l2, fun e => p3 (l3 e), p4.trans p5 l4, p5.trans p4.1 l5, ?_⟩
        have l6' : List.Forall₂ (Shows H h' h.length s') os ys :=
          l6.imp fun v y k => ⟨k.1, Nat.le_trans p4.1 k.2.1, k.2.2⟩
        cases ho : r.out with
        | none => rw [ho] at p6; simp only at p6; subst p6; simpa using l6'
        | some v =>
          rw [ho] at p6
          obtain ⟨⟨z, z1, z2⟩, hsome, h1, h2, h3⟩ := p6
          obtain ⟨y, rfl⟩ := Option.isSome_iff_exists.1 hsome
          refine List.Forall₂.cons ?_ l6'
          exact Shows.later (s := r.state) ⟨⟨z, z1, z2⟩, h1, h2, by
            intro he
            cases hst : r.state with
            | none => rw [hst] at he; cases he
            | some st => exact h3 st hst (by rw [hst] at he; simpa using he)⟩ l4 l5

/-! ### Objects -/

/-- The object stands for the value `v`. -/
def ObjRel (eI : List V × H.A → L.Inst) (h : Mem V) (i : H.Inst) (v : L.Inst) : Prop :=
  i.1 < h.length ∧ v = eI (read h i.1, i.2)

/-- A call on the object may only have written to its own buffer, which is the old one or new. -/
def ObjFrame (ip : Bool) {A : Type} (i : Nat × A) (h : Mem V) (i' : Nat × A) (h' : Mem V) : Prop :=
  h.length ≤ h'.length ∧ (∀ q < h.length, (ip = false ∨ q ≠ i.1) → read h' q = read h q) ∧
    (h.length ≤ i'.1 ∨ i'.1 = i.1)

theorem get_abs (M : Models ip H L fwd eI eS) {h : Mem V} {i : H.Inst} {v : L.Inst} (r : ObjRel eI h i v) :
    L.get v = absS eS h (H.get i h) := by
  rw [r.2, M.get]
  unfold HLeaf.get absS
  split <;> simp_all

theorem get_cases (H : HLeaf X Y V) (i : H.Inst) (h : Mem V) :
    (H.get i h = some i ∧ 0 < (read h i.1).length) ∨ (H.get i h = none ∧ read h i.1 = []) := by
  unfold HLeaf.get
  split
  · exact .inl ⟨rfl, by assumption⟩
  · exact .inr ⟨rfl, List.eq_nil_of_length_eq_zero (by omega)⟩

theorem clone_facts (H : HLeaf X Y V) (eS : List V × H.A → L.St) (s : Nat × H.A) (h : Mem V) :
    (H.clone s h).1.1 = h.length ∧ (H.clone s h).2.length = h.length + 1 ∧
    absS eS (H.clone s h).2 (some (H.clone s h).1) = absS eS h (some s) ∧
    ∀ q < h.length, read (H.clone s h).2 q = read h q := by
  unfold HLeaf.clone alloc absS
  refine ⟨rfl, by simp, ?_, fun q hq => read_append_lt hq _⟩
  simp [read_alloc]

/-- The state that a call works on. -/
theorem protect_facts (M : Models ip H L fwd eI eS) {h : Mem V} {i : H.Inst} {v : L.Inst} (r : ObjRel eI h i v) (u : Bool) :
    ∃ s h1, H.protect u (H.get i h) h = (s, h1) ∧ absS eS h1 s = L.get v ∧ Valid s h1 ∧ h.length ≤ h1.length ∧
      (∀ q < h.length, read h1 q = read h q) ∧ (s = none → read h i.1 = []) ∧
      (∀ a, s.map Prod.fst = some a → h.length ≤ a ∨ (u = true ∧ a = i.1)) ∧ (u = true → h1 = h) := by
  have hg := get_abs M r
  rcases get_cases H i h with ⟨e, hp⟩ | ⟨e, hp⟩
  · rw [e] at hg ⊢
    cases u with
    | true =>
      refine ⟨some i, h, rfl, hg.symm, ?_, Nat.le_refl _, fun _ _ => rfl, by simp, ?_, fun _ => rfl⟩
      · intro st hst; cases hst; exact r.1
      · intro a ha
        exact .inr ⟨rfl, by simpa using ha.symm⟩
    | false =>
      obtain ⟨c1, c2, c3, c4⟩ := clone_facts H eS i h
      refine ⟨some (H.clone i h).1, (H.clone i h).2, rfl, by rw [c3]; exact hg.symm, ?_, by omega, c4, by simp, ?_, by simp⟩
      · intro st hst; cases hst; omega
      · intro a ha
        have : (H.clone i h).1.1 = a := by simpa using ha
        exact .inl (by omega)
  · rw [e] at hg ⊢
    refine ⟨none, h, ?_, hg.symm, by simp [Valid], Nat.le_refl _, fun _ _ => rfl, fun _ => hp, by simp, fun _ => rfl⟩
    cases u <;> rfl

/-- Saving the state of a loop into the object. -/
theorem save_facts (M : Models ip H L fwd eI eS) {h h1 h2 : Mem V} {i : H.Inst} {v : L.Inst} (r : ObjRel eI h i v)
    {s s' : Option (Nat × H.A)} (hle : h.length ≤ h1.length) (hread : ∀ q < h.length, read h1 q = read h q)
    (hnone : s = none → read h i.1 = []) {u : Bool}
    (haddr : ∀ a, s.map Prod.fst = some a → h.length ≤ a ∨ (u = true ∧ a = i.1))
    (f : Frame ip s h1 h2) (o : Owned s h1 s' h2) (hn : s' = none → s = none) :
    ObjRel eI h2 (H.save u s' i) (L.save u (absS eS h2 s') v) ∧ ObjFrame ip i h (H.save u s' i) h2 ∧
      (u = true → s' ≠ none → s' = some (H.save u s' i)) := by
  have hi : i.1 < h1.length := Nat.lt_of_lt_of_le r.1 hle
  have hfr : ∀ q < h.length, (ip = false ∨ q ≠ i.1) → read h2 q = read h q := by
    intro q hq hs
    rw [f.2 q (Nat.lt_of_lt_of_le hq hle) ?_, hread q hq]
    rcases hs with hs | hs
    · exact .inl hs
    · refine .inr (.inl fun he => ?_)
      rcases haddr q he with c | c
      · omega
      · exact hs c.2
  by_cases hsv : u = true ∧ s' ≠ none
  · obtain ⟨rfl, hs'⟩ := hsv
    cases s' with
    | none => exact absurd rfl hs'
    | some st =>
      obtain ⟨o1, o2⟩ := o st rfl
      refine ⟨⟨o1, ?_⟩, ⟨Nat.le_trans hle f.1, hfr, ?_⟩, fun _ _ => rfl⟩
      · simp only [HLeaf.save, Leaf.save, absS, Option.map_some, if_true]
        exact M.set _ _
      · rcases o2 with c | c
        · exact .inl (Nat.le_trans hle c)
        · rcases haddr _ c with c | c
          · exact .inl c
          · exact .inr c.2
  · have e1 : H.save u s' i = i := by
      cases u with
      | false => rfl
      | true =>
        cases s' with
        | none => rfl
        | some st => exact absurd ⟨rfl, by simp⟩ hsv
    have e2 : L.save u (absS eS h2 s') v = v := by
      cases u with
      | false => rfl
      | true =>
        cases s' with
        | none => rfl
        | some st => exact absurd ⟨rfl, by simp⟩ hsv
    have hkeep : read h2 i.1 = read h i.1 := by
      rw [f.2 i.1 hi ?_, hread i.1 r.1]
      by_cases he : s.map Prod.fst = some i.1
      · rcases haddr _ he with c | c
        · exact absurd r.1 (by omega)
        · have : s' = none := by
            by_contra hc
            exact hsv ⟨c.1, hc⟩
          rw [hn this] at he; cases he
      · exact .inr (.inl he)
    rw [e1, e2]
    refine ⟨⟨Nat.lt_of_lt_of_le hi f.1, ?_⟩, ⟨Nat.le_trans hle f.1, hfr, .inr rfl⟩, ?_⟩
    · rw [hkeep]; exact r.2
    · intro hu hs'
      exact absurd ⟨hu, hs'⟩ hsv

/-- `forward_step`. -/
theorem step_spec (M : Models ip H L fwd eI eS) {h : Mem V} {i : H.Inst} {v : L.Inst} (r : ObjRel eI h i v) (u : Bool) (x : X) :
    match L.forwardStep v u x with
    | .error e => H.forwardStep i u x h = .error e
    | .ok (o, v') => ∃ ov i' h', H.forwardStep i u x h = .ok (ov, i', h') ∧ ObjRel eI h' i' v' ∧ ObjFrame ip i h i' h' ∧
      (match ov with
        | none => o = none
        | some w => ∃ y, o = some y ∧ Shows H h' h.length (some i') w y) := by
  obtain ⟨s, h1, e1, e2, e3, e4, e5, e6, e7, e8⟩ := protect_facts M r u
  have hp := M.pstep x s h1 e3
  unfold StepOk at hp
  have ea : (s.map fun st => eS (read h1 st.1, st.2)) = L.get v := e2
  rw [ea] at hp
  simp only [Leaf.forwardStep, HLeaf.forwardStep, e1]
  cases hr : L.pstep x (L.get v) with
  | error e => rw [hr] at hp; simp only at hp; simp only [hp, bind, Except.bind]
  | ok p =>
    obtain ⟨o, t⟩ := p
    rw [hr] at hp
    obtain ⟨q, p1, p2, p3, p4, p5, p6⟩ := hp
    simp only [bind, Except.bind, p1, pure, Except.pure]
    obtain ⟨s1, s2, s3⟩ := save_facts M r e4 e5 e6 e7 p4 p5 p3
    refine ⟨q.out, _, q.mem, rfl, by rw [p2]; exact s1, s2, ?_⟩
    cases ho : q.out with
    | none => rw [ho] at p6; exact p6
    | some w =>
      rw [ho] at p6
      obtain ⟨⟨z, z1, z2⟩, hsome, k1, k2, k3⟩ := p6
      obtain ⟨y, rfl⟩ := Option.isSome_iff_exists.1 hsome
      refine ⟨y, rfl, ⟨z, z1, z2⟩, Nat.le_trans e4 k1, k2, ?_⟩
      intro he
      have he : (H.save u q.state i).1 = w.addr := by simpa using he
      by_cases hc : u = true ∧ q.state ≠ none
      · have := s3 hc.1 hc.2
        exact k3 _ this he
      · have : H.save u q.state i = i := by
          cases u with
          | false => rfl
          | true =>
            cases hq : q.state with
            | none => rfl
            | some st => exact absurd ⟨rfl, by simp [hq]⟩ hc
        rw [this] at he
        have := r.1
        omega

theorem stack_facts {h : Mem V} {n : Nat} {s : Option (Nat × H.A)} {os : List View} {ys : List Y}
    (hs : List.Forall₂ (Shows H h n s) os ys) :
    match optList ys with
    | none => HLeaf.stack os h = (none, h)
    | some ys => HLeaf.stack os h = (some h.length, h ++ [os.filterMap (View.read h)]) ∧
      (os.filterMap (View.read h)).filterMap H.frame = ys := by
  cases hs with
  | nil => rfl
  | @cons w y os ys h1 h2 =>
    refine ⟨rfl, ?_⟩
    have : ∀ {os ys}, List.Forall₂ (Shows H h n s) os ys → (os.filterMap (View.read h)).filterMap H.frame = ys := by
      intro os ys hs
      induction hs with
      | nil => rfl
      | cons h1 _ ih =>
        obtain ⟨⟨z, z1, z2⟩, _⟩ := h1
        simp [z1, z2, ih]
    exact this (.cons h1 h2)

theorem endPads_eq (M : Models ip H L fwd eI eS) (xs : List X) : L.endPads xs = H.endPads xs := by
  unfold Leaf.endPads HLeaf.endPads
  rw [M.padding, M.makePad]
  rfl

/-- The state from which the end padding runs. -/
theorem padState_facts (M : Models ip H L fwd eI eS) {h : Mem V} {i : H.Inst} {v : L.Inst} (r : ObjRel eI h i v)
    {s : Option (Nat × H.A)} (hv : Valid s h) :
    ∃ s1 h1, H.padState i s h = (s1, h1) ∧ absS eS h1 s1 = L.padState v (absS eS h s) ∧ Valid s1 h1 ∧
      h.length ≤ h1.length ∧ (∀ q < h.length, read h1 q = read h q) ∧
      (∀ a, s1.map Prod.fst = some a → a < h.length → s.map Prod.fst = some a ∧ read h i.1 = []) := by
  have hg := get_abs M r
  unfold HLeaf.padState Leaf.padState
  rcases get_cases H i h with ⟨e, hp⟩ | ⟨e, hp⟩
  · rw [hg, e]
    obtain ⟨c1, c2, c3, c4⟩ := clone_facts H eS i h
    refine ⟨some (H.clone i h).1, (H.clone i h).2, rfl, c3, ?_, by omega, c4, ?_⟩
    · intro st hst; cases hst; omega
    · intro a ha hlt
      have : (H.clone i h).1.1 = a := by simpa using ha
      omega
  · rw [hg, e]
    exact ⟨s, h, rfl, rfl, hv, Nat.le_refl _, fun _ _ => rfl, fun a ha _ => ⟨ha, hp⟩⟩

/-- A returned clip shows `ys`, in a tensor that was made during the call and is not the object's buffer. -/
def ShowsClip (H : HLeaf X Y V) (h : Mem V) (n : Nat) (i : Nat × H.A) (a : Nat) (ys : List Y) : Prop :=
  (read h a).filterMap H.frame = ys ∧ n ≤ a ∧ a < h.length ∧ i.1 ≠ a

/-- `forward_steps`. -/
theorem steps_spec (M : Models ip H L fwd eI eS) {h : Mem V} {i : H.Inst} {v : L.Inst} (r : ObjRel eI h i v) (p u : Bool)
    (xs : List X) :
    match L.forwardSteps v p u xs with
    | .error e => H.forwardSteps i p u xs h = .error e
    | .ok (o, v') => ∃ oa i' h', H.forwardSteps i p u xs h = .ok (oa, i', h') ∧ ObjRel eI h' i' v' ∧ ObjFrame ip i h i' h' ∧
      (match oa with
        | none => o = none
        | some a => ∃ ys, o = some ys ∧ ShowsClip H h' h.length i' a ys) := by
  obtain ⟨s, h1, e1, e2, e3, e4, e5, e6, e7, e8⟩ := protect_facts M r u
  have hl := loop_spec M xs s h1 e3
  rw [e2] at hl
  simp only [Leaf.forwardSteps, HLeaf.forwardSteps, e1]
  cases hr : L.loop (L.get v) xs with
  | error e => rw [hr] at hl; simp only at hl; simp only [hl, bind, Except.bind]
  | ok q =>
    obtain ⟨ys, t⟩ := q
    rw [hr] at hl
    obtain ⟨os, s', h2, l1, l2, l3, l4, l5, l6⟩ := hl
    obtain ⟨s1, s2, s3⟩ := save_facts M r e4 e5 e6 e7 l4 l5 l3
    rw [← l2] at s1
    -- appending the stacked output
    have fin : ∀ {h3 : Mem V} {zs : List Y} {os' : List View} {s4 : Option (Nat × H.A)},
        ObjRel eI h3 (H.save u s' i) (L.save u t v) → ObjFrame ip i h (H.save u s' i) h3 →
        List.Forall₂ (Shows H h3 h.length s4) os' zs →
        ∃ oa h', HLeaf.stack os' h3 = (oa, h') ∧ ObjRel eI h' (H.save u s' i) (L.save u t v) ∧
          ObjFrame ip i h (H.save u s' i) h' ∧
          (match oa with
            | none => optList zs = none
            | some a => ∃ ys, optList zs = some ys ∧ ShowsClip H h' h.length (H.save u s' i) a ys) := by
      intro h3 zs os' s4 r3 f3 k
      have hst := stack_facts k
      cases hz : optList zs with
      | none => rw [hz] at hst; exact ⟨none, h3, hst, r3, f3, rfl⟩
      | some ys' =>
        rw [hz] at hst
        obtain ⟨t1, t2⟩ := hst
        have hlen : (h3 ++ [os'.filterMap (View.read h3)]).length = h3.length + 1 := by simp
        have r3lt : (H.save u s' i).1 < h3.length := r3.1
        refine ⟨some h3.length, _, t1, ⟨?_, ?_⟩, ⟨?_, ?_, f3.2.2⟩, ys', rfl, ?_, f3.1, ?_, ?_⟩
        · omega
        · rw [read_append_lt r3lt]; exact r3.2
        · have := f3.1; omega
        · intro q hq hs
          rw [read_append_lt (Nat.lt_of_lt_of_le hq f3.1)]
          exact f3.2.1 q hq hs
        · rw [read_alloc]; exact t2
        · omega
        · omega
    simp only [bind, Except.bind, l1]
    cases p with
    | false =>
      simp only [Bool.false_eq_true, if_false]
      have k : List.Forall₂ (Shows H h2 h.length s') os ys := l6.imp fun w y k => ⟨k.1, Nat.le_trans e4 k.2.1, k.2.2⟩
      obtain ⟨oa, h', t1, t2, t3, t4⟩ := fin s1 s2 k
      simp only [pure, Except.pure]
      exact ⟨oa, _, h', by rw [t1], t2, t3, t4⟩
    | true =>
      simp only [if_true]
      rw [endPads_eq M xs]
      cases hep : H.endPads xs with
      | error e => simp only
      | ok pads =>
        simp only
        have hv2 : Valid s' h2 := fun st hst => (l5 st hst).1
        obtain ⟨s4, h3, d1, d2, d3, d4, d5, d6⟩ := padState_facts M s1 hv2
        have hl2 := loop_spec M pads s4 h3 d3
        rw [d2, ← l2] at hl2
        simp only [d1]
        cases hr2 : L.loop (L.padState (L.save u t v) t) pads with
        | error e => rw [hr2] at hl2; simp only at hl2; simp only [hl2]
        | ok q2 =>
          obtain ⟨ys2, t2⟩ := q2
          rw [hr2] at hl2
          obtain ⟨os2, s5, h4, m1, m2, m3, m4, m5, m6⟩ := hl2
          simp only [m1, pure, Except.pure]
          -- what was there before the padding is still there
          have keep : ∀ q < h2.length, (s4.map Prod.fst ≠ some q ∨ read h2 q = []) → read h4 q = read h2 q := by
            intro q hq hc
            rw [m4.2 q (Nat.lt_of_lt_of_le hq d4) ?_, d5 q hq]
            rcases hc with hc | hc
            · exact .inr (.inl hc)
            · exact .inr (.inr ((d5 q hq).trans hc))
          have hle24 : h2.length ≤ h4.length := Nat.le_trans d4 m4.1
          have r4 : ObjRel eI h4 (H.save u s' i) (L.save u t v) := by
            refine ⟨Nat.lt_of_lt_of_le s1.1 hle24, ?_⟩
            rw [keep _ s1.1 ?_]
            · exact s1.2
            · by_cases he : s4.map Prod.fst = some (H.save u s' i).1
              · exact .inr (d6 _ he s1.1).2
              · exact .inl he
          have f4 : ObjFrame ip i h (H.save u s' i) h4 := by
            refine ⟨Nat.le_trans s2.1 hle24, fun q hq hs => ?_, s2.2.2⟩
            have hq2 := Nat.lt_of_lt_of_le hq s2.1
            rw [← s2.2.1 q hq hs]
            rcases hs with hs | hs
            · rw [m4.2 q (Nat.lt_of_lt_of_le hq2 d4) (.inl hs), d5 q hq2]
            · by_cases he : s4.map Prod.fst = some q
              · -- the padding then runs on the state of the loop, which is not an old tensor
                obtain ⟨g1, g2⟩ := d6 q he hq2
                obtain ⟨st, hst⟩ : ∃ st, s' = some st := by
                  cases hs' : s' with
                  | none => rw [hs'] at g1; cases g1
                  | some st => exact ⟨st, rfl⟩
                have ea : st.1 = q := by rw [hst] at g1; simpa using g1
                have := (l5 st hst).2
                rcases this with c | c
                · exact absurd hq (by omega)
                · rcases e7 _ c with c | c
                  · exact absurd hq (by omega)
                  · exact absurd (ea ▸ c.2) hs
              · exact keep q hq2 (.inl he)
          have k : List.Forall₂ (Shows H h4 h.length none) (os ++ os2) (ys ++ ys2) := by
            have k1 : List.Forall₂ (Shows H h4 h.length none) os ys := by
              refine l6.imp fun w y k => ?_
              obtain ⟨⟨z, z1, z2⟩, z3, z4, z5⟩ := k
              refine ⟨⟨z, ?_, z2⟩, Nat.le_trans e4 z3, Nat.lt_of_lt_of_le z4 hle24, by simp⟩
              unfold View.read at z1 ⊢
              rw [keep _ z4 ?_]
              · exact z1
              · by_cases he : s4.map Prod.fst = some w.addr
                · exact absurd (d6 _ he z4).1 z5
                · exact .inl he
            have k2 : List.Forall₂ (Shows H h4 h.length none) os2 ys2 :=
              m6.imp fun w y k => ⟨k.1, Nat.le_trans (Nat.le_trans s2.1 d4) k.2.1, k.2.2.1, by simp⟩
            exact List.rel_append k1 k2
          obtain ⟨oa, h', t1, t2, t3, t4⟩ := fin r4 f4 k
          exact ⟨oa, _, h', by rw [t1], t2, t3, t4⟩

/-! ### Scripts -/

/-- Memory `h'` still has everything that somebody other than the object `i` may hold from memory `h`. -/
def Keeps (ip : Bool) {A : Type} (i : Nat × A) (h h' : Mem V) : Prop :=
  h.length ≤ h'.length ∧ ∀ q < h.length, (ip = false ∨ q ≠ i.1) → read h' q = read h q

/-- The world stands for the values `v`; kept states do not share their buffer with the object (if that matters). -/
structure WRel (ip : Bool) (eI : List V × H.A → L.Inst) (eS : List V × H.A → L.St) (w : World H) (v : VWorld L) : Prop where
  obj : ObjRel eI w.mem w.obj v.obj
  kept : List.Forall₂ (fun s t => absS eS w.mem s = t ∧ ∀ a, s.map Prod.fst = some a → a < w.mem.length ∧
    (ip = false ∨ a ≠ w.obj.1)) w.kept v.kept

/-- Calls that the immutable reading covers: taking the state itself and putting states back only if nothing is written
in place. -/
def Allowed (ip : Bool) (c : HCall X) : Prop := HCall.plain c ∨ c = .saveClone ∨ ip = false

theorem kept_later {w : World H} {v : VWorld L} (r : WRel ip eI eS w v) {i' : H.Inst} {h' : Mem V}
    (f : ObjFrame ip w.obj w.mem i' h') :
    List.Forall₂ (fun s t => absS eS h' s = t ∧ ∀ a, s.map Prod.fst = some a → a < h'.length ∧ (ip = false ∨ a ≠ i'.1))
      w.kept v.kept := by
  refine r.kept.imp fun s t k => ?_
  obtain ⟨k1, k2⟩ := k
  constructor
  · rw [← k1]
    cases s with
    | none => rfl
    | some st =>
      obtain ⟨c1, c2⟩ := k2 st.1 rfl
      simp only [absS, Option.map_some]
      rw [f.2.1 st.1 c1 c2]
  · intro a ha
    obtain ⟨c1, c2⟩ := k2 a ha
    refine ⟨Nat.lt_of_lt_of_le c1 f.1, ?_⟩
    rcases c2 with c2 | c2
    · exact .inl c2
    · rcases f.2.2 with c | c
      · exact .inr (by omega)
      · exact .inr (by rw [c]; exact c2)

theorem look_frame {h h' : Mem V} {n : Nat} {i : H.Inst} {w : View} {y : Y} (k : Shows H h n (some i) w y)
    (hk : Keeps ip i h h') : look H h' (.frame (some w)) = .frame (some y) := by
  obtain ⟨⟨z, z1, z2⟩, _, z4, z5⟩ := k
  have e : View.read h' w = some z := by
    rw [← z1]
    unfold View.read
    rw [hk.2 _ z4 (.inr fun he => z5 (by rw [he]; rfl))]
  simp [look, e, z2]

theorem look_clip {h h' : Mem V} {n : Nat} {i : H.Inst} {a : Nat} {ys : List Y} (k : ShowsClip H h n i a ys)
    (hk : Keeps ip i h h') : look H h' (.clip (some a)) = .clip (some ys) := by
  obtain ⟨k1, _, k3, k4⟩ := k
  simp only [look, Option.map_some]
  rw [hk.2 a k3 (.inr (Ne.symm k4)), k1]

theorem call_spec (M : Models ip H L fwd eI eS) {w : World H} {v : VWorld L} (r : WRel ip eI eS w v) (c : HCall X)
    (hc : Allowed ip c) :
    match vcall L fwd v c with
    | .error e => hcall H w c = .error e
    | .ok (o, v') => ∃ ho w', hcall H w c = .ok (ho, w') ∧ WRel ip eI eS w' v' ∧ Keeps ip w.obj w.mem w'.mem ∧
      (∀ q < w.mem.length, (ip = false ∨ q ≠ w.obj.1) → (ip = false ∨ q ≠ w'.obj.1)) ∧
      ∀ h', Keeps ip w'.obj w'.mem h' → look H h' ho = o := by
  have post : ∀ {i' : H.Inst} {h' : Mem V}, ObjFrame ip w.obj w.mem i' h' → Keeps ip w.obj w.mem h' ∧
      ∀ q < w.mem.length, (ip = false ∨ q ≠ w.obj.1) → (ip = false ∨ q ≠ i'.1) := by
    intro i' h' f
    refine ⟨⟨f.1, f.2.1⟩, fun q hq hs => ?_⟩
    rcases hs with hs | hs
    · exact .inl hs
    · rcases f.2.2 with c | c
      · exact .inr (by omega)
      · exact .inr (by rw [c]; exact hs)
  cases c with
  | step u x =>
    have hs := step_spec M r.obj u x
    simp only [vcall, hcall]
    cases hf : L.forwardStep v.obj u x with
    | error e => rw [hf] at hs; simp only at hs; simp only [hs]
    | ok q =>
      obtain ⟨o, v'⟩ := q
      rw [hf] at hs
      obtain ⟨ov, i', h', k1, k2, k3, k4⟩ := hs
      simp only [k1]
      refine ⟨.frame ov, _, rfl, ⟨k2, kept_later r k3⟩, (post k3).1, (post k3).2, ?_⟩
      intro h'' hk
      cases ov with
      | none => simp only at k4; subst k4; rfl
      | some w' =>
        obtain ⟨y, rfl, ks⟩ := k4
        exact look_frame ks hk
  | steps p u xs =>
    have hs := steps_spec M r.obj p u xs
    simp only [vcall, hcall]
    cases hf : L.forwardSteps v.obj p u xs with
    | error e => rw [hf] at hs; simp only at hs; simp only [hs]
    | ok q =>
      obtain ⟨o, v'⟩ := q
      rw [hf] at hs
      obtain ⟨ov, i', h', k1, k2, k3, k4⟩ := hs
      simp only [k1]
      refine ⟨.clip ov, _, rfl, ⟨k2, kept_later r k3⟩, (post k3).1, (post k3).2, ?_⟩
      intro h'' hk
      cases ov with
      | none => simp only at k4; subst k4; rfl
      | some w' =>
        obtain ⟨y, rfl, ks⟩ := k4
        exact look_clip ks hk
  | clean =>
    simp only [vcall, hcall]
    have f : ObjFrame ip w.obj w.mem (H.clean w.obj w.mem).1 (H.clean w.obj w.mem).2 := by
      refine ⟨by simp [HLeaf.clean, alloc], fun q hq _ => read_append_lt hq _, .inl (Nat.le_refl _)⟩
    refine ⟨.done, _, rfl, ⟨⟨by simp [HLeaf.clean, alloc], ?_⟩, kept_later r f⟩, (post f).1, (post f).2, fun _ _ => rfl⟩
    rw [M.clean]
    simp only [HLeaf.clean, alloc, read_alloc]
  | fwd xs =>
    simp only [vcall, hcall, M.fwd]
    cases hf : fwd xs with
    | error e => rfl
    | ok ys => exact ⟨.whole ys, w, rfl, r, ⟨Nat.le_refl _, fun _ _ _ => rfl⟩, fun _ _ h => h, fun _ _ => rfl⟩
  | save =>
    have hip : ip = false := by rcases hc with h | h | h; exacts [h.elim, absurd h (by simp), h]
    simp only [vcall, hcall]
    refine ⟨.done, _, rfl, ⟨r.obj, List.rel_append r.kept (.cons ⟨(get_abs M r.obj).symm, ?_⟩ .nil)⟩,
      ⟨Nat.le_refl _, fun _ _ _ => rfl⟩, fun _ _ h => h, fun _ _ => rfl⟩
    intro a ha
    refine ⟨?_, .inl hip⟩
    rcases get_cases H w.obj w.mem with ⟨e, _⟩ | ⟨e, _⟩
    · rw [e] at ha
      have : w.obj.1 = a := by simpa using ha
      exact this ▸ r.obj.1
    · rw [e] at ha; cases ha
  | saveClone =>
    simp only [vcall, hcall]
    rw [get_abs M r.obj]
    rcases get_cases H w.obj w.mem with ⟨e, _⟩ | ⟨e, _⟩
    · rw [e]
      obtain ⟨c1, c2, c3, c4⟩ := clone_facts H eS w.obj w.mem
      have f : ObjFrame ip w.obj w.mem w.obj (H.clone w.obj w.mem).2 := ⟨by omega, fun q hq _ => c4 q hq, .inr rfl⟩
      have hlt := r.obj.1
      refine ⟨.done, _, rfl, ⟨⟨by show w.obj.1 < (H.clone w.obj w.mem).2.length; omega, ?_⟩,
        List.rel_append (kept_later r f) (.cons ⟨c3, ?_⟩ .nil)⟩, (post f).1, fun _ _ h => h, fun _ _ => rfl⟩
      · show v.obj = eI (read (H.clone w.obj w.mem).2 w.obj.1, w.obj.2)
        rw [c4 _ hlt]; exact r.obj.2
      · intro a ha
        have : (H.clone w.obj w.mem).1.1 = a := by simpa using ha
        refine ⟨?_, .inr ?_⟩
        · show a < (H.clone w.obj w.mem).2.length; omega
        · show a ≠ w.obj.1; omega
    · rw [e]
      exact ⟨.done, _, rfl, ⟨r.obj, List.rel_append r.kept (.cons ⟨rfl, by simp⟩ .nil)⟩,
        ⟨Nat.le_refl _, fun _ _ _ => rfl⟩, fun _ _ h => h, fun _ _ => rfl⟩
  | restore k =>
    have hip : ip = false := by rcases hc with h | h | h; exacts [h.elim, absurd h (by simp), h]
    simp only [vcall, hcall]
    have hl := r.kept.length_eq
    by_cases hk : k < w.kept.length
    · have hk' : k < v.kept.length := by omega
      have := (List.forall₂_iff_get.1 r.kept).2 k hk hk'
      simp only [List.get_eq_getElem] at this
      obtain ⟨a1, a2⟩ := this
      rw [List.getElem?_eq_getElem hk, List.getElem?_eq_getElem hk', ← a1]
      cases hs : w.kept[k] with
      | none => rfl
      | some st =>
        rw [hs] at a2
        refine ⟨.done, _, rfl, ⟨⟨(a2 st.1 rfl).1, M.set _ _⟩, ?_⟩, ⟨Nat.le_refl _, fun _ _ _ => rfl⟩,
          fun _ _ _ => .inl hip, fun _ _ => rfl⟩
        exact r.kept.imp fun s t k => ⟨k.1, fun a ha => ⟨(k.2 a ha).1, .inl hip⟩⟩
    · rw [List.getElem?_eq_none (by omega), List.getElem?_eq_none (by omega)]

/-- Scripts: looking at all results at the end shows what immutable tensors would have given. -/
theorem run_spec (M : Models ip H L fwd eI eS) : ∀ (cs : List (HCall X)) {w : World H} {v : VWorld L}, WRel ip eI eS w v →
    (∀ c ∈ cs, Allowed ip c) →
    (hcalls H w cs).1.map (look H (hcalls H w cs).2.mem) = (vcalls L fwd v cs).1 ∧
      WRel ip eI eS (hcalls H w cs).2 (vcalls L fwd v cs).2 ∧ Keeps ip w.obj w.mem (hcalls H w cs).2.mem := by
  intro cs
  induction cs with
  | nil => intro w v r _; exact ⟨rfl, r, Nat.le_refl _, fun _ _ _ => rfl⟩
  | cons c cs ih =>
    intro w v r hc
    have hs := call_spec M r c (hc c (by simp))
    simp only [hcalls, vcalls]
    cases hv : vcall L fwd v c with
    | error e =>
      rw [hv] at hs
      simp only at hs
      simp only [hs]
      exact ⟨rfl, r, Nat.le_refl _, fun _ _ _ => rfl⟩
    | ok p =>
      obtain ⟨o, v'⟩ := p
      rw [hv] at hs
      obtain ⟨ho, w', k1, k2, k3, k4, k5⟩ := hs
      simp only [k1]
      obtain ⟨i1, i2, i3⟩ := ih k2 (fun c' h => hc c' (by simp [h]))
      refine ⟨?_, i2, Nat.le_trans k3.1 i3.1, fun q hq hs => ?_⟩
      · rw [List.map_cons, i1, k5 _ i3]
      · rw [i3.2 q (Nat.lt_of_lt_of_le hq k3.1) (k4 q hq hs), k3.2 q hq hs]

theorem new_rel (M : Models ip H L fwd eI eS) : WRel ip eI eS (World.new H) ⟨L.init, []⟩ :=
  ⟨⟨by simp [World.new, HLeaf.init], by rw [M.init]; rfl⟩, .nil⟩

end CoInf.Heap
