import Verif.Model.AttnHeap
import Verif.Spec.Heap
import Verif.Lemmas.Attention

set_option autoImplicit false

namespace CoInf.AttnHeap
open Attn Spec
variable {X O : Type} {b : Base X O}

/-- The state as a value. -/
def val (h : Cells) (s : Option (St b)) : Option (b.S × Int) := s.map fun p => (p.1, h.getD p.2 0)

/-- The state's cell exists. -/
def Valid (h : Cells) (s : Option (St b)) : Prop := ∀ p, s = some p → p.2 < h.length

/-- What can happen to cells: a stride index of `-1` may become `0`; from `0` on it is constant. -/
def Le (h h' : Cells) : Prop :=
  h.length ≤ h'.length ∧ ∀ a < h.length, -1 ≤ h.getD a 0 →
    h'.getD a 0 = h.getD a 0 ∨ (h.getD a 0 = -1 ∧ h'.getD a 0 = 0)

theorem Le.refl (h : Cells) : Le h h := ⟨Nat.le_refl _, fun _ _ _ => .inl rfl⟩

theorem Le.trans {h h' h'' : Cells} (l : Le h h') (l' : Le h' h'') : Le h h'' := by
  refine ⟨l.1.trans l'.1, fun a ha hn => ?_⟩
  rcases l.2 a ha hn with e | ⟨e, e'⟩
  · rcases l'.2 a (by have := l.1; omega) (by rw [e]; exact hn) with k | ⟨k, k'⟩
    · exact .inl (k.trans e)
    · exact .inr ⟨e ▸ k, k'⟩
  · rcases l'.2 a (by have := l.1; omega) (by omega) with k | ⟨k, k'⟩
    · exact .inr ⟨e, k.trans e'⟩
    · omega

theorem getD_append_lt {h : Cells} {a : Nat} (ha : a < h.length) (v : Int) : (h ++ [v]).getD a 0 = h.getD a 0 := by
  simp only [List.getD_eq_getElem?_getD]
  rw [List.getElem?_append_left ha]

theorem getD_append_self (h : Cells) (v : Int) : (h ++ [v]).getD h.length 0 = v := by
  simp [List.getD_eq_getElem?_getD]

theorem getD_set_self {h : Cells} {a : Nat} (ha : a < h.length) (v : Int) : (h.set a v).getD a 0 = v := by
  simp [List.getD_eq_getElem?_getD, ha]

theorem getD_set_ne {h : Cells} {a a' : Nat} (hn : a ≠ a') (v : Int) : (h.set a v).getD a' 0 = h.getD a' 0 := by
  simp [List.getD_eq_getElem?_getD, List.getElem?_set_ne hn]

theorem Le.append (h : Cells) (v : Int) : Le h (h ++ [v]) :=
  ⟨by simp, fun _ ha _ => .inl (getD_append_lt ha v)⟩

/-- Incrementing a cell that is negative. -/
def bump (h : Cells) (a : Nat) : Cells := if h.getD a 0 < 0 then h.set a (h.getD a 0 + 1) else h

theorem bump_length (h : Cells) (a : Nat) : (bump h a).length = h.length := by
  unfold bump; split <;> simp

theorem bump_self {h : Cells} {a : Nat} (ha : a < h.length) :
    (bump h a).getD a 0 = if h.getD a 0 < 0 then h.getD a 0 + 1 else h.getD a 0 := by
  unfold bump; split
  · rw [getD_set_self ha]
  · rfl

theorem bump_ne {h : Cells} {a a' : Nat} (hn : a ≠ a') : (bump h a).getD a' 0 = h.getD a' 0 := by
  unfold bump; split
  · rw [getD_set_ne hn]
  · rfl

theorem Le.bump (h : Cells) (a : Nat) : Le h (bump h a) := by
  refine ⟨by rw [bump_length], fun a' ha hn => ?_⟩
  by_cases e : a = a'
  · subst e
    rw [bump_self ha]
    by_cases hlt : h.getD a 0 < 0
    · rw [if_pos hlt]; exact .inr ⟨by omega, by omega⟩
    · rw [if_neg hlt]; exact .inl rfl
  · exact .inl (bump_ne e)

/-- What a step does with memory: it gives what the step with immutable values gives; the returned state has the cell of
the given one, or a new one; the other cells are untouched. -/
theorem pstep_val (x : X) {s : Option (St b)} {h : Cells} (hv : Valid h s) :
    match AttnHeap.pstep b x s h with
    | .error e => Attn.pstep b x (val h s) = .error e
    | .ok (o, s', h') => Attn.pstep b x (val h s) = .ok (o, val h' (some s')) ∧ Valid h' (some s') ∧ Le h h' ∧
        (∀ p, s = some p → s'.2 = p.2) ∧ (s = none → s'.2 = h.length) ∧
        ∀ a < h.length, (∀ p, s = some p → p.2 ≠ a) → h'.getD a 0 = h.getD a 0 := by
  cases s with
  | none =>
    simp only [AttnHeap.pstep, AttnHeap.start, Attn.pstep, val, Option.map_none, Attn.start]
    cases hd : b.dflt with
    | error e => simp only [Except.map]
    | ok d =>
      simp only [Except.map]
      cases hs : b.sdpa d x with
      | error e => simp only
      | ok r =>
        obtain ⟨o, s'⟩ := r
        simp only [getD_append_self]
        have hb : (if -(b.N : Int) < 0 then (h ++ [-(b.N : Int)]).set h.length (-(b.N : Int) + 1) else h ++ [-(b.N : Int)]) =
            bump (h ++ [-(b.N : Int)]) h.length := by unfold bump; rw [getD_append_self]
        rw [hb]
        have hs : (bump (h ++ [-(b.N : Int)]) h.length).getD h.length 0 = if -(b.N : Int) < 0 then -(b.N : Int) + 1 else -(b.N : Int) := by
          rw [bump_self (by simp), getD_append_self]
        rw [hs]
        refine ⟨?_, ?_, (Le.append _ _).trans (Le.bump _ _), by simp, by simp, ?_⟩
        · simp only [Option.map_some, hs]
        · intro p hp; cases hp; rw [bump_length]; simp
        · intro a ha _
          rw [bump_ne (by omega), getD_append_lt ha]
  | some p =>
    obtain ⟨t, a⟩ := p
    have ha : a < h.length := hv _ rfl
    simp only [AttnHeap.pstep, AttnHeap.start, Attn.pstep, val, Option.map_some, Attn.start]
    cases hs : b.sdpa t x with
    | error e => simp only
    | ok r =>
      obtain ⟨o, s'⟩ := r
      simp only
      have hb : (if h.getD a 0 < 0 then h.set a (h.getD a 0 + 1) else h) = bump h a := rfl
      rw [hb, bump_self ha]
      refine ⟨by simp, ?_, Le.bump _ _, ?_, by simp, ?_⟩
      · intro p hp; cases hp; rw [bump_length]; exact ha
      · intro p hp; cases hp; rfl
      · intro a' _ hn
        exact bump_ne (hn _ rfl)

theorem loop_val (xs : List X) : ∀ {s : Option (St b)} {h : Cells}, Valid h s →
    match AttnHeap.loop b s h xs with
    | .error e => Attn.loop b (val h s) xs = .error e
    | .ok (os, s', h') => Attn.loop b (val h s) xs = .ok (os, val h' s') ∧ Valid h' s' ∧ Le h h' ∧
        ∀ a < h.length, (∀ p, s = some p → p.2 ≠ a) → h'.getD a 0 = h.getD a 0 := by
  induction xs with
  | nil => intro s h hv; exact ⟨rfl, hv, Le.refl _, fun _ _ _ => rfl⟩
  | cons x xs ih =>
    intro s h hv
    have h1 := pstep_val x hv
    simp only [AttnHeap.loop, Attn.loop]
    cases hp : AttnHeap.pstep b x s h with
    | error e => rw [hp] at h1; simp only at h1; simp only [h1]
    | ok r =>
      obtain ⟨o, s1, m1⟩ := r
      rw [hp] at h1
      obtain ⟨h1, h2, h3, h4, h4', h5⟩ := h1
      have k := ih h2
      simp only [h1]
      cases hl : AttnHeap.loop b (some s1) m1 xs with
      | error e => rw [hl] at k; simp only at k; simp only [k]
      | ok r =>
        obtain ⟨os, s2, m2⟩ := r
        rw [hl] at k
        obtain ⟨k1, k2, k3, k4⟩ := k
        simp only [k1]
        refine ⟨trivial, k2, h3.trans k3, fun a ha hn => ?_⟩
        rw [k4 a (by have := h3.1; omega), h5 a ha hn]
        intro p hp
        cases hp
        cases s with
        | none => rw [h4' rfl]; omega
        | some q => rw [h4 q rfl]; exact hn q rfl

/-- Calls of the public interface act on the object as if its state were immutable. -/
theorem call_val (c : Call (.stream X)) {w : World b} (hv : Valid w.mem w.obj) :
    match AttnHeap.call b w (ofCall c) with
    | .error e => Spec.call b.mod (val w.mem w.obj) c = .error e
    | .ok (r, w') => Spec.call b.mod (val w.mem w.obj) c = .ok (r, val w'.mem w'.obj) ∧ Valid w'.mem w'.obj := by
  cases c with
  | clean => exact ⟨rfl, fun p hp => by cases hp⟩
  | fwd xs =>
    simp only [ofCall, AttnHeap.call, Spec.call]
    cases b.fwd xs with
    | error e => rfl
    | ok ys => exact ⟨rfl, hv⟩
  | step u x =>
    simp only [ofCall, AttnHeap.call, Spec.call, AttnHeap.step, Attn.step]
    have key : ∀ {h : Cells} {s : Option (St b)} {o s' h'}, AttnHeap.pstep b x s h = .ok (o, s', h') → Valid h s →
        Attn.pstep b x (val h s) = .ok (o, val h' (some s')) ∧ Valid h' (some s') ∧ Le h h' ∧
        ∀ a < h.length, (∀ p, s = some p → p.2 ≠ a) → h'.getD a 0 = h.getD a 0 := by
      intro h s o s' h' hp hv
      have := pstep_val x hv
      rw [hp] at this
      exact ⟨this.1, this.2.1, this.2.2.1, this.2.2.2.2.2⟩
    have keyE : ∀ {h : Cells} {s : Option (St b)} {e}, AttnHeap.pstep b x s h = .error e → Valid h s →
        Attn.pstep b x (val h s) = .error e := by
      intro h s e hp hv
      have := pstep_val x hv
      rw [hp] at this
      exact this
    cases u with
    | true =>
      simp only
      cases hp : AttnHeap.pstep b x w.obj w.mem with
      | error e => simp only [keyE hp hv]; rfl
      | ok r =>
        obtain ⟨o, s, m⟩ := r
        obtain ⟨k1, k2, _⟩ := key hp hv
        simp only [k1]
        exact ⟨rfl, k2⟩
    | false =>
      obtain ⟨obj, kept, mem⟩ := w
      cases obj with
      | none =>
        simp only
        cases hp : AttnHeap.pstep b x none mem with
        | error e => simp only [keyE hp hv]; rfl
        | ok r =>
          obtain ⟨o, s, m⟩ := r
          obtain ⟨k1, k2, _⟩ := key hp hv
          have k1 : Attn.pstep b x none = _ := k1
          simp only [val, Option.map_none, k1]; rfl
      | some st =>
        have ha : st.2 < mem.length := hv _ rfl
        have hv' : Valid (clone b st mem).2 (some st) := by
          intro p hp; cases hp; simp [clone]; omega
        have hval : val (clone b st mem).2 (some st) = val mem (some st) := by
          simp only [val, Option.map_some, clone]
          rw [getD_append_lt ha]
        simp only
        cases hp : AttnHeap.pstep b x (some st) (clone b st mem).2 with
        | error e => simp only [← hval, keyE hp hv']; rfl
        | ok r =>
          obtain ⟨o, s, m⟩ := r
          obtain ⟨k1, k2, k3, k4⟩ := key hp hv'
          have hc : (clone b st mem).1.2 < (clone b st mem).2.length := by simp [clone]
          have hcell : m.getD (clone b st mem).1.2 0 = mem.getD st.2 0 := by
            rw [k4 _ hc (by intro p hp; cases hp; simp [clone]; omega)]
            simp only [clone]
            rw [getD_append_self]
          simp only [← hval, k1]
          refine ⟨?_, ?_⟩
          · have : val (clone b st mem).2 (some st) = some (st.1, mem.getD st.2 0) := by rw [hval]; rfl
            rw [this]
            simp only [val, Option.map_some]
            rw [hcell]
            rfl
          · intro p hp; cases hp
            exact Nat.lt_of_lt_of_le hc k3.1
  | steps p u xs =>
    simp only [ofCall, AttnHeap.call, Spec.call, AttnHeap.steps, Attn.steps]
    have key : ∀ {h : Cells} {s : Option (St b)} {os s' h'}, AttnHeap.loop b s h xs = .ok (os, s', h') → Valid h s →
        Attn.loop b (val h s) xs = .ok (os, val h' s') ∧ Valid h' s' ∧ Le h h' ∧
        ∀ a < h.length, (∀ p, s = some p → p.2 ≠ a) → h'.getD a 0 = h.getD a 0 := by
      intro h s o s' h' hp hv
      have := loop_val xs hv
      rw [hp] at this
      exact this
    have keyE : ∀ {h : Cells} {s : Option (St b)} {e}, AttnHeap.loop b s h xs = .error e → Valid h s →
        Attn.loop b (val h s) xs = .error e := by
      intro h s e hp hv
      have := loop_val xs hv
      rw [hp] at this
      exact this
    cases u with
    | true =>
      simp only
      cases hp : AttnHeap.loop b w.obj w.mem xs with
      | error e => simp only [keyE hp hv]; rfl
      | ok r =>
        obtain ⟨os, s, m⟩ := r
        obtain ⟨k1, k2, _⟩ := key hp hv
        simp only [k1]
        cases s with
        | none => rfl
        | some s =>
          simp only [val, Option.map_some]
          cases xs.isEmpty with
          | true => rfl
          | false => exact ⟨rfl, k2⟩
    | false =>
      obtain ⟨obj, kept, mem⟩ := w
      cases obj with
      | none =>
        simp only
        cases hp : AttnHeap.loop b none mem xs with
        | error e => simp only [keyE hp hv]; rfl
        | ok r =>
          obtain ⟨o, s, m⟩ := r
          obtain ⟨k1, k2, _⟩ := key hp hv
          have k1 : Attn.loop b none xs = _ := k1
          simp only [val, Option.map_none, k1]; rfl
      | some st =>
        have ha : st.2 < mem.length := hv _ rfl
        have hv' : Valid (clone b st mem).2 (some st) := by
          intro p hp; cases hp; simp [clone]; omega
        have hval : val (clone b st mem).2 (some st) = val mem (some st) := by
          simp only [val, Option.map_some, clone]
          rw [getD_append_lt ha]
        simp only
        cases hp : AttnHeap.loop b (some st) (clone b st mem).2 xs with
        | error e => simp only [← hval, keyE hp hv']; rfl
        | ok r =>
          obtain ⟨os, s, m⟩ := r
          obtain ⟨k1, k2, k3, k4⟩ := key hp hv'
          have hc : (clone b st mem).1.2 < (clone b st mem).2.length := by simp [clone]
          have hcell : m.getD (clone b st mem).1.2 0 = mem.getD st.2 0 := by
            rw [k4 _ hc (by intro p hp; cases hp; simp [clone]; omega)]
            simp only [clone]
            rw [getD_append_self]
          simp only [← hval, k1]
          have : val (clone b st mem).2 (some st) = some (st.1, mem.getD st.2 0) := by rw [hval]; rfl
          rw [this]
          simp only
          cases xs.isEmpty with
          | true => rfl
          | false =>
            refine ⟨?_, ?_⟩
            · simp only [val, Option.map_some]
              rw [hcell]
              rfl
            · intro p hp; cases hp
              exact Nat.lt_of_lt_of_le hc k3.1

theorem calls_val (cs : List (Call (.stream X))) : ∀ {w : World b}, Valid w.mem w.obj →
    (AttnHeap.calls b w (cs.map ofCall)).1 = (Spec.calls b.mod (val w.mem w.obj) cs).1 := by
  induction cs with
  | nil => intro w _; rfl
  | cons c cs ih =>
    intro w hv
    have h1 := call_val c hv
    simp only [List.map_cons, AttnHeap.calls, Spec.calls]
    cases hc : AttnHeap.call b w (ofCall c) with
    | error e => rw [hc] at h1; simp only at h1; rw [h1]
    | ok r =>
      obtain ⟨r, w'⟩ := r
      rw [hc] at h1
      rw [h1.1]
      simp only
      rw [ih h1.2]

/-- All states in the world have cells. -/
def WValid (w : World b) : Prop := Valid w.mem w.obj ∧ ∀ s ∈ w.kept, Valid w.mem s

theorem Valid.mono {h h' : Cells} {s : Option (St b)} (hv : Valid h s) (hl : Le h h') : Valid h' s :=
  fun p hp => Nat.lt_of_lt_of_le (hv p hp) hl.1

/-- Any call (also keeping and restoring states) keeps the world valid, changes cells only as `Le` says, and never forgets
a kept state. -/
theorem call_le (c : Heap.HCall X) {w : World b} (hv : WValid w) {r w'} (hc : AttnHeap.call b w c = .ok (r, w')) :
    WValid w' ∧ Le w.mem w'.mem ∧ w.kept <+: w'.kept := by
  have step : ∀ {obj : Option (St b)} {m : Cells}, Le w.mem m → Valid m obj →
      WValid (⟨obj, w.kept, m⟩ : World b) ∧ Le w.mem m ∧ w.kept <+: w.kept :=
    fun hl hv' => ⟨⟨hv', fun s hs => (hv.2 s hs).mono hl⟩, hl, List.prefix_rfl⟩
  have pclone : ∀ {st : St b}, Valid w.mem (some st) → Le w.mem (clone b st w.mem).2 := fun _ => Le.append _ _
  cases c with
  | clean => cases hc; exact step (Le.refl _) (fun p hp => by cases hp)
  | fwd xs =>
    simp only [AttnHeap.call] at hc
    cases hf : b.fwd xs with
    | error e => rw [hf] at hc; cases hc
    | ok ys => rw [hf] at hc; cases hc; exact ⟨hv, Le.refl _, List.prefix_rfl⟩
  | save =>
    cases hc
    refine ⟨⟨hv.1, fun s hs => ?_⟩, Le.refl _, List.prefix_append _ _⟩
    rcases List.mem_append.1 hs with h | h
    · exact hv.2 s h
    · rw [List.mem_singleton.1 h]; exact hv.1
  | saveClone =>
    simp only [AttnHeap.call] at hc
    cases ho : w.obj with
    | none =>
      rw [ho] at hc; cases hc
      refine ⟨⟨ho ▸ hv.1, fun s hs => ?_⟩, Le.refl _, List.prefix_append _ _⟩
      rcases List.mem_append.1 hs with h | h
      · exact hv.2 s h
      · rw [List.mem_singleton.1 h]; intro p hp; cases hp
    | some st =>
      rw [ho] at hc; cases hc
      have hl := pclone (ho ▸ hv.1)
      refine ⟨⟨(ho ▸ hv.1 : Valid w.mem (some st)).mono hl, fun s hs => ?_⟩, hl, List.prefix_append _ _⟩
      rcases List.mem_append.1 hs with h | h
      · exact (hv.2 s h).mono hl
      · rw [List.mem_singleton.1 h]; intro p hp; cases hp; simp [clone]
  | restore k =>
    simp only [AttnHeap.call] at hc
    cases hk : w.kept[k]? with
    | none => rw [hk] at hc; cases hc
    | some s =>
      cases s with
      | none => rw [hk] at hc; cases hc
      | some s =>
        rw [hk] at hc; cases hc
        exact ⟨⟨hv.2 _ (List.mem_of_getElem? hk), hv.2⟩, Le.refl _, List.prefix_rfl⟩
  | step u x =>
    simp only [AttnHeap.call, AttnHeap.step] at hc
    have key : ∀ {h : Cells} {s : Option (St b)} {o s' h'}, AttnHeap.pstep b x s h = .ok (o, s', h') → Valid h s →
        Valid h' (some s') ∧ Le h h' := by
      intro h s o s' h' hp hv
      have := pstep_val x hv
      rw [hp] at this
      exact ⟨this.2.1, this.2.2.1⟩
    cases u with
    | true =>
      simp only at hc
      cases hp : AttnHeap.pstep b x w.obj w.mem with
      | error e => rw [hp] at hc; cases hc
      | ok r =>
        obtain ⟨o, s, m⟩ := r
        rw [hp] at hc; cases hc
        exact step (key hp hv.1).2 (key hp hv.1).1
    | false =>
      cases ho : w.obj with
      | none =>
        rw [ho] at hc
        simp only at hc
        cases hp : AttnHeap.pstep b x none w.mem <;> rw [hp] at hc <;> cases hc
      | some st =>
        rw [ho] at hc
        simp only at hc
        have hv0 : Valid w.mem (some st) := ho ▸ hv.1
        cases hp : AttnHeap.pstep b x (some st) (clone b st w.mem).2 with
        | error e => rw [hp] at hc; cases hc
        | ok r =>
          obtain ⟨o, s, m⟩ := r
          rw [hp] at hc; cases hc
          have k := key hp (hv0.mono (pclone hv0))
          refine step ((pclone hv0).trans k.2) ?_
          intro p hp; cases hp
          have := k.2.1
          simp [clone] at this ⊢
          omega
  | steps p u xs =>
    simp only [AttnHeap.call, AttnHeap.steps] at hc
    have key : ∀ {h : Cells} {s : Option (St b)} {o s' h'}, AttnHeap.loop b s h xs = .ok (o, s', h') → Valid h s →
        Valid h' s' ∧ Le h h' := by
      intro h s o s' h' hp hv
      have := loop_val xs hv
      rw [hp] at this
      exact ⟨this.2.1, this.2.2.1⟩
    cases u with
    | true =>
      simp only at hc
      cases hp : AttnHeap.loop b w.obj w.mem xs with
      | error e => rw [hp] at hc; cases hc
      | ok r =>
        obtain ⟨o, s, m⟩ := r
        rw [hp] at hc
        cases s with
        | none => cases hc
        | some s =>
          simp only at hc
          cases he : xs.isEmpty with
          | true => rw [he] at hc; cases hc
          | false =>
            rw [he] at hc; cases hc
            exact step (key hp hv.1).2 (key hp hv.1).1
    | false =>
      cases ho : w.obj with
      | none =>
        rw [ho] at hc
        simp only at hc
        cases hp : AttnHeap.loop b none w.mem xs <;> rw [hp] at hc <;> cases hc
      | some st =>
        rw [ho] at hc
        simp only at hc
        have hv0 : Valid w.mem (some st) := ho ▸ hv.1
        cases hp : AttnHeap.loop b (some st) (clone b st w.mem).2 xs with
        | error e => rw [hp] at hc; cases hc
        | ok r =>
          obtain ⟨o, s, m⟩ := r
          rw [hp] at hc
          simp only at hc
          cases he : xs.isEmpty with
          | true => rw [he] at hc; cases hc
          | false =>
            rw [he] at hc; cases hc
            have k := key hp (hv0.mono (pclone hv0))
            refine step ((pclone hv0).trans k.2) ?_
            intro p hp; cases hp
            have := k.2.1
            simp [clone] at this ⊢
            omega

theorem calls_le (cs : List (Heap.HCall X)) : ∀ {w : World b}, WValid w →
    WValid (AttnHeap.calls b w cs).2 ∧ Le w.mem (AttnHeap.calls b w cs).2.mem ∧ w.kept <+: (AttnHeap.calls b w cs).2.kept := by
  induction cs with
  | nil => intro w hv; exact ⟨hv, Le.refl _, List.prefix_rfl⟩
  | cons c cs ih =>
    intro w hv
    simp only [AttnHeap.calls]
    cases hc : AttnHeap.call b w c with
    | error e => exact ⟨hv, Le.refl _, List.prefix_rfl⟩
    | ok r =>
      obtain ⟨r, w'⟩ := r
      have k := call_le c hv hc
      have l := ih k.1
      exact ⟨l.1, k.2.1.trans l.2.1, k.2.2.trans l.2.2⟩

theorem calls_append (cs ds : List (Heap.HCall X)) {w : World b}
    (hf : ∀ r ∈ (AttnHeap.calls b w cs).1, ∀ e, r ≠ .raised e) :
    AttnHeap.calls b w (cs ++ ds) =
      ((AttnHeap.calls b w cs).1 ++ (AttnHeap.calls b (AttnHeap.calls b w cs).2 ds).1,
        (AttnHeap.calls b (AttnHeap.calls b w cs).2 ds).2) := by
  induction cs generalizing w with
  | nil => rfl
  | cons c cs ih =>
    simp only [List.cons_append, AttnHeap.calls] at hf ⊢
    cases hc : AttnHeap.call b w c with
    | error e =>
      rw [hc] at hf
      exact absurd rfl (hf _ (by simp) e)
    | ok r =>
      obtain ⟨r, w'⟩ := r
      rw [hc] at hf
      simp only
      have hf' : ∀ q ∈ (AttnHeap.calls b w' cs).1, ∀ e, q ≠ .raised e := fun q hq => hf q (by simp [hq])
      rw [ih hf']
      rfl

/-! ### Stride index -1 and 0 cannot be told apart -/

/-- Equal, or only the stride index differs, `-1` against `0`. -/
def Near (i j : Option (b.S × Int)) : Prop := i = j ∨ ∃ s, i = some (s, -1) ∧ j = some (s, 0)

theorem near_pstep (x : X) {i j : Option (b.S × Int)} (h : Near i j) : Attn.pstep b x i = Attn.pstep b x j := by
  rcases h with rfl | ⟨s, rfl, rfl⟩
  · rfl
  · simp only [Attn.pstep, Attn.start]
    cases b.sdpa s x <;> rfl

theorem near_loop (xs : List X) {i j : Option (b.S × Int)} (h : Near i j) :
    (Attn.loop b i xs).map Prod.fst = (Attn.loop b j xs).map Prod.fst ∧
    (xs ≠ [] → Attn.loop b i xs = Attn.loop b j xs) := by
  cases xs with
  | nil => exact ⟨rfl, fun h => absurd rfl h⟩
  | cons x xs =>
    have : Attn.loop b i (x :: xs) = Attn.loop b j (x :: xs) := by simp only [Attn.loop, near_pstep x h]
    exact ⟨by rw [this], fun _ => this⟩

theorem near_call (c : Call (.stream X)) {i j : Option (b.S × Int)} (h : Near i j) :
    (∃ e, Spec.call b.mod i c = .error e ∧ Spec.call b.mod j c = .error e) ∨
    ∃ r i' j', Spec.call b.mod i c = .ok (r, i') ∧ Spec.call b.mod j c = .ok (r, j') ∧ Near i' j' := by
  rcases h with rfl | ⟨s, rfl, rfl⟩
  · cases hc : Spec.call b.mod i c with
    | error e => exact .inl ⟨e, rfl, rfl⟩
    | ok r => exact .inr ⟨r.1, r.2, r.2, rfl, rfl, .inl rfl⟩
  · have hn : Near (b := b) (some (s, -1)) (some (s, 0)) := .inr ⟨s, rfl, rfl⟩
    cases c with
    | clean => exact .inr ⟨_, _, _, rfl, rfl, .inl rfl⟩
    | fwd xs =>
      simp only [Spec.call]
      cases b.fwd xs with
      | error e => exact .inl ⟨e, rfl, rfl⟩
      | ok ys => exact .inr ⟨_, _, _, rfl, rfl, hn⟩
    | step u x =>
      simp only [Spec.call, Attn.step]
      rw [near_pstep x hn]
      cases Attn.pstep b x (some (s, 0)) with
      | error e => exact .inl ⟨e, rfl, rfl⟩
      | ok r =>
        cases u with
        | true => exact .inr ⟨_, _, _, rfl, rfl, .inl rfl⟩
        | false => exact .inr ⟨_, _, _, rfl, rfl, hn⟩
    | steps p u xs =>
      simp only [Spec.call, Attn.steps]
      cases xs with
      | nil => cases u <;> exact .inl ⟨_, rfl, rfl⟩
      | cons x xs =>
        rw [(near_loop (x :: xs) hn).2 (by simp)]
        cases Attn.loop b (some (s, 0)) (x :: xs) with
        | error e => exact .inl ⟨e, rfl, rfl⟩
        | ok r =>
          obtain ⟨os, t⟩ := r
          cases u with
          | true =>
            cases t with
            | none => exact .inl ⟨_, rfl, rfl⟩
            | some t => exact .inr ⟨_, _, _, rfl, rfl, .inl rfl⟩
          | false => exact .inr ⟨_, _, _, rfl, rfl, hn⟩

theorem near_calls (cs : List (Call (.stream X))) : ∀ {i j : Option (b.S × Int)}, Near i j →
    (Spec.calls b.mod i cs).1 = (Spec.calls b.mod j cs).1 := by
  induction cs with
  | nil => intro i j _; rfl
  | cons c cs ih =>
    intro i j h
    simp only [Spec.calls]
    rcases near_call c h with ⟨e, h1, h2⟩ | ⟨r, i', j', h1, h2, h3⟩
    · rw [h1, h2]
    · rw [h1, h2]
      simp only
      rw [ih h3]

end CoInf.AttnHeap
