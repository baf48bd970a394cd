/-
Frames of the wrong size are refused by the first member that holds a state.
-/
import Verif.Model.Shape
import Verif.Lemmas.Ring

set_option autoImplicit false

namespace CoInf.Shape

variable {X Y : Type}

theorem assignRow_self {n : Nat} {x : List X} (h : x.length = n) : assignRow n x = .ok x := if_pos h

theorem assignRow_bad {n : Nat} {x : List X} (h : x.length ≠ n) (h1 : x.length ≠ 1) : assignRow n x = .error .runtime := by
  unfold assignRow
  rw [if_neg h]
  match x, h1 with
  | [], _ => rfl
  | [a], h1 => exact absurd rfl h1
  | _ :: _ :: _, _ => rfl

theorem assignRow_one {n : Nat} (a : X) : assignRow n [a] = assignRow n (List.replicate n a) := by
  unfold assignRow
  rw [if_pos (List.length_replicate ..)]
  split
  · rename_i h; simp at h; rw [← h]; rfl
  · rfl

theorem assignRow_length {n : Nat} {x y : List X} (h : assignRow n x = .ok y) : y.length = n := by
  unfold assignRow at h
  split at h
  · cases h; assumption
  · split at h
    · cases h; simp
    · cases h

theorem pyGet_mem {l : List X} {i : Int} {a : X} (h : pyGet l i = .ok a) : a ∈ l := by
  unfold pyGet at h
  simp only at h
  generalize (if i < 0 then i + (l.length : Int) else i) = j at h
  split at h
  · cases h
  · cases hl : l[j.toNat]? with
    | none => rw [hl] at h; cases h
    | some b =>
      rw [hl] at h
      cases h
      exact List.mem_of_getElem? hl

theorem pyGet_nat {l : List X} {i : Int} (h0 : 0 ≤ i) (h1 : i < l.length) : ∃ a, pyGet l i = .ok a := by
  unfold pyGet
  simp only [if_neg (not_lt.mpr h0)]
  have : i.toNat < l.length := by omega
  rw [List.getElem?_eq_getElem this]
  exact ⟨_, rfl⟩

theorem pySet_spec {l l' : List X} {i : Int} {a : X} (h : pySet l i a = .ok l') :
    l'.length = l.length ∧ ∀ b ∈ l', b = a ∨ b ∈ l := by
  unfold pySet at h
  simp only at h
  generalize (if i < 0 then i + (l.length : Int) else i) = j at h
  split at h
  · cases h
  · split at h
    · cases h
      exact ⟨List.length_set .., fun b hb => (List.mem_or_eq_of_mem_set hb).symm⟩
    · cases h

theorem setRow_bad {b : List (List X)} {i : Int} {x : List X} {n : Nat} (hb : ∀ r ∈ b, r.length = n) (h : x.length ≠ n)
    (h1 : x.length ≠ 1) : ∃ e, setRow b i x = .error e := by
  unfold setRow
  cases hg : pyGet b i with
  | error e => exact ⟨e, rfl⟩
  | ok row =>
    simp only [hb row (pyGet_mem hg), assignRow_bad h h1]
    exact ⟨_, rfl⟩

theorem setRow_one {b : List (List X)} {i : Int} {a : X} {n : Nat} (hb : ∀ r ∈ b, r.length = n) :
    setRow b i [a] = setRow b i (List.replicate n a) := by
  unfold setRow
  cases hg : pyGet b i with
  | error e => rfl
  | ok row => simp only [hb row (pyGet_mem hg), assignRow_one]

theorem setRow_spec {b b' : List (List X)} {i : Int} {x : List X} {n : Nat} (hb : ∀ r ∈ b, r.length = n)
    (h : setRow b i x = .ok b') : b'.length = b.length ∧ ∀ r ∈ b', r.length = n := by
  unfold setRow at h
  cases hg : pyGet b i with
  | error e => rw [hg] at h; cases h
  | ok row =>
    rw [hg] at h
    simp only [hb row (pyGet_mem hg)] at h
    cases ha : assignRow n x with
    | error e => rw [ha] at h; cases h
    | ok x' =>
      rw [ha] at h
      obtain ⟨h1, h2⟩ := pySet_spec h
      refine ⟨h1, fun r hr => ?_⟩
      rcases h2 r hr with rfl | h3
      · exact assignRow_length ha
      · exact hb r h3

/-! ### Guards -/

/-- `P` holds of objects that refuse frames of a size other than `n` (a single entry aside) without being changed. -/
structure Guarded (M : EMod (List X) Y) (n : Nat) (P : M.Inst → Prop) : Prop where
  rej : ∀ i u x, P i → x.length ≠ n → x.length ≠ 1 → ∃ e, M.step i u x = (.error e, i)
  keep : ∀ i u x, P i → x.length = n → P (M.step i u x).2
  start : ∀ x o, x.length = n → (M.step M.init true x).1 = .ok o → P (M.step M.init true x).2

theorem guarded_of {St : Type} {init : St} {get : St → Option St}
    {pstep : List X → Option St → Except Err (Option Y × Option St)} {n : Nat} {P : St → Prop}
    (hget : ∀ s, P s → get s = some s) (hinit : get init = none)
    (hrej : ∀ s x, P s → x.length ≠ n → x.length ≠ 1 → ∃ e, pstep x (some s) = .error e)
    (hkeep : ∀ s x o s', P s → x.length = n → pstep x (some s) = .ok (o, s') → ∃ t, s' = some t ∧ P t)
    (hstart : ∀ x o s', x.length = n → pstep x none = .ok (o, s') → ∃ t, s' = some t ∧ P t) :
    Guarded (ofStep init get pstep) n P where
  rej := fun i u x hi h h1 => by
    obtain ⟨e, he⟩ := hrej i x hi h h1
    refine ⟨e, ?_⟩
    simp only [ofStep, hget i hi, he]
  keep := fun i u x hi h => by
    simp only [ofStep, hget i hi]
    cases hp : pstep x (some i) with
    | error e => exact hi
    | ok p =>
      obtain ⟨o, s'⟩ := p
      obtain ⟨t, rfl, ht⟩ := hkeep i x o s' hi h hp
      cases u
      · exact hi
      · exact ht
  start := fun x o h ho => by
    simp only [ofStep, hinit] at ho ⊢
    cases hp : pstep x none with
    | error e => rw [hp] at ho; cases ho
    | ok p =>
      obtain ⟨o', s'⟩ := p
      obtain ⟨t, rfl, ht⟩ := hstart x o' s' h hp
      exact ht

theorem Guarded.seqL {Y Z : Type} {A : EMod (List X) Y} {n : Nat} {P : A.Inst → Prop} (h : Guarded A n P) (B : EMod Y Z) :
    Guarded (seq A B) n fun i => P i.1 where
  rej := fun i u x hi hn h1 => by
    obtain ⟨e, he⟩ := h.rej i.1 u x hi hn h1
    refine ⟨e, ?_⟩
    simp only [seq, he]
    rfl
  keep := fun i u x hi hn => by
    have := h.keep i.1 u x hi hn
    simp only [seq]
    split <;> simp_all
  start := fun x o hn ho => by
    have := h.start x
    simp only [seq] at ho ⊢
    split at ho
    · cases ho
    · rename_i i1 heq
      rw [heq] at this
      simp only [heq]
      exact this none hn rfl
    · rename_i y i1 heq
      rw [heq] at this
      simp only [heq]
      exact this (some y) hn rfl

theorem Guarded.seqR {Y Z : Type} {B : EMod (List Y) Z} {n : Nat} {P : B.Inst → Prop} (h : Guarded B n P) (f : X → Y) :
    Guarded (seq (framewise fun x => .ok (x.map f)) B) n fun i => P i.2 where
  rej := fun i u x hi hn h1 => by
    obtain ⟨e, he⟩ := h.rej i.2 u (x.map f) hi (by simpa using hn) (by simpa using h1)
    refine ⟨e, ?_⟩
    simp only [seq, framewise, he]
    rfl
  keep := fun i u x hi hn => h.keep i.2 u (x.map f) hi (by simpa using hn)
  start := fun x o hn ho => h.start (x.map f) o (by simpa using hn) ho

theorem Guarded.parL {Y Z : Type} {A : EMod (List X) Y} {n : Nat} {P : A.Inst → Prop} (h : Guarded A n P)
    (r : Y → Y → Except Err Z) (B : EMod (List X) Y) : Guarded (par r A B) n fun i => P i.1 where
  rej := fun i u x hi hn h1 => by
    obtain ⟨e, he⟩ := h.rej i.1 u x hi hn h1
    refine ⟨e, ?_⟩
    simp only [par, he]
    rfl
  keep := fun i u x hi hn => by
    have := h.keep i.1 u x hi hn
    simp only [par]
    split
    · simp_all
    · split
      · simp_all
      · split <;> simp_all
  start := fun x o hn ho => by
    have := h.start x
    simp only [par] at ho ⊢
    split at ho
    · cases ho
    · rename_i o1 i1 heq
      rw [heq] at this
      have := this o1 hn rfl
      split
      · exact this
      · split <;> exact this

theorem Guarded.parR {Z : Type} {B : EMod (List X) (List Y)} {n : Nat} {P : B.Inst → Prop} (h : Guarded B n P)
    (r : List Y → List Y → Except Err Z) (f : X → Y) :
    Guarded (par r (framewise fun x => .ok (x.map f)) B) n fun i => P i.2 where
  rej := fun i u x hi hn h1 => by
    obtain ⟨e, he⟩ := h.rej i.2 u x hi hn h1
    refine ⟨e, ?_⟩
    simp only [par, framewise, he]
    rfl
  keep := fun i u x hi hn => by
    have := h.keep i.2 u x hi hn
    simp only [par, framewise]
    split
    · simp_all
    · split <;> simp_all
  start := fun x o hn ho => by
    have := h.start x
    simp only [par, framewise] at ho ⊢
    split at ho
    · cases ho
    · rename_i o2 i2 heq
      rw [heq] at this
      have := this o2 hn rfl
      split <;> exact this

/-! ### Delay -/

namespace Delay

/-- A running `Delay` for frames of size `n`. -/
def Running (d n : Nat) (s : St X) : Prop := s.1.length = d ∧ (∀ r ∈ s.1, r.length = n)

theorem run_keep {d n : Nat} {x : List X} {s : St X} {o : Option (List X)} {s' : Option (St X)} (hs : Running d n s)
    (h : run d x s = .ok (o, s')) : ∃ t, s' = some t ∧ Running d n t := by
  unfold run at h
  split at h
  · cases h
  · split at h
    · cases h
    · rename_i b hb
      cases h
      obtain ⟨h1, h2⟩ := setRow_spec hs.2 hb
      exact ⟨_, rfl, h1.trans hs.1, h2⟩

theorem guarded {d : Nat} (hd : d ≠ 0) (fill : X → X) (sh : Shrink) (n : Nat) :
    Guarded (mod d fill sh) n (Running d n) := by
  apply guarded_of
  · intro s hs
    have : s.1.length > 0 := by have := hs.1; omega
    simp only [get, if_pos this]
  · rfl
  · intro s x hs hn h1
    simp only [pstep, if_neg hd]
    obtain ⟨e, he⟩ := setRow_bad (i := s.2 % d) hs.2 hn h1
    unfold run
    split
    · exact ⟨_, rfl⟩
    · rw [he]; exact ⟨_, rfl⟩
  · intro s x o s' hs hn h
    simp only [pstep, if_neg hd] at h
    exact run_keep hs h
  · intro x o s' hn h
    simp only [pstep, if_neg hd] at h
    refine run_keep ⟨?_, ?_⟩ h
    · simp [initState]
    · intro r hr
      simp only [initState] at hr
      rw [List.eq_of_mem_replicate hr]
      simpa using hn

end Delay

/-! ### Pooling -/

namespace Pool
variable {c : Cfg X Y}

/-- A running pooling module for frames of size `n`. -/
def Running (n : Nat) (s : St Y) : Prop := 0 < s.buffer.length ∧ (∀ r ∈ s.buffer, r.length = n)

theorem run_keep {n : Nat} {y : List Y} {s : St Y} {o : Option (List Y)} {s' : Option (St Y)} (hs : Running n s)
    (h : run c y s = .ok (o, s')) : ∃ t, s' = some t ∧ Running n t := by
  unfold run at h
  split at h
  · cases h
  · rename_i b hb
    obtain ⟨h1, h2⟩ := setRow_spec hs.2 hb
    split at h
    · cases h
    · cases h
      exact ⟨_, rfl, h1 ▸ hs.1, h2⟩

theorem guarded (hsp : ∀ x y, c.spatial x = .ok y → y.length = x.length) (n : Nat) :
    Guarded (mod c) n (Running n) := by
  apply guarded_of
  · intro s hs
    simp only [get, if_pos hs.1]
  · rfl
  · intro s x hs hn h1
    unfold pstep
    cases hx : c.spatial x with
    | error e => exact ⟨_, rfl⟩
    | ok y =>
      have hy := hsp x y hx
      obtain ⟨e, he⟩ := setRow_bad (i := s.index) (x := y) hs.2 (hy ▸ hn) (hy ▸ h1)
      refine ⟨e, ?_⟩
      simp only [run, he]
  · intro s x o s' hs hn h
    unfold pstep at h
    split at h
    · cases h
    · exact run_keep hs h
  · intro x o s' hn h
    unfold pstep at h
    split at h
    · cases h
    · rename_i y hy
      refine run_keep (n := n) ⟨?_, ?_⟩ h
      · simp [initState]
      · intro r hr
        simp only [initState] at hr
        rw [List.eq_of_mem_replicate hr]
        simpa using (hsp x y hy).trans hn

end Pool

/-! ### Convolution -/

namespace Conv
variable [Zero Y] [Add Y] {c : Cfg X Y}

/-- A running convolution for frames of size `n`. -/
def Running (c : Cfg X Y) (n : Nat) (s : St Y) : Prop :=
  0 < s.buffer.length ∧ ∀ slot ∈ s.buffer, slot.length = c.K - 1 ∧ ∀ r ∈ slot, r.length = n

theorem mapM_bad {α β : Type} {f : α → Except Err β} {l : List α} (hl : l ≠ []) (h : ∀ a ∈ l, ∃ e, f a = .error e) :
    ∃ e, l.mapM f = .error e := by
  cases l with
  | nil => exact absurd rfl hl
  | cons a l =>
    obtain ⟨e, he⟩ := h a (by simp)
    rw [List.mapM_cons, he]
    exact ⟨e, rfl⟩

theorem mapM_mem {α β : Type} {f : α → Except Err β} {P : β → Prop} : ∀ {l : List α} {l' : List β},
    l.mapM f = .ok l' → (∀ a ∈ l, ∀ b, f a = .ok b → P b) → l'.length = l.length ∧ ∀ b ∈ l', P b := by
  intro l
  induction l with
  | nil => intro l' h _; cases h; simp
  | cons a l ih =>
    intro l' h hp
    rw [List.mapM_cons] at h
    cases ha : f a with
    | error e => rw [ha] at h; cases h
    | ok b =>
      cases hl : l.mapM f with
      | error e => rw [ha, hl] at h; cases h
      | ok bs =>
        rw [ha, hl] at h
        cases h
        obtain ⟨h1, h2⟩ := ih hl fun a' ha' => hp a' (by simp [ha'])
        refine ⟨by simp [h1], ?_⟩
        intro b' hb'
        rcases List.mem_cons.mp hb' with rfl | hb'
        · exact hp a (by simp) b' ha
        · exact h2 b' hb'

/-- Result of the convolution of a frame. -/
def Rows (c : Cfg X Y) : Prop :=
  ∀ x rows, c.conv x = .ok rows → rows.length = c.K ∧ ∀ r ∈ rows, r.length = x.length

theorem setSlot_bad {b : List (List (List Y))} {i : Int} {rest : List (List Y)} {n m : Nat} {k : Nat} (hk : k ≠ 0)
    (hb : ∀ slot ∈ b, slot.length = k ∧ ∀ r ∈ slot, r.length = n) (hr : rest.length = k) (hm : ∀ r ∈ rest, r.length = m)
    (hn : m ≠ n) (h1 : m ≠ 1) : ∃ e, setSlot b i rest = .error e := by
  unfold setSlot
  cases hg : pyGet b i with
  | error e => exact ⟨e, rfl⟩
  | ok slot =>
    obtain ⟨hl, hs⟩ := hb slot (pyGet_mem hg)
    have : ∃ e, ((List.zip slot rest).mapM fun p => assignRow p.1.length p.2) = .error e := by
      apply mapM_bad
      · intro h
        have := congrArg List.length h
        simp [hl, hr] at this
        omega
      · rintro ⟨a, r⟩ ha
        have h2 := hs a (List.of_mem_zip ha).1
        have h3 := hm r (List.of_mem_zip ha).2
        exact ⟨_, assignRow_bad (by simp only; omega) (by simp only; omega)⟩
    obtain ⟨e, he⟩ := this
    simp only [he]
    exact ⟨e, rfl⟩

theorem setSlot_spec {b b' : List (List (List Y))} {i : Int} {rest : List (List Y)} {n k : Nat}
    (hb : ∀ slot ∈ b, slot.length = k ∧ ∀ r ∈ slot, r.length = n) (hr : rest.length = k)
    (h : setSlot b i rest = .ok b') : b'.length = b.length ∧ ∀ slot ∈ b', slot.length = k ∧ ∀ r ∈ slot, r.length = n := by
  unfold setSlot at h
  cases hg : pyGet b i with
  | error e => rw [hg] at h; cases h
  | ok slot =>
    obtain ⟨hl, hs⟩ := hb slot (pyGet_mem hg)
    rw [hg] at h
    simp only at h
    cases hm : (List.zip slot rest).mapM fun p => assignRow p.1.length p.2 with
    | error e => rw [hm] at h; cases h
    | ok slot' =>
      rw [hm] at h
      obtain ⟨h1, h2⟩ := mapM_mem (P := fun r => r.length = n) hm fun p hp r hpr => by
        have := assignRow_length hpr
        rw [this]
        exact hs p.1 (List.of_mem_zip hp).1
      obtain ⟨h3, h4⟩ := pySet_spec h
      refine ⟨h3, fun s hs' => ?_⟩
      rcases h4 s hs' with rfl | h5
      · refine ⟨?_, h2⟩
        rw [h1, List.length_zip, hl, hr]
        simp
      · exact hb s h5

theorem run_keep {n : Nat} (hK : 1 < c.K) {rows : List (List Y)} {s : St Y} {o : Option (List Y)} {s' : Option (St Y)}
    (hr : rows.length = c.K) (hs : Running c n s) (h : run c rows s = .ok (o, s')) : ∃ t, s' = some t ∧ Running c n t := by
  unfold run at h
  split at h
  · cases h
  · split at h
    · cases h
    · rw [if_pos hK] at h
      split at h
      · cases h
      · rename_i b hb
        cases h
        obtain ⟨h1, h2⟩ := setSlot_spec (k := c.K - 1) hs.2 (by simp [hr]) hb
        exact ⟨_, rfl, h1 ▸ hs.1, h2⟩

theorem guarded (hK : 1 < c.K) (hc : Rows c) (n : Nat) : Guarded (mod c) n (Running c n) := by
  have hst : ¬ (c.K = 1 ∧ c.P = 0 ∧ c.S = 1) := by omega
  apply guarded_of
  · intro s hs
    simp only [get, if_pos hs.1]
  · rfl
  · intro s x hs hn h1
    unfold pstep
    cases hx : c.conv x with
    | error e => exact ⟨_, rfl⟩
    | ok rows =>
      obtain ⟨hr, hm⟩ := hc x rows hx
      simp only [if_neg hst]
      obtain ⟨e, he⟩ := setSlot_bad (i := s.index) (rest := rows.drop 1) (m := x.length) (by omega) hs.2 (by simp [hr])
        (fun r hr' => hm r (List.mem_of_mem_drop hr')) hn h1
      unfold run
      split
      · exact ⟨_, rfl⟩
      · split
        · exact ⟨_, rfl⟩
        · rw [if_pos hK, he]; exact ⟨_, rfl⟩
  · intro s x o s' hs hn h
    unfold pstep at h
    split at h
    · cases h
    · rename_i rows hx
      rw [if_neg hst] at h
      exact run_keep hK (hc x rows hx).1 hs h
  · intro x o s' hn h
    unfold pstep at h
    split at h
    · cases h
    · rename_i rows hx
      obtain ⟨hr, hm⟩ := hc x rows hx
      rw [if_neg hst] at h
      refine run_keep (n := n) hK hr ⟨?_, ?_⟩ h
      · simp only [initState, List.length_replicate]; omega
      · intro slot hslot
        simp only [initState] at hslot
        rw [List.eq_of_mem_replicate hslot]
        have hd : (rows.drop 1).length = c.K - 1 := by simp [hr]
        cases c.fill with
        | replicate =>
          exact ⟨hd, fun r hr' => (hm r (List.mem_of_mem_drop hr')).trans hn⟩
        | zeros =>
          refine ⟨by simp [hr], fun r hr' => ?_⟩
          obtain ⟨r', hr'', rfl⟩ := List.mem_map.mp hr'
          simpa using (hm r' (List.mem_of_mem_drop hr'')).trans hn

end Conv

end CoInf.Shape
