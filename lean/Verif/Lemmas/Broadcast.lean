import Verif.Model.Broadcast
import Verif.Spec.Reduce
import Verif.Lemmas.Reach
import Verif.Lemmas.Sequential
import Mathlib.Data.List.Forall2

namespace CoInf
open Spec
variable {X Y Z : Type}

theorem column_eq (cs : List (List Y)) (t : Nat) : column cs t = atTime cs t := rfl

theorem atTime_append {as bs : List (List Y)} (h : as.length = bs.length) {T : Nat}
    (ha : ∀ a ∈ as, a.length = T) (t : Nat) :
    atTime (List.zipWith (· ++ ·) as bs) t = if t < T then atTime as t else atTime bs (t - T) := by
  induction as generalizing bs with
  | nil =>
    cases bs with
    | nil => simp [atTime]
    | cons b bs => simp at h
  | cons a as ih =>
    cases bs with
    | nil => simp at h
    | cons b bs =>
      have h' : as.length = bs.length := by simpa using h
      have hT := ha a (by simp)
      have ih' := ih h' (fun x hx => ha x (by simp [hx]))
      simp only [atTime] at ih' ⊢
      simp only [List.zipWith_cons_cons, List.filterMap_cons]
      rw [ih']
      by_cases ht : t < T
      · rw [List.getElem?_append_left (by omega)]
        simp [ht]
      · rw [List.getElem?_append_right (by omega), hT]
        simp [ht]

theorem zipReduce_eq (f : List Y → Z) {cs : List (List Y)} (hne : cs ≠ []) {T : Nat}
    (h : ∀ c ∈ cs, c.length = T) : zipReduce f cs = (List.range T).map fun t => f (atTime cs t) := by
  cases cs with
  | nil => exact absurd rfl hne
  | cons c cs => simp [zipReduce, h c (by simp)]

theorem zipReduce_append (f : List Y → Z) {as bs : List (List Y)} (h : as.length = bs.length)
    {T T' : Nat} (ha : ∀ a ∈ as, a.length = T) (hb : ∀ b ∈ bs, b.length = T') :
    zipReduce f (List.zipWith (· ++ ·) as bs) = zipReduce f as ++ zipReduce f bs := by
  cases as with
  | nil =>
    cases bs with
    | nil => rfl
    | cons b bs => simp at h
  | cons a as =>
    cases bs with
    | nil => simp at h
    | cons b bs =>
      have hne : List.zipWith (· ++ ·) (a :: as) (b :: bs) ≠ [] := by simp
      have hz : ∀ c ∈ List.zipWith (· ++ ·) (a :: as) (b :: bs), c.length = T + T' := by
        intro c hc
        obtain ⟨i, hi, rfl⟩ := List.getElem_of_mem hc
        simp only [List.length_zipWith] at hi
        rw [List.getElem_zipWith, List.length_append, ha _ (List.getElem_mem _),
          hb _ (List.getElem_mem _)]
      rw [zipReduce_eq f hne hz, zipReduce_eq f (by simp) ha, zipReduce_eq f (by simp) hb,
        List.range_add, List.map_append, List.map_map]
      congr 1
      · apply List.map_congr_left
        intro t ht
        rw [atTime_append h ha, if_pos (by simpa using ht)]
      · apply List.map_congr_left
        intro t ht
        simp only [Function.comp]
        rw [atTime_append h ha, if_neg (by omega)]
        simp

theorem atTime_singletons (ys : List Y) : atTime (ys.map fun y => [y]) 0 = ys := by
  induction ys with
  | nil => rfl
  | cons y ys ih => simp only [atTime] at *; simp [ih]

theorem zipReduce_singletons (f : List Y → Z) {ys : List Y} (h : ys ≠ []) :
    zipReduce f (ys.map fun y => [y]) = [f ys] := by
  rw [zipReduce_eq f (by simp [h]) (T := 1) (by simp)]
  simp [atTime_singletons]

theorem zipReduce_empties (f : List Y → Z) {cs : List (List Y)} (h : ∀ c ∈ cs, c.length = 0) :
    zipReduce f cs = [] := by
  cases cs with
  | nil => rfl
  | cons c cs => simp [zipReduce, h c (by simp)]

theorem allSome_some {α : Type} (l : List α) : allSome (l.map some) = some l := by
  induction l with
  | nil => rfl
  | cons a l ih => simp [allSome, ih]

theorem allSome_eq_none {α : Type} {l : List (Option α)} (h : none ∈ l) : allSome l = none := by
  induction l with
  | nil => simp at h
  | cons a l ih =>
    cases a with
    | none => rfl
    | some a => simp [allSome, ih (by simpa using h)]

/-! ### Laws of reducers -/

/-- The reducer acts frame by frame on `n` equally long streams. -/
structure Reducer.Lawful (r : Reducer Y Z) (f : List Y → Z) (n : Nat) : Prop where
  frame : ∀ ys : List Y, ys.length = n → r.frame ys = .ok (f ys)
  clip : ∀ (cs : List (List Y)) (T : Nat), cs.length = n → (∀ c ∈ cs, c.length = T) →
    r.clip cs = .ok ((List.range T).map fun t => f (atTime cs t))

/-- The reducer of clips is empty exactly if one of the clips is. -/
structure Reducer.Sound (r : Reducer Y Z) : Prop where
  nonempty : ∀ {cs zs}, r.clip cs = .ok zs → (∀ c ∈ cs, c ≠ []) → zs ≠ []
  empty : ∀ {cs zs}, r.clip cs = .ok zs → [] ∈ cs → zs = []

/-- The frame function of `reduce_sum` and friends. -/
def foldFrame (op : Y → Y → Y) (d : Y) : List Y → Y
  | [] => d
  | y :: ys => ys.foldl op y

theorem bcast2_eq (op : Y → Y → Y) {a b : List Y} (h : a.length = b.length) :
    bcast2 op a b = .ok (List.zipWith op a b) := by simp [bcast2, h]

theorem foldlM_bcast2 (op : Y → Y → Y) (d : Y) (T : Nat) (cs : List (List Y)) :
    ∀ c : List Y, c.length = T → (∀ c' ∈ cs, c'.length = T) →
    cs.foldlM (bcast2 op) c =
      (.ok ((List.range T).map fun t => foldFrame op d (atTime (c :: cs) t)) : Except Err _) := by
  induction cs with
  | nil =>
    intro c hc _
    simp only [List.foldlM, pure, Except.pure]
    congr 1
    apply List.ext_getElem
    · simp [hc]
    · intro i h1 h2
      simp [atTime, h1, foldFrame]
  | cons c' cs ih =>
    intro c hc hcs
    have hc' := hcs c' (by simp)
    rw [List.foldlM_cons, bcast2_eq op (by omega), ok_bind,
      ih _ (by simp [hc, hc']) (fun x hx => hcs x (by simp [hx]))]
    congr 1
    apply List.map_congr_left
    intro t ht
    have ht' : t < T := by simpa using ht
    have h1 : t < c.length := by omega
    have h2 : t < c'.length := by omega
    have h3 : (List.zipWith op c c')[t]? = some (op c[t] c'[t]) := by
      rw [List.getElem?_eq_getElem (by simp; omega), List.getElem_zipWith]
    have h4 : c[t]? = some c[t] := by simp [h1]
    have h5 : c'[t]? = some c'[t] := by simp [h2]
    simp only [atTime, List.filterMap_cons, h3, h4, h5, foldFrame, List.foldl_cons]

theorem foldReducer_lawful (op : Y → Y → Y) (d : Y) (n : Nat) (hn : 2 ≤ n) :
    (foldReducer op).Lawful (foldFrame op d) n where
  frame := by
    intro ys hy
    match ys, hy with
    | [], hy => simp at hy; omega
    | [_], hy => simp at hy; omega
    | y :: y' :: rest, _ => rfl
  clip := by
    intro cs T hc hT
    match cs, hc with
    | [], hc => simp at hc; omega
    | [_], hc => simp at hc; omega
    | c :: c' :: rest, _ =>
      exact foldlM_bcast2 op d T (c' :: rest) c (hT c (by simp)) (fun x hx => hT x (by simp [hx]))

theorem catReducer_lawful (cat : List Y → Z) (n : Nat) (hn : 1 ≤ n) :
    (catReducer cat).Lawful cat n where
  frame := by
    intro ys hy
    cases ys with
    | nil => simp at hy; omega
    | cons y ys => rfl
  clip := by
    intro cs T hc hT
    cases cs with
    | nil => simp at hc; omega
    | cons c cs =>
      have hall : (cs.all fun c' => decide (c'.length = c.length)) = true := by
        rw [List.all_eq_true]
        intro x hx
        simp [hT c (by simp), hT x (by simp [hx])]
      simp only [catReducer]
      rw [if_pos hall, hT c (by simp)]; rfl

theorem bcast2_nonempty (op : Y → Y → Y) {a b z : List Y} (h : bcast2 op a b = .ok z)
    (ha : a ≠ []) (hb : b ≠ []) : z ≠ [] := by
  unfold bcast2 at h
  split at h
  · cases h
    cases a with
    | nil => exact absurd rfl ha
    | cons x a =>
      cases b with
      | nil => exact absurd rfl hb
      | cons y b => simp
  · split at h
    · cases h; simpa using hb
    · cases h; simpa using ha
    · cases h

theorem bcast2_empty (op : Y → Y → Y) {a b z : List Y} (h : bcast2 op a b = .ok z)
    (hab : a = [] ∨ b = []) : z = [] := by
  unfold bcast2 at h
  split at h
  · cases h
    rcases hab with rfl | rfl <;> simp
  · split at h
    · cases h
      rcases hab with hab | rfl
      · cases hab
      · rfl
    · cases h
      rcases hab with rfl | hab
      · rfl
      · cases hab
    · cases h

theorem foldlM_nonempty (op : Y → Y → Y) (cs : List (List Y)) : ∀ {c z : List Y},
    cs.foldlM (bcast2 op) c = (.ok z : Except Err _) → c ≠ [] → (∀ c' ∈ cs, c' ≠ []) → z ≠ [] := by
  induction cs with
  | nil => intro c z h hc _; cases h; exact hc
  | cons c' cs ih =>
    intro c z h hc hcs
    rw [List.foldlM_cons] at h
    cases hb : bcast2 op c c' with
    | error e => rw [hb, err_bind] at h; cases h
    | ok a =>
      rw [hb, ok_bind] at h
      exact ih h (bcast2_nonempty op hb hc (hcs c' (by simp))) (fun x hx => hcs x (by simp [hx]))

theorem foldlM_empty (op : Y → Y → Y) (cs : List (List Y)) : ∀ {c z : List Y},
    cs.foldlM (bcast2 op) c = (.ok z : Except Err _) → (c = [] ∨ [] ∈ cs) → z = [] := by
  induction cs with
  | nil => intro c z h hc; cases h; simpa using hc
  | cons c' cs ih =>
    intro c z h hc
    rw [List.foldlM_cons] at h
    cases hb : bcast2 op c c' with
    | error e => rw [hb, err_bind] at h; cases h
    | ok a =>
      rw [hb, ok_bind] at h
      refine ih h ?_
      rcases hc with hc | hc
      · exact Or.inl (bcast2_empty op hb (Or.inl hc))
      · rcases List.mem_cons.1 hc with hc | hc
        · exact Or.inl (bcast2_empty op hb (Or.inr hc.symm))
        · exact Or.inr hc

theorem foldReducer_sound (op : Y → Y → Y) : (foldReducer op).Sound where
  nonempty := by
    intro cs zs h hc
    match cs, h with
    | [], h => cases h
    | [_], h => cases h
    | c :: c' :: rest, h =>
      exact foldlM_nonempty op (c' :: rest) h (hc c (by simp)) (fun x hx => hc x (by simp [hx]))
  empty := by
    intro cs zs h hc
    match cs, h with
    | [], h => cases h
    | [_], h => cases h
    | c :: c' :: rest, h =>
      refine foldlM_empty op (c' :: rest) h ?_
      rcases List.mem_cons.1 hc with hc | hc
      · exact Or.inl hc.symm
      · exact Or.inr hc

theorem catReducer_sound (cat : List Y → Z) : (catReducer cat).Sound where
  nonempty := by
    intro cs zs h hc
    cases cs with
    | nil => cases h
    | cons c cs =>
      simp only [catReducer] at h
      split at h
      · cases h
        have := List.length_pos_of_ne_nil (hc c (by simp))
        intro h0
        have := congrArg List.length h0
        rw [List.length_map, List.length_range, List.length_nil] at this
        omega
      · cases h
  empty := by
    intro cs zs h hc
    cases cs with
    | nil => cases h
    | cons c cs =>
      simp only [catReducer] at h
      split at h
      · rename_i hall
        cases h
        rw [List.all_eq_true] at hall
        rcases List.mem_cons.1 hc with hc | hc
        · subst hc; rfl
        · have := hall _ hc
          simp at this
          rw [← this]; rfl
      · cases h

/-! ### The container -/

namespace BroadcastReduce

/-- All members are reachable with the same history. -/
def RelAll : (ms : List (CoMod (.stream X) (.stream Y))) → List X → Inst ms → Prop
  | [], _, _ => True
  | m :: ms, h, i => Reach m h i.1 ∧ RelAll ms h i.2

/-- Emission of one member during a call. -/
def Emit (h xs : List X) (φ : List X → List Y) (ys : List Y) : Prop := φ (h ++ xs) = φ h ++ ys

theorem init_rel (ms : List (CoMod (.stream X) (.stream Y))) : RelAll ms [] (init ms) := by
  induction ms with
  | nil => trivial
  | cons m ms ih => exact ⟨.init, ih⟩

theorem clean_rel (ms : List (CoMod (.stream X) (.stream Y))) {h i} (hr : RelAll ms h i) :
    RelAll ms [] (clean ms i) := by
  induction ms with
  | nil => trivial
  | cons m ms ih => exact ⟨.clean hr.1, ih hr.2⟩

theorem stepAll_ok {ms : List (CoMod (.stream X) (.stream Y))} {φs : List (List X → List Y)}
    (H : List.Forall₂ Implements ms φs) (u : Bool) (x : X) :
    ∀ {h i}, RelAll ms h i → ∃ os i', stepAll ms i u x = .ok (os, i') ∧
      List.Forall₂ (Emit h [x]) φs (os.map Option.toList) ∧
      RelAll ms (if u then h ++ [x] else h) i' := by
  induction H with
  | nil => intro h i _; exact ⟨[], i, rfl, .nil, trivial⟩
  | @cons m φ ms φs hm _ ih =>
    intro h i hr
    obtain ⟨o, i1, h1, h2, h3⟩ := hm.reach.step u x hr.1
    obtain ⟨os, i2, k1, k2, k3⟩ := ih hr.2
    refine ⟨o :: os, (i1, i2), ?_, .cons h2 k2, ⟨h3, k3⟩⟩
    rw [stepAll, h1, ok_bind]
    simp only [k1, ok_bind]; rfl

theorem stepsAll_ok {ms : List (CoMod (.stream X) (.stream Y))} {φs : List (List X → List Y)}
    (H : List.Forall₂ Implements ms φs) (u : Bool) (xs : List X) (hx : xs ≠ []) :
    ∀ {h i}, RelAll ms h i → ∃ yss i', stepsAll ms i false u xs = .ok (yss.map optList, i') ∧
      List.Forall₂ (Emit h xs) φs yss ∧
      RelAll ms (if u then h ++ xs else h) i' := by
  induction H with
  | nil => intro h i _; exact ⟨[], i, rfl, .nil, trivial⟩
  | @cons m φ ms φs hm _ ih =>
    intro h i hr
    obtain ⟨ys, i1, h1, h2, h3⟩ := hm.reach.steps u xs hx hr.1
    obtain ⟨yss, i2, k1, k2, k3⟩ := ih hr.2
    refine ⟨ys :: yss, (i1, i2), ?_, .cons h2 k2, ⟨h3, k3⟩⟩
    rw [stepsAll, h1, ok_bind]
    simp only [k1, ok_bind]; rfl

theorem fwdAll_ok {ms : List (CoMod (.stream X) (.stream Y))} {xs : List X} {yss} :
    ∀ {h i i'}, RelAll ms h i → fwdAll ms i xs = .ok (yss, i') → RelAll ms h i' := by
  induction ms generalizing yss with
  | nil => intro h i i' _ _; trivial
  | cons m ms ih =>
    intro h i i' hr hf
    rw [fwdAll] at hf
    cases h1 : m.fwd i.1 xs with
    | error e => rw [h1, err_bind] at hf; cases hf
    | ok p =>
      rw [h1, ok_bind] at hf
      simp only at hf
      cases h2 : fwdAll ms i.2 xs with
      | error e => rw [h2, err_bind] at hf; cases hf
      | ok q =>
        rw [h2, ok_bind] at hf
        cases hf
        exact ⟨.fwd hr.1 h1, ih hr.2 h2⟩

theorem fwdAll_indep {ms : List (CoMod (.stream X) (.stream Y))} {φs : List (List X → List Y)}
    (H : List.Forall₂ Implements ms φs) (xs : List X) : ∀ {h i}, RelAll ms h i →
    (fwdAll ms i xs).map Prod.fst = (fwdAll ms (init ms) xs).map Prod.fst := by
  induction H with
  | nil => intro h i _; rfl
  | @cons m φ ms φs hm _ ih =>
    intro h i hr
    have e1 := hm.reach.fwd_indep xs hr.1
    have e2 := ih hr.2
    rw [fwdAll, fwdAll, init]
    cases h1 : m.fwd i.1 xs with
    | error e => rw [map_fst_err e1 h1]; rfl
    | ok p =>
      obtain ⟨y, i1⟩ := p
      obtain ⟨i0, h0⟩ := map_fst_ok e1 h1
      rw [h0, ok_bind, ok_bind]
      simp only
      cases h2 : fwdAll ms i.2 xs with
      | error e => rw [map_fst_err e2 h2]; rfl
      | ok q =>
        obtain ⟨ys, i2⟩ := q
        obtain ⟨i0', h0'⟩ := map_fst_ok e2 h2
        rw [h0']; rfl

/-- Equal lengths of the increments, from alignment. -/
theorem incr_aligned {φs : List (List X → List Y)} (hal : Aligned φs) {h xs : List X}
    {yss : List (List Y)} (H : List.Forall₂ (Emit h xs) φs yss) :
    ∃ T T', (∀ a ∈ φs.map (· h), a.length = T) ∧ (∀ b ∈ yss, b.length = T') ∧
      yss.length = φs.length ∧
      φs.map (· (h ++ xs)) = List.zipWith (· ++ ·) (φs.map (· h)) yss := by
  have hlen := H.length_eq
  have hz : φs.map (· (h ++ xs)) = List.zipWith (· ++ ·) (φs.map (· h)) yss := by
    clear hal
    induction H with
    | nil => rfl
    | cons h1 _ ih => simp only [List.map_cons, List.zipWith_cons_cons, ih (by simpa using hlen)]; rw [h1]
  cases φs with
  | nil =>
    cases yss with
    | nil => exact ⟨0, 0, by simp, by simp, rfl, hz⟩
    | cons b bs => simp at hlen
  | cons φ φs =>
    refine ⟨(φ h).length, (φ (h ++ xs)).length - (φ h).length, ?_, ?_, hlen.symm, hz⟩
    · intro a ha
      obtain ⟨ψ, hψ, rfl⟩ := List.mem_map.1 ha
      exact hal ψ hψ φ (by simp) h
    · intro b hb
      have : ∀ {l : List (List X → List Y)} {yss}, List.Forall₂ (Emit h xs) l yss → ∀ b ∈ yss,
          ∃ ψ ∈ l, ψ (h ++ xs) = ψ h ++ b := by
        intro l yss H
        induction H with
        | nil => simp
        | @cons ψ b l yss h1 _ ih =>
          intro b' hb'
          rcases List.mem_cons.1 hb' with rfl | hb'
          · exact ⟨ψ, by simp, h1⟩
          · obtain ⟨ψ', h2, h3⟩ := ih b' hb'
            exact ⟨ψ', by simp [h2], h3⟩
      obtain ⟨ψ, hψ, e⟩ := this H b hb
      have l1 := hal ψ hψ φ (by simp) h
      have l2 := hal ψ hψ φ (by simp) (h ++ xs)
      rw [e, List.length_append] at l2
      omega

variable {r : Reducer Y Z} {f : List Y → Z} {ms : List (CoMod (.stream X) (.stream Y))}
  {φs : List (List X → List Y)}

/-- The stream function of the container. -/
def phi (f : List Y → Z) (φs : List (List X → List Y)) : List X → List Z :=
  fun xs => zipReduce f (φs.map (· xs))

/-- Reducing what the members emitted in one step. -/
theorem frame_of_emit_count {n : Nat} (hne : 0 < n) (hlen : n = φs.length) (hal : Aligned φs)
    (hr : r.Lawful f n) {h : List X} {x : X} {os : List (Option Y)}
    (h2 : List.Forall₂ (Emit h [x]) φs (os.map Option.toList)) :
    ∃ o, nonempty r.frame os = .ok o ∧ phi f φs (h ++ [x]) = phi f φs h ++ o.toList := by
  obtain ⟨T, T', hT, hT', hl, hz⟩ := incr_aligned hal h2
  have hosl : os.length = n := by simpa [hlen] using hl
  have hphi : phi f φs (h ++ [x]) = phi f φs h ++ zipReduce f (os.map Option.toList) := by
    unfold phi
    rw [hz]
    exact zipReduce_append f (by simpa using hl.symm) hT hT'
  have hone : os ≠ [] := by
    rintro rfl
    simp at hosl; omega
  by_cases hnone : none ∈ os
  · have h0 : T' = 0 := by
      have := hT' [] (List.mem_map.2 ⟨none, hnone, rfl⟩)
      simpa using this.symm
    subst h0
    refine ⟨none, by rw [nonempty, allSome_eq_none hnone], ?_⟩
    rw [hphi, zipReduce_empties f hT']; rfl
  · have hsome : ∃ ys : List Y, os = ys.map some := by
      clear h2 hl hz hosl hphi hone hT'
      induction os with
      | nil => exact ⟨[], rfl⟩
      | cons o os ih =>
        obtain ⟨ys, rfl⟩ := ih (fun hb => hnone (by simp [hb]))
        cases o with
        | none => simp at hnone
        | some y => exact ⟨y :: ys, rfl⟩
    obtain ⟨ys, rfl⟩ := hsome
    have hyl : ys.length = n := by simpa using hosl
    refine ⟨some (f ys), by simp only [nonempty, allSome_some, hr.frame ys hyl, Except.map], ?_⟩
    have e : (ys.map some).map Option.toList = ys.map fun y => [y] := by simp
    rw [hphi, e, zipReduce_singletons f (by rintro rfl; exact hone rfl)]; rfl

theorem frame_of_emit (hne : ms ≠ []) (hlen : ms.length = φs.length) (hal : Aligned φs)
    (hr : r.Lawful f ms.length) {h : List X} {x : X} {os : List (Option Y)}
    (h2 : List.Forall₂ (Emit h [x]) φs (os.map Option.toList)) :
    ∃ o, nonempty r.frame os = .ok o ∧ phi f φs (h ++ [x]) = phi f φs h ++ o.toList :=
  frame_of_emit_count (List.length_pos_of_ne_nil hne) hlen hal hr h2

theorem simRel (hne : ms ≠ []) (H : List.Forall₂ Implements ms φs) (hal : Aligned φs)
    (hr : r.Lawful f ms.length) : SimRel (mod r ms) (phi f φs) (RelAll ms) where
  phi_nil := by
    have hnil : ∀ c ∈ φs.map (· []), c.length = 0 := by
      intro c hc
      obtain ⟨φ, hφ, rfl⟩ := List.mem_map.1 hc
      have : ∀ {ms φs}, List.Forall₂ Implements ms φs → ∀ φ ∈ φs, (φ : List X → List Y) [] = [] := by
        intro ms φs H
        induction H with
        | nil => simp
        | cons h1 _ ih =>
          intro φ hφ
          rcases List.mem_cons.1 hφ with rfl | hφ
          · exact h1.reach.phi_nil
          · exact ih φ hφ
      rw [this H φ hφ]; rfl
    exact zipReduce_empties f hnil
  init := init_rel ms
  clean := fun {h i} hi => clean_rel ms hi
  step := by
    intro h i u x hi
    obtain ⟨os, i', h1, h2, h3⟩ := stepAll_ok H u x hi
    obtain ⟨o, b1, b2⟩ := frame_of_emit (r := r) (f := f) hne H.length_eq hal hr h2
    refine ⟨o, i', ?_, b2, h3⟩
    show step r ms i u x = _
    rw [step, h1, ok_bind]
    simp only [b1, ok_bind]; rfl
  steps := by
    intro h i u xs hx hi
    obtain ⟨yss, i', h1, h2, h3⟩ := stepsAll_ok H u xs hx hi
    obtain ⟨T, T', hT, hT', hl, hz⟩ := incr_aligned hal h2
    have hml := H.length_eq
    have hyl : yss.length = ms.length := by rw [hl, hml]
    have hyne : yss ≠ [] := by
      rintro rfl
      exact hne (List.eq_nil_of_length_eq_zero hyl.symm)
    have hphi : phi f φs (h ++ xs) = phi f φs h ++ zipReduce f yss := by
      unfold phi
      rw [hz]
      exact zipReduce_append f (by simpa using hl.symm) hT hT'
    refine ⟨zipReduce f yss, i', ?_, hphi, h3⟩
    show steps r ms i false u xs = _
    rw [steps, h1, ok_bind]
    rcases Nat.eq_zero_or_pos T' with h0 | h0
    · have hnone : none ∈ yss.map optList := by
        cases yss with
        | nil => exact absurd rfl hyne
        | cons y yss =>
          have := hT' y (by simp)
          rw [h0] at this
          rw [List.eq_nil_of_length_eq_zero this]
          simp [optList]
      simp only [nonempty, allSome_eq_none hnone, ok_bind]
      rw [zipReduce_empties f (by intro c hc; rw [hT' c hc, h0])]
      rfl
    · have hsome : yss.map optList = yss.map some := by
        apply List.map_congr_left
        intro y hy
        have := hT' y hy
        cases y with
        | nil => simp at this; omega
        | cons a t => rfl
      rw [hsome]
      simp only [nonempty, allSome_some, hr.clip yss T' hyl hT', Except.map, ok_bind]
      rw [zipReduce_eq f hyne hT']
      cases T' with
      | zero => omega
      | succ n =>
        have : ∀ l : List Z, l ≠ [] → some l = optList l := by
          intro l hl; cases l with
          | nil => exact absurd rfl hl
          | cons a t => rfl
        rw [this _ (by simp)]; rfl
  fwd_state := by
    intro h i xs zs i' hi hf
    have hf' : fwd r ms i xs = .ok (zs, i') := hf
    rw [fwd] at hf'
    cases h1 : fwdAll ms i xs with
    | error e => rw [h1, err_bind] at hf'; cases hf'
    | ok p =>
      obtain ⟨yss, i1⟩ := p
      rw [h1, ok_bind] at hf'
      simp only at hf'
      cases h2 : r.clip yss with
      | error e => rw [h2, err_bind] at hf'; cases hf'
      | ok z =>
        rw [h2, ok_bind] at hf'
        cases hf'
        exact fwdAll_ok hi h1
  fwd_indep := by
    intro h i xs hi
    have e := fwdAll_indep H xs hi
    show (fwd r ms i xs).map _ = (fwd r ms (init ms) xs).map _
    rw [fwd, fwd]
    cases h1 : fwdAll ms i xs with
    | error er => rw [map_fst_err e h1]
    | ok p =>
      obtain ⟨y, i1⟩ := p
      obtain ⟨i0, h0⟩ := map_fst_ok e h1
      rw [h0, ok_bind, ok_bind]
      simp only
      cases r.clip y <;> rfl

/-! ### End padding -/

theorem fwdAll_cons_ok {m : CoMod (.stream X) (.stream Y)} {ms : List (CoMod (.stream X) (.stream Y))}
    {i : Inst (m :: ms)} {xs : List X} {yss i'} (h : fwdAll (m :: ms) i xs = .ok (yss, i')) :
    ∃ y i1 ys i2, m.fwd i.1 xs = .ok (y, i1) ∧ fwdAll ms i.2 xs = .ok (ys, i2) ∧ yss = y :: ys := by
  rw [fwdAll] at h
  cases h1 : m.fwd i.1 xs with
  | error e => rw [h1, err_bind] at h; cases h
  | ok p =>
    rw [h1, ok_bind] at h
    simp only at h
    cases h2 : fwdAll ms i.2 xs with
    | error e => rw [h2, err_bind] at h; cases h
    | ok q =>
      rw [h2, ok_bind] at h
      cases h
      exact ⟨p.1, p.2, q.1, q.2, rfl, rfl, rfl⟩

theorem fwd_ok {i : Inst ms} {xs : List X} {zs i'} (h : fwd r ms i xs = .ok (zs, i')) :
    ∃ yss, fwdAll ms i xs = .ok (yss, i') ∧ r.clip yss = .ok zs := by
  rw [fwd] at h
  cases h1 : fwdAll ms i xs with
  | error e => rw [h1, err_bind] at h; cases h
  | ok p =>
    obtain ⟨yss, i1⟩ := p
    rw [h1, ok_bind] at h
    simp only at h
    cases h2 : r.clip yss with
    | error e => rw [h2, err_bind] at h; cases h
    | ok z =>
      rw [h2, ok_bind] at h
      cases h
      exact ⟨yss, rfl, h2⟩

theorem fwdAll_length : ∀ {ms : List (CoMod (.stream X) (.stream Y))} {i : Inst ms} {xs : List X} {yss i'},
    fwdAll ms i xs = .ok (yss, i') → yss.length = ms.length := by
  intro ms
  induction ms with
  | nil => intro i xs yss i' h; cases h; rfl
  | cons m ms ih =>
    intro i xs yss i' h
    obtain ⟨y, i1, ys, i2, h1, h2, rfl⟩ := fwdAll_cons_ok h
    simp [ih h2]

theorem stepsAll_padClean (u : Bool) {xs : List X} (hx : xs ≠ []) :
    ∀ {ms : List (CoMod (.stream X) (.stream Y))}, (∀ m ∈ ms, PadClean m (Reach m)) →
    ∀ {i yss i0}, RelAll ms [] i → fwdAll ms (init ms) xs = .ok (yss, i0) →
    ∃ i', stepsAll ms i true u xs = .ok (yss.map optList, i') := by
  intro ms
  induction ms with
  | nil => intro _ i yss i0 _ h; cases h; exact ⟨i, rfl⟩
  | cons m ms ih =>
    intro H i yss i0 hr h
    obtain ⟨y, i1, ys, i2, h1, h2, rfl⟩ := fwdAll_cons_ok h
    obtain ⟨j1, k1⟩ := (H m (by simp)).eq u hr.1 hx h1
    obtain ⟨j2, k2⟩ := ih (fun m' hm' => H m' (by simp [hm'])) hr.2 h2
    refine ⟨(j1, j2), ?_⟩
    rw [stepsAll, k1, ok_bind]
    simp only [k2, ok_bind]; rfl

theorem optList_some {l : List Y} (h : l ≠ []) : optList l = some l := by
  cases l with
  | nil => exact absurd rfl h
  | cons a t => rfl

/-- The `nonempty` wrapper on end-padded parallel clips agrees with the reduction of `forward`. -/
theorem nonempty_clip (hs : r.Sound) {yss zs} (h : r.clip yss = .ok zs) :
    nonempty r.clip (yss.map optList) = .ok (optList zs) := by
  by_cases he : [] ∈ yss
  · have : none ∈ yss.map optList := List.mem_map.2 ⟨[], he, rfl⟩
    rw [nonempty, allSome_eq_none this, hs.empty h he]; rfl
  · have hne : ∀ c ∈ yss, c ≠ [] := fun c hc hc' => he (hc' ▸ hc)
    have : yss.map optList = yss.map some := List.map_congr_left fun c hc => optList_some (hne c hc)
    rw [nonempty, this, allSome_some, optList_some (hs.nonempty h hne)]
    simp only [h]; rfl

theorem padClean (hne : ms ≠ []) (hs : r.Sound) (H : ∀ m ∈ ms, PadClean m (Reach m)) :
    PadClean (mod r ms) (RelAll ms) where
  eq := by
    intro i xs zs i0 u hr hx hf
    obtain ⟨yss, h1, h2⟩ := fwd_ok hf
    obtain ⟨i', k1⟩ := stepsAll_padClean u hx H hr h1
    refine ⟨i', ?_⟩
    show steps r ms i true u xs = _
    rw [steps, k1, ok_bind]
    simp only [nonempty_clip hs h2, ok_bind]; rfl
  nil := by
    intro zs i0 hf
    obtain ⟨yss, h1, h2⟩ := fwd_ok hf
    refine hs.empty h2 ?_
    cases ms with
    | nil => exact absurd rfl hne
    | cons m ms =>
      obtain ⟨y, i1, ys, i2, k1, k2, rfl⟩ := fwdAll_cons_ok h1
      rw [(H m (by simp)).nil k1]; simp

/-- Forward passes of all members have equal length (whenever they are all accepted). -/
def FwdAligned (ms : List (CoMod (.stream X) (.stream Y))) : Prop :=
  ∀ m ∈ ms, ∀ m' ∈ ms, ∀ {xs ys ys' i i'}, m.fwd m.init xs = .ok (ys, i) →
    m'.fwd m'.init xs = .ok (ys', i') → ys.length = ys'.length

theorem fwdAll_mem : ∀ {ms : List (CoMod (.stream X) (.stream Y))} {xs : List X} {yss i'},
    fwdAll ms (init ms) xs = .ok (yss, i') → ∀ y ∈ yss, ∃ m ∈ ms, ∃ i, m.fwd m.init xs = .ok (y, i) := by
  intro ms
  induction ms with
  | nil => intro xs yss i' h; cases h; simp
  | cons m ms ih =>
    intro xs yss i' h y hy
    obtain ⟨y0, i1, ys, i2, h1, h2, rfl⟩ := fwdAll_cons_ok h
    rcases List.mem_cons.1 hy with rfl | hy
    · exact ⟨m, by simp, i1, h1⟩
    · obtain ⟨m', hm', i, hi⟩ := ih h2 y hy
      exact ⟨m', by simp [hm'], i, hi⟩

theorem fwdAligned_lengths (hfa : FwdAligned ms) {xs : List X} {yss i'}
    (h : fwdAll ms (init ms) xs = .ok (yss, i')) : ∃ T, ∀ y ∈ yss, y.length = T := by
  cases yss with
  | nil => exact ⟨0, by simp⟩
  | cons y0 ys =>
    refine ⟨y0.length, fun y hy => ?_⟩
    obtain ⟨m, hm, i, hi⟩ := fwdAll_mem h y hy
    obtain ⟨m', hm', j, hj⟩ := fwdAll_mem h y0 (by simp)
    exact hfa m hm m' hm' hi hj

theorem stepsAll_finish {xs : List X} (hx : xs ≠ []) :
    ∀ {ms : List (CoMod (.stream X) (.stream Y))} {φs : List (List X → List Y)},
    List.Forall₂ (fun m φ => PadRel m φ (Reach m)) ms φs →
    ∀ {h i yss i0}, RelAll ms h i → fwdAll ms (init ms) (h ++ xs) = .ok (yss, i0) →
    ∃ rests i', yss = List.zipWith (· ++ ·) (φs.map (· h)) rests ∧ rests.length = φs.length ∧
      stepsAll ms i true true xs = .ok (rests.map optList, i') := by
  intro ms φs H
  induction H with
  | nil => intro h i yss i0 _ hf; cases hf; exact ⟨[], i, rfl, rfl, rfl⟩
  | @cons m φ ms φs hm _ ih =>
    intro h i yss i0 hr hf
    obtain ⟨y, i1, ys, i2, h1, h2, rfl⟩ := fwdAll_cons_ok hf
    obtain ⟨rest, j1, k1, k2⟩ := hm.finish hr.1 hx h1
    obtain ⟨rests, j2, l1, l2, l3⟩ := ih hr.2 h2
    refine ⟨rest :: rests, (j1, j2), ?_, by simp [l2], ?_⟩
    · simp [k1, l1]
    · rw [stepsAll, k2, ok_bind]
      simp only [l3, ok_bind]; rfl

theorem zipWith_lengths {as bs : List (List Y)} (h : as.length = bs.length) {T U : Nat}
    (ha : ∀ a ∈ as, a.length = T) (hz : ∀ c ∈ List.zipWith (· ++ ·) as bs, c.length = U) :
    ∀ b ∈ bs, b.length = U - T := by
  intro b hb
  obtain ⟨k, hk, rfl⟩ := List.getElem_of_mem hb
  have h1 := ha as[k] (List.getElem_mem _)
  have h2 := hz ((List.zipWith (· ++ ·) as bs)[k]'(by simp; omega)) (List.getElem_mem _)
  rw [List.getElem_zipWith, List.length_append] at h2
  omega

theorem padRel (hne : ms ≠ []) (H : List.Forall₂ (fun m φ => PadRel m φ (Reach m)) ms φs)
    (HC : ∀ m ∈ ms, PadClean m (Reach m))
    (hal : Aligned φs) (hfa : FwdAligned ms) (hr : r.Lawful f ms.length) (hs : r.Sound) :
    PadRel (mod r ms) (phi f φs) (RelAll ms) where
  finish := by
    intro h i xs zs i0 hi hx hf
    obtain ⟨yss, h1, h2⟩ := fwd_ok hf
    obtain ⟨rests, i', k1, k2, k3⟩ := stepsAll_finish hx H hi h1
    obtain ⟨U, hU⟩ := fwdAligned_lengths hfa h1
    have hylen := fwdAll_length h1
    have hyne : yss ≠ [] := by
      rintro rfl
      exact hne (List.eq_nil_of_length_eq_zero hylen.symm)
    have hphi : ∃ T, ∀ a ∈ φs.map (· h), a.length = T := by
      cases φs with
      | nil => exact ⟨0, by simp⟩
      | cons φ φs =>
        refine ⟨(φ h).length, fun a ha => ?_⟩
        obtain ⟨ψ, hψ, rfl⟩ := List.mem_map.1 ha
        exact hal ψ hψ φ (by simp) h
    obtain ⟨T, hT⟩ := hphi
    have hlen : (φs.map (· h)).length = rests.length := by simp [k2]
    have hrest := zipWith_lengths hlen hT (k1 ▸ hU)
    have hzs : zs = zipReduce f yss := by
      have := hr.clip yss U hylen hU
      rw [h2] at this
      cases this
      rw [zipReduce_eq f hyne hU]
    have hrl : rests.length = ms.length := by rw [k2, ← H.length_eq]
    have hrne : rests ≠ [] := by
      rintro rfl
      exact hne (List.eq_nil_of_length_eq_zero hrl.symm)
    have hclip : r.clip rests = .ok (zipReduce f rests) := by
      rw [hr.clip rests (U - T) hrl hrest, zipReduce_eq f hrne hrest]
    refine ⟨zipReduce f rests, i', ?_, ?_⟩
    · rw [hzs, k1]
      exact zipReduce_append f hlen hT hrest
    · show steps r ms i true true xs = _
      rw [steps, k3, ok_bind]
      simp only [nonempty_clip hs hclip, ok_bind]; rfl
  clean_probe := fun hr0 hx hf => (padClean hne hs HC).eq false hr0 hx hf

theorem zipReduce_length (f : List Y → Z) {cs : List (List Y)} {c} (hc : c ∈ cs)
    (h : ∀ a ∈ cs, a.length = c.length) : (zipReduce f cs).length = c.length := by
  rw [zipReduce_eq f (List.ne_nil_of_mem hc) h]; simp

theorem sched {d s : Nat} {φ} (hφ : φ ∈ φs) (hal : Aligned φs) (hsch : Sched φ d s) :
    Sched (phi f φs) d s := by
  intro xs
  rw [← hsch xs]
  refine zipReduce_length f (List.mem_map.2 ⟨φ, hφ, rfl⟩) ?_
  intro a ha
  obtain ⟨ψ, hψ, rfl⟩ := List.mem_map.1 ha
  exact hal ψ hψ φ hφ xs

theorem aligned_of_sched {d s : Nat} (h : ∀ φ ∈ φs, Sched φ d s) : Aligned φs := by
  intro φ hφ ψ hψ xs
  rw [h φ hφ xs, h ψ hψ xs]

theorem flow {m φ} (hm : m ∈ ms) (hφ : φ ∈ φs) (hF : Flow m φ) (hal : Aligned φs)
    (hfa : FwdAligned ms) (hr : r.Lawful f ms.length) : Flow (mod r ms) (phi f φs) := by
  intro h xs zs i0 hx hf
  obtain ⟨yss, h1, h2⟩ := fwd_ok hf
  obtain ⟨U, hU⟩ := fwdAligned_lengths hfa h1
  have hylen := fwdAll_length h1
  have hzs : zs.length = U := by
    have := hr.clip yss U hylen hU
    rw [h2] at this
    cases this
    simp
  have hlen : (phi f φs h).length = (φ h).length := by
    refine zipReduce_length f (List.mem_map.2 ⟨φ, hφ, rfl⟩) ?_
    intro a ha
    obtain ⟨ψ, hψ, rfl⟩ := List.mem_map.1 ha
    exact hal ψ hψ φ hφ h
  have hmem : ∀ {ms : List (CoMod (.stream X) (.stream Y))} {xs : List X} {yss i'},
      fwdAll ms (init ms) xs = .ok (yss, i') → ∀ m ∈ ms, ∃ y ∈ yss, ∃ i, m.fwd m.init xs = .ok (y, i) := by
    intro ms
    induction ms with
    | nil => intro xs yss i' _ m hm; simp at hm
    | cons m0 ms ih =>
      intro xs yss i' h m hm
      obtain ⟨y0, i1, ys, i2, k1, k2, rfl⟩ := fwdAll_cons_ok h
      rcases List.mem_cons.1 hm with rfl | hm
      · exact ⟨y0, by simp, i1, k1⟩
      · obtain ⟨y, hy, i, hi⟩ := ih k2 m hm
        exact ⟨y, by simp [hy], i, hi⟩
  obtain ⟨y, hy, i, hi⟩ := hmem h1 m hm
  have := hF hx hi
  rw [hU y hy] at this
  omega

/-! ### Functional steps -/

theorem pstepAll_ok {ms : List (CoMod (.stream X) (.stream Y))} {φs : List (List X → List Y)}
    (H : List.Forall₂ PImplements ms φs) : ∃ P : List X → St ms → Prop, P [] (noneSt ms) ∧
    ∀ {h s} (x : X), P h s → ∃ os s', pstepAll ms x s = .ok (os, s') ∧
      List.Forall₂ (Emit h [x]) φs (os.map Option.toList) ∧ P (h ++ [x]) s' := by
  induction H with
  | nil => exact ⟨fun _ _ => True, trivial, fun x _ => ⟨[], (), rfl, .nil, trivial⟩⟩
  | @cons m φ ms φs hm _ ih =>
    obtain ⟨P1, p0, p1⟩ := hm
    obtain ⟨P2, q0, q1⟩ := ih
    refine ⟨fun h s => P1 h s.1 ∧ P2 h s.2, ⟨p0, q0⟩, ?_⟩
    intro h s x hs
    obtain ⟨o, s1, a1, a2, a3⟩ := p1 x hs.1
    obtain ⟨os, s2, b1, b2, b3⟩ := q1 x hs.2
    refine ⟨o :: os, (s1, s2), ?_, .cons a2 b2, ⟨a3, b3⟩⟩
    rw [pstepAll, a1, ok_bind]
    simp only [b1, ok_bind]; rfl

theorem pImplements (hne : ms ≠ []) (H : List.Forall₂ PImplements ms φs) (hal : Aligned φs)
    (hr : r.Lawful f ms.length) : PImplements (mod r ms) (phi f φs) := by
  obtain ⟨P, p0, p1⟩ := pstepAll_ok H
  refine ⟨fun h s => P h (s.getD (noneSt ms)), p0, ?_⟩
  intro h s x hs
  obtain ⟨os, s', a1, a2, a3⟩ := p1 x hs
  obtain ⟨o, b1, b2⟩ := frame_of_emit (r := r) (f := f) hne H.length_eq hal hr a2
  refine ⟨o, some s', ?_, b2, a3⟩
  show pstep r ms x s = _
  rw [pstep, a1, ok_bind]
  simp only [b1, ok_bind]; rfl

end BroadcastReduce

end CoInf
