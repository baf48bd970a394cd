/-
C41: the flat state of the exported model and the nested state of the module are the same thing.
-/
import Verif.Spec.Onnx
import Mathlib.Data.List.Nodup

set_option autoImplicit false

namespace CoInf.Onnx

open Spec

variable {T X : Type}

theorem flattenAll_ones (l : List T) : flattenAll (l.map .one) = l := by
  induction l with
  | nil => rfl
  | cons a l ih => simp [flattenAll, flatten, ih]

theorem ones_injective {l l' : List T} (h : l.map Nested.one = l'.map Nested.one) : l = l' := by
  have := congrArg flattenAll h
  simpa [flattenAll_ones] using this

mutual
theorem shapeList_spec (lst : List T) : (s : Shape) → (idx : Nat) → idx + s.total ≤ lst.length →
    Fits (shapeList lst s idx).1 s ∧ (shapeList lst s idx).2 = idx + s.total ∧
      flatten (shapeList lst s idx).1 = (lst.drop idx).take s.total
  | .num n, idx, h => by
    simp only [Shape.total] at h
    refine ⟨?_, rfl, ?_⟩
    · have := Fits.num ((lst.drop idx).take n)
      simp only [List.length_take, List.length_drop] at this
      rw [Nat.min_eq_left (by omega)] at this
      exact this
    · simp only [shapeList, flatten, flattenAll_ones, Shape.total]
  | .list ss, idx, h => by
    simp only [Shape.total] at h
    have ih := shapeLists_spec lst ss idx h
    exact ⟨.list ih.1, ih.2.1, ih.2.2⟩
theorem shapeLists_spec (lst : List T) : (ss : List Shape) → (idx : Nat) → idx + Shape.totalAll ss ≤ lst.length →
    FitsAll (shapeLists lst ss idx).1 ss ∧ (shapeLists lst ss idx).2 = idx + Shape.totalAll ss ∧
      flattenAll (shapeLists lst ss idx).1 = (lst.drop idx).take (Shape.totalAll ss)
  | [], idx, _ => ⟨.nil, by simp [shapeLists, Shape.totalAll], by simp [shapeLists, flattenAll, Shape.totalAll]⟩
  | s :: ss, idx, h => by
    simp only [Shape.totalAll] at h
    have h1 := shapeList_spec lst s idx (by omega)
    have h2 := shapeLists_spec lst ss (idx + s.total) (by omega)
    rw [← h1.2.1] at h2
    refine ⟨.cons h1.1 h2.1, ?_, ?_⟩
    · simp only [shapeLists, Shape.totalAll]
      rw [h2.2.1, h1.2.1]; omega
    · simp only [shapeLists, Shape.totalAll, flattenAll]
      rw [h2.2.2, h1.2.2, h1.2.1, List.take_add, List.drop_drop]
end

mutual
theorem fits_length : {v : Nested T} → {s : Shape} → Fits v s → (flatten v).length = s.total
  | _, _, .num l => by simp [flatten, flattenAll_ones, Shape.total]
  | _, _, .list h => by simpa [flatten, Shape.total] using fitsAll_length h
theorem fitsAll_length : {l : List (Nested T)} → {ss : List Shape} → FitsAll l ss →
    (flattenAll l).length = Shape.totalAll ss
  | _, _, .nil => rfl
  | _, _, .cons h hs => by simp [flattenAll, Shape.totalAll, fits_length h, fitsAll_length hs]
end

mutual
theorem fits_unique : {v w : Nested T} → {s : Shape} → Fits v s → Fits w s → flatten v = flatten w → v = w
  | _, _, .num n, hv, hw, h => by
    cases hv with
    | num l =>
      generalize hn : l.length = n at hw
      cases hw with
      | num l' =>
        simp only [flatten, flattenAll_ones] at h
        rw [h]
  | _, _, .list ss, hv, hw, h => by
    cases hv with
    | list hv =>
      cases hw with
      | list hw => rw [fitsAll_unique hv hw (by simpa [flatten] using h)]
theorem fitsAll_unique : {l k : List (Nested T)} → {ss : List Shape} → FitsAll l ss → FitsAll k ss →
    flattenAll l = flattenAll k → l = k
  | _, _, [], hl, hk, _ => by cases hl; cases hk; rfl
  | _, _, s :: ss, hl, hk, h => by
    cases hl with
    | cons h1 h2 =>
      cases hk with
      | cons k1 k2 =>
        simp only [flattenAll] at h
        have hlen := (fits_length h1).trans (fits_length k1).symm
        have := List.append_inj h hlen
        rw [fits_unique h1 k1 this.1, fitsAll_unique h2 k2 this.2]
end

theorem shapeList_flatten {v : Nested T} {s : Shape} (h : Fits v s) : shapeList (flatten v) s 0 = (v, s.total) := by
  have hs := shapeList_spec (flatten v) s 0 (by rw [fits_length h]; omega)
  have : (shapeList (flatten v) s 0).1 = v := by
    refine fits_unique hs.1 h ?_
    rw [hs.2.2, ← fits_length h]; simp
  exact Prod.ext this (by rw [hs.2.1]; simp)

theorem fits_one {v : Nested T} {n : Nat} (h : Fits v (.num n)) : ∃ l : List T, l.length = n ∧ v = .many (l.map .one) := by
  cases h with
  | num l => exact ⟨l, rfl, rfl⟩

mutual
theorem step_fits : (m : Mod X T) → Declared m → ∀ {x : X} {s s' : Nested T} {o : Option X}, Fits s m.shape →
    m.step x s = .ok (o, s') → Fits s' m.shape
  | .leaf n inds f, hd, x, s, s', o, hs, h => by
    cases hd with
    | leaf _ hf =>
      obtain ⟨l, hl, rfl⟩ := fits_one hs
      obtain ⟨l', hl', rfl⟩ := hf x l o s' hl h
      simp only [Mod.shape]
      rw [← hl']
      exact .num l'
  | .seq ms, hd, x, s, s', o, hs, h => by
    cases hd with
    | seq hd =>
      simp only [Mod.shape] at hs
      cases hs with
      | list hs =>
        simp only [Mod.step] at h
        split at h
        · rename_i o' ss' he
          cases h
          exact .list (seqSteps_fits ms hd hs he)
        · cases h
  | .reduce r ms, hd, x, s, s', o, hs, h => by
    cases hd with
    | reduce hd =>
      simp only [Mod.shape] at hs
      cases hs with
      | list hs =>
        simp only [Mod.step] at h
        split at h
        · cases h
        · rename_i os ss' he
          have := mapSteps_fits ms hd hs he
          split at h
          · split at h
            · cases h; exact .list this
            · cases h
          · cases h; exact .list this
  | .par get pack ms, hd, x, s, s', o, hs, h => by
    cases hd with
    | par hd =>
      simp only [Mod.shape] at hs
      cases hs with
      | list hs =>
        simp only [Mod.step] at h
        split at h
        · cases h
        · rename_i os ss' he
          cases h
          exact .list (mapSteps_fits ms hd hs he)
  | .cond p a b, hd, _, _, _, _, _, _ => by cases hd
theorem seqSteps_fits : (ms : List (Mod X T)) → DeclaredAll ms → ∀ {x : X} {ss ss' : List (Nested T)} {o : Option X},
    FitsAll ss (Mod.shapes ms) → Mod.seqSteps ms x ss = .ok (o, ss') → FitsAll ss' (Mod.shapes ms)
  | [], _, x, ss, ss', o, hs, h => by
    simp only [Mod.seqSteps] at h
    cases h
    exact hs
  | m :: ms, hd, x, ss, ss', o, hs, h => by
    cases hd with
    | cons hd hds =>
      simp only [Mod.shapes] at hs ⊢
      cases hs with
      | cons h1 h2 =>
        simp only [Mod.seqSteps, pop] at h
        split at h
        · cases h
        · rename_i s'' he
          cases h
          exact .cons (step_fits m hd h1 he) h2
        · rename_i y s'' he
          split at h
          · cases h
          · rename_i o' ss'' he'
            cases h
            exact .cons (step_fits m hd h1 he) (seqSteps_fits ms hds h2 he')
theorem mapSteps_fits : (ms : List (Mod X T)) → DeclaredAll ms → ∀ {inp : Nat → Except Err X} {i : Nat}
    {ss ss' : List (Nested T)} {os : List (Option X)},
    FitsAll ss (Mod.shapes ms) → Mod.mapSteps ms inp i ss = .ok (os, ss') → FitsAll ss' (Mod.shapes ms)
  | [], _, inp, i, ss, ss', o, hs, h => by
    simp only [Mod.mapSteps] at h
    cases h
    exact hs
  | m :: ms, hd, inp, i, ss, ss', o, hs, h => by
    cases hd with
    | cons hd hds =>
      simp only [Mod.shapes] at hs ⊢
      cases hs with
      | cons h1 h2 =>
        simp only [Mod.mapSteps, pop] at h
        split at h
        · cases h
        · split at h
          · cases h
          · rename_i o' s'' he
            split at h
            · cases h
            · rename_i os' ss'' he'
              cases h
              exact .cons (step_fits m hd h1 he) (mapSteps_fits ms hds h2 he')
end

theorem wrapper_flatten (m : Mod X T) (x : X) {s : Nested T} (hs : Fits s m.shape) :
    wrapper m x (flatten s) = (m.step x s).map fun p => (p.1, flatten p.2) := by
  simp only [wrapper, shapeList_flatten hs]
  cases m.step x s <;> rfl

mutual
theorem inds_fits : (m : Mod X T) → Declared m → Fits m.inds m.shape
  | .leaf n inds f, hd => by
    cases hd with
    | leaf hl _ => simp only [Mod.inds, Mod.shape]; rw [← hl]; exact .num inds
  | .seq ms, hd => by cases hd with | seq hd => exact .list (indss_fits ms hd)
  | .reduce r ms, hd => by cases hd with | reduce hd => exact .list (indss_fits ms hd)
  | .par get pack ms, hd => by cases hd with | par hd => exact .list (indss_fits ms hd)
  | .cond p a b, hd => by cases hd
theorem indss_fits : (ms : List (Mod X T)) → DeclaredAll ms → FitsAll (Mod.indss ms) (Mod.shapes ms)
  | [], _ => .nil
  | m :: ms, hd => by cases hd with | cons hd hds => exact .cons (inds_fits m hd) (indss_fits ms hds)
end

theorem loop_flatten (m : Mod X T) (hm : Declared m) : (xs : List X) → {s : Nested T} → Fits s m.shape →
    loop (wrapper m) xs (flatten s) = (loop m.step xs s).map fun p => (p.1, flatten p.2)
  | [], s, _ => rfl
  | x :: xs, s, hs => by
    simp only [loop, wrapper_flatten m x hs]
    cases h : m.step x s with
    | error e => rfl
    | ok p =>
      obtain ⟨o, s'⟩ := p
      simp only [Except.map]
      rw [loop_flatten m hm xs (step_fits m hm hs h)]
      cases loop m.step xs s' <;> rfl

theorem loop_fits (m : Mod X T) (hm : Declared m) : (xs : List X) → {s s' : Nested T} → {os : List (Option X)} →
    Fits s m.shape → loop m.step xs s = .ok (os, s') → Fits s' m.shape
  | [], s, s', os, hs, h => by cases h; exact hs
  | x :: xs, s, s', os, hs, h => by
    simp only [loop] at h
    split at h
    · cases h
    · rename_i he
      split at h
      · cases h
      · rename_i he'
        cases h
        exact loop_fits m hm xs (step_fits m hm hs he) he'

/-- C41: splitting a flat list of state tensors by a state shape and flattening again gives the list back, ... -/
theorem C41_flat_roundtrip (s : Shape) (states : List T) (h : states.length = s.total) :
    flatten (shapeList states s 0).1 = states ∧ (shapeList states s 0).2 = states.length ∧
      Fits (shapeList states s 0).1 s := by
  have := shapeList_spec states s 0 (by omega)
  refine ⟨?_, ?_, this.1⟩
  · rw [this.2.2, ← h]; simp
  · rw [this.2.1, h]; simp

/-- C41: ... flattening a nested state of that shape and splitting again gives the nested state back. -/
theorem C41_nested_roundtrip (s : Shape) (v : Nested T) (h : Fits v s) :
    (shapeList (flatten v) s 0).1 = v ∧ (flatten v).length = s.total :=
  ⟨by rw [shapeList_flatten h], fits_length h⟩

example : Fits (Nested.many [.many [.one 'a', .one 'b'], .many [.many [], .many [.one 'c']]])
    (.list [.num 2, .list [.num 0, .num 1]]) :=
  .list (.cons (.num ['a', 'b']) (.cons (.list (.cons (.num []) (.cons (.num ['c']) .nil))) .nil))

theorem nat_repr_injective {i j : Nat} (h : toString i = toString j) : i = j := by
  have h : i.repr = j.repr := h
  have := congrArg (fun s : String => Nat.ofDigitChars 10 s.toList 0) h
  simpa [Nat.toList_repr] using this

/-- C41: there is one input name and one output name per flat state tensor, and all these names differ. -/
theorem C41_names (s : Shape) (v : Nested T) (h : Fits v s) :
    (inputNames s).length = (flatten v).length ∧ (outputNames s).length = (flatten v).length ∧
      (inputNames s ++ outputNames s).Nodup := by
  refine ⟨by simp [inputNames, fits_length h], by simp [outputNames, inputNames, fits_length h], ?_⟩
  have hin : (inputNames s).Nodup := by
    refine List.Nodup.map ?_ List.nodup_range
    intro i j hij
    have := congrArg String.toList hij
    simp only [String.toList_append] at this
    exact nat_repr_injective (String.toList_injective (List.append_cancel_left this))
  refine List.Nodup.append hin (hin.map ?_) ?_
  · intro a b hab
    have := congrArg String.toList hab
    simp only [String.toList_append] at this
    exact String.toList_injective (List.append_cancel_left this)
  · intro a ha hb
    simp only [outputNames, inputNames, List.mem_map] at ha hb
    obtain ⟨i, _, rfl⟩ := ha
    obtain ⟨n, ⟨j, _, rfl⟩, hn⟩ := hb
    have := congrArg String.toList hn
    simp [String.toList_append] at this

/-- C41: for every nesting of `Sequential`, `BroadcastReduce` and `Parallel` over leaves that return as many tensors as they
declare, running the exported model frame by frame on flat states is running the functional step on nested states: same
outputs, same exceptions, the same next states, and always as many flat tensors as there are names. -/
theorem C41_wrapper_partial (m : Mod X T) (hm : Declared m) (xs : List X) (s : Nested T) (hs : Fits s m.shape) :
    loop (wrapper m) xs (flatten s) = (loop m.step xs s).map (fun p => (p.1, flatten p.2)) ∧
      ∀ os l, loop (wrapper m) xs (flatten s) = .ok (os, l) → l.length = (inputNames m.shape).length := by
  have h := loop_flatten m hm xs hs
  refine ⟨h, ?_⟩
  intro os l hl
  rw [h] at hl
  cases he : loop m.step xs s with
  | error e => rw [he] at hl; cases hl
  | ok p =>
    obtain ⟨os', s'⟩ := p
    rw [he] at hl
    simp only [Except.map] at hl
    cases hl
    rw [fits_length (loop_fits m hm xs hs he)]
    simp [inputNames]

/-- C41: a `Conditional` returns the tensors of the chosen branch only: whenever the other branch has a state, the exported
model returns fewer state tensors than it declares. -/
theorem C41_conditional_refuted (p : X → Bool) (a b : Mod X T) (ha : Declared a) (hb : Declared b) (x : X)
    (states l : List T) (o : Option X) (hs : states.length = (Mod.cond p a b).shape.total)
    (hpos : 0 < a.shape.total ∧ 0 < b.shape.total) (h : wrapper (.cond p a b) x states = .ok (o, l)) :
    l.length < (inputNames (Mod.cond p a b).shape).length := by
  have hf := (C41_flat_roundtrip _ states hs).2.2
  simp only [wrapper] at h
  generalize (shapeList states (Mod.cond p a b).shape 0).1 = v at h hf
  simp only [Mod.shape] at hf
  cases hf with
  | list hf =>
    cases hf with
    | cons h1 hf =>
      cases hf with
      | cons h2 hf =>
        cases hf
        simp only [inputNames, List.length_map, List.length_range, Mod.shape, Shape.total, Shape.totalAll]
        simp only [Mod.step] at h
        by_cases hp : p x = true
        · simp only [hp, if_true, List.getElem?_cons_zero] at h
          split at h
          · rename_i he
            cases h
            rw [fits_length (step_fits a ha h1 he)]
            omega
          · cases h
        · simp only [hp, List.getElem?_cons_succ, List.getElem?_cons_zero] at h
          split at h
          · rename_i he
            cases h
            rw [fits_length (step_fits b hb h2 he)]
            omega
          · cases h

theorem ofPstep_declared {S : Type} {f : X → Option S → Except Err (Option X × Option S)}
    {dec : List (Nested T) → Option S} {enc : S → List T} {n : Nat} {inds : List Bool} (hl : inds.length = n)
    (henc : ∀ s, (enc s).length = n) (hf : ∀ x s o r, f x (some s) = .ok (o, r) → r.isSome) :
    Declared (.leaf n inds (ofPstep f dec enc)) := by
  refine .leaf hl ?_
  intro x l o v _ h
  simp only [ofPstep] at h
  split at h
  · cases h
  · split at h
    · cases h
    · cases h; exact ⟨_, henc _, rfl⟩
    · rename_i he
      have := hf _ _ _ _ he
      simp at this

theorem ofStateless_declared {f : X → Except Err (Option X)} : Declared (T := T) (.leaf 0 [] (ofStateless f)) := by
  refine .leaf rfl ?_
  intro x l o v hl h
  simp only [ofStateless] at h
  split at h
  · cases h
  · cases h; exact ⟨l, hl, rfl⟩

/-- C41: the leaves do return as many tensors as they declare, with one flag per tensor. -/
theorem C41_leaves {Y : Type} [AddCommMonoid Y] : (∀ d : Delay.Cfg Y, Declared (delay d)) ∧
    (∀ n : Nat, Declared (skip (Y := Y) n)) ∧ (∀ c : Conv.Cfg Y Y, Declared (conv c)) ∧
      ∀ q : Pool.Cfg Y Y, Declared (pool q) := by
  refine ⟨fun d => ?_, fun n => ?_, fun c => ?_, fun q => ?_⟩
  · unfold delay
    split
    · exact ofStateless_declared
    · rename_i hd
      refine ofPstep_declared rfl (fun _ => rfl) ?_
      intro x s o r h
      simp only [Delay.pstep, if_neg hd, bind, Except.bind, pure, Except.pure] at h
      repeat' split at h
      all_goals (cases h <;> rfl)
  · refine ofPstep_declared rfl (fun _ => rfl) ?_
    intro x s o r h
    simp only [Skip.pstep] at h
    split at h <;> (cases h; rfl)
  · unfold conv
    split
    · exact ofStateless_declared
    · rename_i hd
      refine ofPstep_declared rfl (fun _ => rfl) ?_
      intro x s o r h
      simp only [Conv.pstep, if_neg hd, bind, Except.bind, pure, Except.pure] at h
      split at h
      · cases h
      · split at h
        · cases h
        · split at h
          · cases h
          · cases h; rfl
  · refine ofPstep_declared rfl (fun _ => rfl) ?_
    intro x s o r h
    simp only [Pool.pstep, bind, Except.bind, pure, Except.pure] at h
    repeat' split at h
    all_goals (cases h <;> rfl)

/-- `Sequential(Delay(2), BroadcastReduce(Skip(1), Delay(0)))`: three state tensors. -/
def exNet : Mod Nat (Tensor Nat) :=
  .seq [delay ⟨2, fun _ => 0, .off⟩, .reduce (fun l => .ok l.sum) [skip 1, delay ⟨0, id, .off⟩]]

theorem exNet_declared : Declared exNet :=
  .seq (.cons (C41_leaves.1 _) (.cons (.reduce (.cons (C41_leaves.2.1 _) (.cons (C41_leaves.1 _) .nil))) .nil))

example : ∃ s, Fits s exNet.shape ∧ (loop (wrapper exNet) [5, 6, 7, 8] (flatten s)).isOk ∧ (flatten s).length = 3 :=
  ⟨.many [.many [.one (.buf [0, 0]), .one (.idx (-2))], .many [.many [.one (.idx (-1))], .many []]],
    by
      have h : exNet.shape = .list [.num 2, .list [.num 1, .num 0]] := rfl
      rw [h]
      exact .list (.cons (.num [Tensor.buf [0, 0], .idx (-2)])
        (.cons (.list (.cons (.num [Tensor.idx (-1)]) (.cons (.num []) .nil))) .nil)),
    rfl, rfl⟩

/-- `Conditional(p, Delay(2), Skip(1))` has three state tensors and returns two or one. -/
example : ∃ states l : List (Tensor Nat), ∃ o,
    states.length = (Mod.cond (· == 0) (delay ⟨2, id, .off⟩) (skip 1)).shape.total ∧
      wrapper (.cond (· == 0) (delay ⟨2, id, .off⟩) (skip 1)) 7 states = .ok (o, l) :=
  ⟨[.buf [0, 0], .idx (-2), .idx (-1)], _, _, rfl, rfl⟩

mutual
theorem path_index : (s : Shape) → (p : List Nat) →
    (∃ i, ∀ {T : Type} (v : Nested T), Fits v s → i < s.total ∧ at? v p = (flatten v)[i]?) ∨
      ∀ {T : Type} (v : Nested T), Fits v s → at? v p = none
  | .num n, [] => .inr (by intro T v h; cases h; rfl)
  | .num n, i :: p => by
    by_cases h : i < n ∧ p = []
    · left
      refine ⟨i, ?_⟩
      intro T v hv
      cases hv with
      | num l =>
        obtain ⟨h1, rfl⟩ := h
        refine ⟨h1, ?_⟩
        simp [at?, flatten, flattenAll_ones, h1]
    · right
      intro T v hv
      cases hv with
      | num l =>
        simp only [at?, List.getElem?_map]
        by_cases h1 : i < l.length
        · have : p ≠ [] := fun e => h ⟨h1, e⟩
          simp only [List.getElem?_eq_getElem h1, Option.map_some]
          cases p with
          | nil => exact absurd rfl this
          | cons j p => rfl
        · simp [List.getElem?_eq_none (Nat.le_of_not_lt h1)]
  | .list ss, [] => .inr (by intro T v h; cases h; rfl)
  | .list ss, i :: p => by
    rcases paths_index ss i p with ⟨j, h⟩ | h
    · refine .inl ⟨j, ?_⟩
      intro T v hv
      cases hv with
      | list hv => exact h _ hv
    · refine .inr ?_
      intro T v hv
      cases hv with
      | list hv => exact h _ hv
theorem paths_index : (ss : List Shape) → (i : Nat) → (p : List Nat) →
    (∃ j, ∀ {T : Type} (l : List (Nested T)), FitsAll l ss → j < Shape.totalAll ss ∧ at? (.many l) (i :: p) = (flattenAll l)[j]?) ∨
      ∀ {T : Type} (l : List (Nested T)), FitsAll l ss → at? (.many l) (i :: p) = none
  | [], i, p => .inr (by intro T l h; cases h; simp [at?])
  | s :: ss, 0, p => by
    rcases path_index s p with ⟨j, h⟩ | h
    · refine .inl ⟨j, ?_⟩
      intro T l hl
      cases hl with
      | cons h1 h2 =>
        have := h _ h1
        refine ⟨by simp only [Shape.totalAll]; omega, ?_⟩
        simp only [at?, List.getElem?_cons_zero, flattenAll]
        rw [this.2, List.getElem?_append_left (by rw [fits_length h1]; exact this.1)]
    · refine .inr ?_
      intro T l hl
      cases hl with
      | cons h1 h2 => simpa [at?] using h _ h1
  | s :: ss, i + 1, p => by
    rcases paths_index ss i p with ⟨j, h⟩ | h
    · refine .inl ⟨s.total + j, ?_⟩
      intro T l hl
      cases hl with
      | cons h1 h2 =>
        have := h _ h2
        refine ⟨by simp only [Shape.totalAll]; omega, ?_⟩
        simp only [at?, List.getElem?_cons_succ, flattenAll] at this ⊢
        rw [this.2, List.getElem?_append_right (by rw [fits_length h1]; omega), fits_length h1]
        congr 1; omega
    · refine .inr ?_
      intro T l hl
      cases hl with
      | cons h1 h2 => simpa [at?] using h _ h2
end

/-- C41: names, flags and tensors line up: a place in the nested state has one number `i`; the tensor at that place is the
`i`-th flat tensor, its name is `s` followed by `i`, and that name is listed as having a dynamic batch axis exactly when the
flag at that place of `_dynamic_state_inds` is set. -/
theorem C41_dynamic (m : Mod X T) (hm : Declared m) (v : Nested T) (hv : Fits v m.shape) (p : List Nat) (t : T)
    (hp : at? v p = some t) :
    ∃ (i : Nat) (b : Bool), (flatten v)[i]? = some t ∧ (inputNames m.shape)[i]? = some ("s" ++ toString i) ∧ at? m.inds p = some b ∧
      (b = true ↔ "s" ++ toString i ∈ dynamicInputs m) := by
  rcases path_index m.shape p with ⟨i, h⟩ | h
  · have h1 := h v hv
    have h2 := h m.inds (inds_fits m hm)
    have hlen : i < (flatten m.inds).length := by rw [fits_length (inds_fits m hm)]; exact h1.1
    refine ⟨i, (flatten m.inds)[i], by rw [← h1.2, hp], ?_, by rw [h2.2, List.getElem?_eq_getElem hlen], ?_⟩
    · simp [inputNames, h1.1]
    · have hz : ∀ n b, (n, b) ∈ (inputNames m.shape).zip (flatten m.inds) ↔
          ∃ j : Nat, j < m.shape.total ∧ n = "s" ++ toString j ∧ (flatten m.inds)[j]? = some b := by
        intro n b
        rw [List.mem_iff_getElem?]
        constructor
        · rintro ⟨j, hj⟩
          rw [List.getElem?_zip_eq_some] at hj
          have hjl : j < m.shape.total := by
            have := (List.getElem?_eq_some_iff.1 hj.1).1
            simpa [inputNames] using this
          refine ⟨j, hjl, ?_, hj.2⟩
          have := hj.1
          simp [inputNames, hjl] at this
          exact this.symm
        · rintro ⟨j, hjl, rfl, hb⟩
          refine ⟨j, ?_⟩
          rw [List.getElem?_zip_eq_some]
          exact ⟨by simp [inputNames, hjl], hb⟩
      simp only [dynamicInputs, List.mem_filterMap]
      constructor
      · intro hb
        refine ⟨("s" ++ toString i, true), (hz _ _).2 ⟨i, h1.1, rfl, ?_⟩, rfl⟩
        rw [List.getElem?_eq_getElem hlen, hb]
      · rintro ⟨⟨n, b⟩, hmem, hn⟩
        cases b with
        | false => simp at hn
        | true =>
          simp only [if_true, Option.some.injEq] at hn
          obtain ⟨j, hj, hnj, hb⟩ := (hz _ _).1 hmem
          have : j = i := by
            have e := congrArg String.toList (hnj.symm.trans hn)
            simp only [String.toList_append] at e
            exact nat_repr_injective (String.toList_injective (List.append_cancel_left e))
          subst this
          rw [List.getElem?_eq_getElem hlen] at hb
          exact Option.some.inj hb
  · rw [h v hv] at hp
    cases hp

example : at? (Nested.many [.many [.one (Tensor.buf [0, 0]), .one (.idx (-2))], .many [.many [.one (.idx (-1))], .many []]])
    [1, 0, 0] = some (.idx (-1)) := rfl

end CoInf.Onnx
