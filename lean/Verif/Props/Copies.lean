/-
Copies of modules in the middle of a stream: C91.
-/
import Verif.Lemmas.Checkpoint
import Verif.Model.Copies
import Verif.Props.Heap

set_option autoImplicit false

namespace CoInf.Spec
open Heap
variable {X Y V : Type}

/-- What a user sees who performs the calls on the herd and looks at all results afterwards. -/
def herdSeen (L : HLeaf X Y V) (w : Herd L) (cs : List (HerdCall X)) : List (CallRes (.stream Y)) :=
  (herdCalls L w cs).1.map (look L (herdCalls L w cs).2.mem)

/-- Of the results of calls on several objects, those that belong to the `k`-th. -/
def resultsOf {R : Type} (k : Nat) (cs : List (Nat × Call (.stream X))) (rs : List R) : List R :=
  ((cs.zip rs).filter fun p => p.1.1 == k).map Prod.snd

/-- Of calls on several objects, those on the `k`-th. -/
def callsOn (k : Nat) (cs : List (Nat × Call (.stream X))) : List (Call (.stream X)) :=
  (cs.filter fun p => p.1 == k).map Prod.snd

end CoInf.Spec

namespace CoInf.Heap
open Spec
variable {X Y V : Type} {ip : Bool} {H : HLeaf X Y V} {L : Leaf X Y} {fwd : List X → Except Err (List Y)}
  {eI : List V × H.A → L.Inst} {eS : List V × H.A → L.St}

/-- Objects with immutable values. -/
structure VHerd (L : Leaf X Y) where
  names : List Nat
  vals : List L.Inst

/-- Calls on values. -/
def valCall (L : Leaf X Y) (fwd : List X → Except Err (List Y)) (v : VHerd L) :
    HerdCall X → Except Err (CallRes (.stream Y) × VHerd L)
  | .on k c => match v.names[k]? with
    | none => .error .index
    | some d => match v.vals[d]? with
      | none => .error .index
      | some i => match vcall L fwd ⟨i, []⟩ (ofCall c) with
        | .error e => .error e
        | .ok (r, w') => .ok (r, ⟨v.names, v.vals.set d w'.obj⟩)
  | .deep k => match v.names[k]? with
    | none => .error .index
    | some d => match v.vals[d]? with
      | none => .error .index
      | some i => .ok (.done, ⟨v.names ++ [v.vals.length], v.vals ++ [i]⟩)
  | .shallow k => match v.names[k]? with
    | none => .error .index
    | some d => .ok (.done, ⟨v.names ++ [d], v.vals⟩)

def valCalls (L : Leaf X Y) (fwd : List X → Except Err (List Y)) (v : VHerd L) :
    List (HerdCall X) → List (CallRes (.stream Y)) × VHerd L
  | [] => ([], v)
  | c :: cs => match valCall L fwd v c with
    | .error e => ([.raised e], v)
    | .ok (r, v') => (r :: (valCalls L fwd v' cs).1, (valCalls L fwd v' cs).2)

/-- The objects stand for values; no two share a buffer (if that matters). -/
structure HerdRel (ip : Bool) (eI : List V × H.A → L.Inst) (w : Herd H) (v : VHerd L) : Prop where
  names : w.names = v.names
  objs : List.Forall₂ (ObjRel eI w.mem) w.objs v.vals
  apart : ip = true → (w.objs.map Prod.fst).Nodup

/-- Everything but the buffers of the objects is unchanged. -/
def HerdKeeps (ip : Bool) {A : Type} (objs : List (Nat × A)) (h h' : Mem V) : Prop :=
  h.length ≤ h'.length ∧ ∀ q < h.length, (ip = false ∨ q ∉ objs.map Prod.fst) → read h' q = read h q

theorem objs_addr {w : Herd H} {v : VHerd L} (r : HerdRel ip eI w v) {q : Nat} (h : q ∈ w.objs.map Prod.fst) :
    q < w.mem.length := by
  obtain ⟨i, hi, rfl⟩ := List.mem_map.1 h
  obtain ⟨j, hj, hr⟩ := List.mem_iff_getElem.1 hi
  have := (List.forall₂_iff_get.1 r.objs).2 j hj (by rw [← r.objs.length_eq]; exact hj)
  simp only [List.get_eq_getElem, hr] at this
  exact this.1

/-- After a call on the `k`-th object. -/
theorem herd_on {w : Herd H} {v : VHerd L} (r : HerdRel ip eI w v) {k : Nat} {i : H.Inst} (hk : w.objs[k]? = some i)
    {i' : H.Inst} {h' : Mem V} {vi : L.Inst} (hr : ObjRel eI h' i' vi) (f : ObjFrame ip i w.mem i' h') :
    HerdRel ip eI (⟨w.names, w.objs.set k i', h'⟩ : Herd H) ⟨v.names, v.vals.set k vi⟩ ∧ HerdKeeps ip w.objs w.mem h' ∧
      (∀ q < w.mem.length, (ip = false ∨ q ∉ w.objs.map Prod.fst) → (ip = false ∨ q ∉ (w.objs.set k i').map Prod.fst)) := by
  have hkl : k < w.objs.length := by
    rw [List.getElem?_eq_some_iff] at hk
    exact hk.1
  have hki : w.objs[k] = i := by
    rw [List.getElem?_eq_some_iff] at hk
    exact hk.2
  have hlen := r.objs.length_eq
  have hne : ip = true → ∀ j (hj : j < w.objs.length), j ≠ k → w.objs[j].1 ≠ i.1 := by
    intro hip j hj hjk he
    have := r.apart hip
    rw [List.nodup_iff_injective_get] at this
    have hh : (⟨j, by simpa using hj⟩ : Fin (w.objs.map Prod.fst).length) = ⟨k, by simpa using hkl⟩ := by
      apply this
      simp [he, hki]
    exact hjk (by simpa using hh)
  have hmem : i.1 ∈ w.objs.map Prod.fst := List.mem_map.2 ⟨i, hki ▸ List.getElem_mem hkl, rfl⟩
  refine ⟨⟨r.names, ?_, ?_⟩, ⟨f.1, fun q hq hs => f.2.1 q hq ?_⟩, ?_⟩
  · rw [List.forall₂_iff_get]
    refine ⟨by simp [hlen], fun j h1 h2 => ?_⟩
    simp only [List.get_eq_getElem, List.getElem_set]
    by_cases hj : k = j
    · rw [if_pos hj, if_pos hj]; exact hr
    · rw [if_neg hj, if_neg hj]
      have hj1 : j < w.objs.length := by simpa using h1
      have := (List.forall₂_iff_get.1 r.objs).2 j hj1 (by omega)
      simp only [List.get_eq_getElem] at this
      refine ⟨Nat.lt_of_lt_of_le this.1 f.1, ?_⟩
      rw [f.2.1 _ this.1 ?_]
      · exact this.2
      · cases hip : ip with
        | false => exact .inl rfl
        | true => exact .inr (hne hip j hj1 (Ne.symm hj))
  · intro hip
    rw [List.map_set, List.nodup_iff_injective_get]
    intro a b hab
    simp only [List.get_eq_getElem, List.getElem_set, List.getElem_map] at hab
    have ha : a.1 < w.objs.length := by simpa using a.2
    have hb : b.1 < w.objs.length := by simpa using b.2
    have hi' : ∀ j (hj : j < w.objs.length), j ≠ k → w.objs[j].1 ≠ i'.1 := by
      intro j hj hjk he
      rcases f.2.2 with c | c
      · have : w.objs[j].1 < w.mem.length := objs_addr r (List.mem_map.2 ⟨_, List.getElem_mem hj, rfl⟩)
        omega
      · exact hne hip j hj hjk (by rw [he, c])
    apply Fin.ext
    by_cases h1 : k = a.1
    · by_cases h2 : k = b.1
      · omega
      · rw [if_pos h1, if_neg h2] at hab
        exact absurd hab.symm (hi' _ hb (Ne.symm h2))
    · by_cases h2 : k = b.1
      · rw [if_neg h1, if_pos h2] at hab
        exact absurd hab (hi' _ ha (Ne.symm h1))
      · rw [if_neg h1, if_neg h2] at hab
        have := r.apart hip
        rw [List.nodup_iff_injective_get] at this
        have hh : (⟨a.1, by simpa using ha⟩ : Fin (w.objs.map Prod.fst).length) = ⟨b.1, by simpa using hb⟩ := by
          apply this
          simpa using hab
        simpa using hh
  · rcases hs with hs | hs
    · exact .inl hs
    · exact .inr fun he => hs (he ▸ hmem)
  · intro q hq hs
    rcases hs with hs | hs
    · exact .inl hs
    · right
      intro hc
      rw [List.map_set] at hc
      rcases List.mem_or_eq_of_mem_set hc with hc | hc
      · exact hs hc
      · rcases f.2.2 with c | c
        · omega
        · exact hs (by rw [hc, c]; exact hmem)

/-- The result of a call on the `k`-th object stays what it is. -/
theorem herd_fresh {w : Herd H} {v : VHerd L} (r : HerdRel ip eI w v) {k : Nat} {i' : H.Inst} {h' h'' : Mem V} {a : Nat}
    (h1 : w.mem.length ≤ a) (h2 : a < h'.length) (h3 : i'.1 ≠ a) (hk : HerdKeeps ip (w.objs.set k i') h' h'') :
    read h'' a = read h' a := by
  refine hk.2 a h2 (.inr fun hc => ?_)
  rw [List.map_set] at hc
  rcases List.mem_or_eq_of_mem_set hc with hc | hc
  · have := objs_addr r hc
    omega
  · exact h3 hc.symm

theorem herd_spec (M : Models ip H L fwd eI eS) {w : Herd H} {v : VHerd L} (r : HerdRel ip eI w v) (c : HerdCall X) :
    match valCall L fwd v c with
    | .error e => herdCall H w c = .error e
    | .ok (o, v') => ∃ ho w', herdCall H w c = .ok (ho, w') ∧ HerdRel ip eI w' v' ∧ HerdKeeps ip w.objs w.mem w'.mem ∧
      (∀ q < w.mem.length, (ip = false ∨ q ∉ w.objs.map Prod.fst) → (ip = false ∨ q ∉ w'.objs.map Prod.fst)) ∧
      ∀ h', HerdKeeps ip w'.objs w'.mem h' → look H h' ho = o := by
  have hlen := r.objs.length_eq
  have lookup : ∀ k : Nat, (∃ i j, w.objs[k]? = some i ∧ v.vals[k]? = some j ∧ ObjRel eI w.mem i j) ∨
      (w.objs[k]? = none ∧ v.vals[k]? = none) := by
    intro k
    by_cases hk : k < w.objs.length
    · have := (List.forall₂_iff_get.1 r.objs).2 k hk (by omega)
      exact .inl ⟨_, _, List.getElem?_eq_getElem hk, List.getElem?_eq_getElem (by omega), this⟩
    · exact .inr ⟨List.getElem?_eq_none (by omega), List.getElem?_eq_none (by omega)⟩
  obtain ⟨wn, wo, wm⟩ := w
  obtain ⟨vn, vv⟩ := v
  obtain rfl : wn = vn := r.names
  cases c with
  | on n c =>
    simp only [valCall, herdCall]
    cases hn : wn[n]? with
    | none => rfl
    | some k =>
    rcases lookup k with ⟨i, j, e1, e2, ro⟩ | ⟨e1, e2⟩
    · simp only [e1, e2]
      cases c with
      | step u x =>
        have hs := step_spec M ro u x
        simp only [ofCall, vcall, hcall]
        cases hf : L.forwardStep j u x with
        | error e => rw [hf] at hs; simp only at hs; simp only [hs]
        | ok q =>
          obtain ⟨o, v'⟩ := q
          rw [hf] at hs
          obtain ⟨ov, i', h', k1, k2, k3, k4⟩ := hs
          simp only [k1]
          obtain ⟨g1, g2, g3⟩ := herd_on r e1 k2 k3
          refine ⟨.frame ov, _, rfl, g1, g2, g3, fun h'' hk => ?_⟩
          cases ov with
          | none => simp only at k4; subst k4; rfl
          | some w' =>
            obtain ⟨y, rfl, ⟨z, z1, z2⟩, z3, z4, z5⟩ := k4
            have e : View.read h'' w' = some z := by
              rw [← z1]
              unfold View.read
              rw [herd_fresh r z3 z4 (fun he => z5 (by rw [← he]; rfl)) hk]
            simp [look, e, z2]
      | steps p u xs =>
        have hs := steps_spec M ro p u xs
        simp only [ofCall, vcall, hcall]
        cases hf : L.forwardSteps j p u xs with
        | error e => rw [hf] at hs; simp only at hs; simp only [hs]
        | ok q =>
          obtain ⟨o, v'⟩ := q
          rw [hf] at hs
          obtain ⟨ov, i', h', k1, k2, k3, k4⟩ := hs
          simp only [k1]
          obtain ⟨g1, g2, g3⟩ := herd_on r e1 k2 k3
          refine ⟨.clip ov, _, rfl, g1, g2, g3, fun h'' hk => ?_⟩
          cases ov with
          | none => simp only at k4; subst k4; rfl
          | some a =>
            obtain ⟨y, rfl, z1, z3, z4, z5⟩ := k4
            simp only [look, Option.map_some]
            rw [herd_fresh r z3 z4 z5 hk, z1]
      | clean =>
        simp only [ofCall, vcall, hcall]
        have f : ObjFrame ip i wm (H.clean i wm).1 (H.clean i wm).2 :=
          ⟨by simp [HLeaf.clean, alloc], fun q hq _ => read_append_lt hq _, .inl (Nat.le_refl _)⟩
        obtain ⟨g1, g2, g3⟩ := herd_on r e1 (vi := L.clean j) ⟨by simp [HLeaf.clean, alloc], by
          rw [M.clean]
          simp only [HLeaf.clean, alloc, read_alloc]⟩ f
        exact ⟨.done, _, rfl, g1, g2, g3, fun _ _ => rfl⟩
      | fwd xs =>
        simp only [ofCall, vcall, hcall, M.fwd]
        cases hf : fwd xs with
        | error e => rfl
        | ok ys =>
          obtain ⟨g1, g2, g3⟩ := herd_on r e1 (i' := i) (vi := j) ro ⟨Nat.le_refl _, fun _ _ _ => rfl, .inr rfl⟩
          exact ⟨.whole ys, _, rfl, g1, g2, g3, fun _ _ => rfl⟩
    · simp only [e1, e2]
  | deep n =>
    simp only [valCall, herdCall]
    cases hn : wn[n]? with
    | none => rfl
    | some k =>
    rcases lookup k with ⟨i, j, e1, e2, ro⟩ | ⟨e1, e2⟩
    · simp only [e1, e2]
      have c1 : (H.clone i wm).1 = (wm.length, i.2) := rfl
      have c2 : (H.clone i wm).2 = wm ++ [read wm i.1] := rfl
      have c4 : ∀ q < wm.length, read (wm ++ [read wm i.1]) q = read wm q := fun q hq => read_append_lt hq _
      rw [c1, c2]
      refine ⟨.done, _, rfl, ⟨by simp only [hlen], ?_, ?_⟩, ⟨by simp, fun q hq _ => c4 q hq⟩, ?_, fun _ _ => rfl⟩
      · refine List.rel_append (r.objs.imp fun a b h => ⟨by
          have : a.1 < wm.length := h.1
          simp only [List.length_append, List.length_singleton]
          omega, (congrArg (fun z => eI (z, a.2)) (c4 _ h.1)).symm ▸ h.2⟩) (.cons ⟨by simp, ?_⟩ .nil)
        · simp only [read_alloc]; exact ro.2
      · intro hip
        rw [List.map_append, List.nodup_append]
        refine ⟨r.apart hip, by simp, ?_⟩
        intro a ha b hb
        have : a < wm.length := objs_addr r ha
        simp only [List.map_cons, List.map_nil, List.mem_singleton] at hb
        omega
      · intro q hq hs
        rcases hs with hs | hs
        · exact .inl hs
        · right
          simp only [List.map_append, List.mem_append, List.map_cons, List.map_nil, List.mem_singleton, not_or]
          exact ⟨hs, by omega⟩
    · simp only [e1, e2]
  | shallow n =>
    simp only [valCall, herdCall]
    cases hn : wn[n]? with
    | none => rfl
    | some k =>
      exact ⟨.done, _, rfl, ⟨rfl, r.objs, r.apart⟩, ⟨Nat.le_refl _, fun _ _ _ => rfl⟩, fun _ _ h => h, fun _ _ => rfl⟩

/-- Scripts: looking at all results at the end shows what independent values would have given. -/
theorem herd_run (M : Models ip H L fwd eI eS) : ∀ (cs : List (HerdCall X)) {w : Herd H} {v : VHerd L}, HerdRel ip eI w v →
    herdSeen H w cs = (valCalls L fwd v cs).1 ∧ HerdRel ip eI (herdCalls H w cs).2 (valCalls L fwd v cs).2 ∧
      HerdKeeps ip w.objs w.mem (herdCalls H w cs).2.mem := by
  intro cs
  induction cs with
  | nil => intro w v r; exact ⟨rfl, r, Nat.le_refl _, fun _ _ _ => rfl⟩
  | cons c cs ih =>
    intro w v r
    have hs := herd_spec M r c
    simp only [herdSeen, herdCalls, valCalls]
    cases hv : valCall L fwd v c with
    | error e =>
      rw [hv] at hs
      simp only at hs
      simp only [hs]
      exact ⟨rfl, r, Nat.le_refl _, fun _ _ _ => rfl⟩
    | ok p =>
      obtain ⟨o, v'⟩ := p
      rw [hv] at hs
      obtain ⟨ho, w', k1, k2, k3, k4, k5⟩ := hs
      simp only [k1]
      obtain ⟨i1, i2, i3⟩ := ih k2
      refine ⟨?_, i2, Nat.le_trans k3.1 i3.1, fun q hq hs => ?_⟩
      · rw [List.map_cons, k5 _ i3]
        exact congrArg _ i1
      · rw [i3.2 q (Nat.lt_of_lt_of_le hq k3.1) (k4 q hq hs), k3.2 q hq hs]

/-! ### Values -/

/-- Of calls on several objects, those on objects with dictionary `d`. -/
def callsTo (names : List Nat) (d : Nat) (cs : List (Nat × Call (.stream X))) : List (Call (.stream X)) :=
  (cs.filter fun p => names[p.1]? == some d).map Prod.snd

/-- Of their results, those of these calls. -/
def resultsTo {R : Type} (names : List Nat) (d : Nat) (cs : List (Nat × Call (.stream X))) (rs : List R) : List R :=
  ((cs.zip rs).filter fun p => names[p.1.1]? == some d).map Prod.snd

/-- Calls on several values: the results that belong to one of them are those of its own calls. -/
theorem val_mix : ∀ (mix : List (Nat × Call (.stream X))) (names : List Nat) (v : List L.Inst) (d : Nat) (i : L.Inst),
    v[d]? = some i →
    (∀ r ∈ (valCalls L fwd ⟨names, v⟩ (mix.map fun p => .on p.1 p.2)).1, ∀ e, r ≠ .raised e) →
    resultsTo names d mix (valCalls L fwd ⟨names, v⟩ (mix.map fun p => .on p.1 p.2)).1 =
      (vcalls L fwd ⟨i, []⟩ ((callsTo names d mix).map ofCall)).1
  | [], _, _, _, _, _, _ => rfl
  | (n, c) :: mix, names, v, d, i, hi, hf => by
    simp only [List.map_cons, valCalls] at hf ⊢
    cases hv : valCall L fwd ⟨names, v⟩ (.on n c) with
    | error e =>
      rw [hv] at hf
      exact absurd rfl (hf (.raised e) (by simp) e)
    | ok p =>
      obtain ⟨o, v'⟩ := p
      rw [hv] at hf
      simp only at hf ⊢
      simp only [valCall] at hv
      cases hn : names[n]? with
      | none => rw [hn] at hv; cases hv
      | some m =>
      rw [hn] at hv
      simp only at hv
      cases hm : v[m]? with
      | none => rw [hm] at hv; cases hv
      | some j =>
        rw [hm] at hv
        simp only at hv
        cases hc : vcall L fwd ⟨j, []⟩ (ofCall c) with
        | error e => rw [hc] at hv; cases hv
        | ok q =>
          obtain ⟨o', w'⟩ := q
          rw [hc] at hv
          simp only [Except.ok.injEq, Prod.mk.injEq] at hv
          obtain ⟨rfl, rfl⟩ := hv
          have hml : m < v.length := (List.getElem?_eq_some_iff.1 hm).1
          have hkept : w'.kept = [] := by
            cases c with
            | step u x =>
              simp only [ofCall, vcall] at hc
              split at hc <;> cases hc
              rfl
            | steps p u xs =>
              simp only [ofCall, vcall] at hc
              split at hc <;> cases hc
              rfl
            | clean => cases hc; rfl
            | fwd xs =>
              simp only [ofCall, vcall] at hc
              split at hc <;> cases hc
              rfl
          have hw' : w' = ⟨w'.obj, []⟩ := by rw [← hkept]
          by_cases hk : m = d
          · subst hk
            rw [hm] at hi
            cases hi
            have ih := val_mix mix names (v.set m w'.obj) m w'.obj (by rw [List.getElem?_set_self hml])
              (fun r hr => hf r (by simp [hr]))
            have hb : (names[n]? == some m) = true := by simp [hn]
            simp only [resultsTo, callsTo, List.zip_cons_cons, List.filter_cons, hb, if_true, List.map_cons, vcalls, hc] at ih ⊢
            rw [ih]
            rw [← hw']
          · have hk' : (names[n]? == some d) = false := by simp [hn, hk]
            have ih := val_mix mix names (v.set m w'.obj) d i (by rw [List.getElem?_set_ne hk]; exact hi)
              (fun r hr => hf r (by simp [hr]))
            simp only [resultsTo, callsTo, List.zip_cons_cons, List.filter_cons, hk', Bool.false_eq_true, if_false] at ih ⊢
            exact ih

theorem val_copies (i : L.Inst) : ∀ n : Nat,
    (valCalls L fwd ⟨[0], [i]⟩ (List.replicate n (.deep 0) : List (HerdCall X))).2 =
      ⟨List.range (n + 1), List.replicate (n + 1) i⟩ := by
  have go : ∀ n m : Nat, (valCalls L fwd ⟨List.range (m + 1), List.replicate (m + 1) i⟩
      (List.replicate n (.deep 0) : List (HerdCall X))).2 = ⟨List.range (m + n + 1), List.replicate (m + n + 1) i⟩ := by
    intro n
    induction n with
    | zero => intro m; rfl
    | succ n ih =>
      intro m
      rw [List.replicate_succ (n := n)]
      have e1 : (List.range (m + 1))[0]? = some 0 := by simp
      have e2 : (List.replicate (m + 1) i)[0]? = some i := by simp
      simp only [valCalls, valCall, e1, e2]
      rw [List.length_replicate, ← List.range_succ, ← List.replicate_succ', ih (m + 1), show m + 1 + n + 1 = m + (n + 1) + 1 from by omega]
  intro n
  have := go n 0
  rw [Nat.zero_add n] at this
  exact this

theorem val_aliases (i : L.Inst) : ∀ n : Nat,
    (valCalls L fwd ⟨[0], [i]⟩ (List.replicate n (.shallow 0) : List (HerdCall X))).2 = ⟨List.replicate (n + 1) 0, [i]⟩ := by
  have go : ∀ n m : Nat, (valCalls L fwd ⟨List.replicate (m + 1) 0, [i]⟩
      (List.replicate n (.shallow 0) : List (HerdCall X))).2 = ⟨List.replicate (m + n + 1) 0, [i]⟩ := by
    intro n
    induction n with
    | zero => intro m; rfl
    | succ n ih =>
      intro m
      rw [List.replicate_succ (n := n)]
      have e1 : (List.replicate (m + 1) 0)[0]? = some 0 := by simp
      simp only [valCalls, valCall, e1]
      rw [← List.replicate_succ', ih (m + 1), show m + 1 + n + 1 = m + (n + 1) + 1 from by omega]
  intro n
  have := go n 0
  rw [Nat.zero_add n] at this
  exact this

theorem herdCalls_raised_look (H : HLeaf X Y V) (w : Herd H) (cs : List (HerdCall X)) (hf : Fine (herdCalls H w cs).1) :
    ∀ r ∈ herdSeen H w cs, ∀ e, r ≠ .raised e := by
  intro r hr e he
  obtain ⟨h, hh, rfl⟩ := List.mem_map.1 hr
  cases h with
  | raised e' => exact hf _ hh e' rfl
  | frame o => cases he
  | clip o => cases he
  | done => cases he
  | whole ys => cases he

end CoInf.Heap

namespace CoInf
open Spec Heap
variable {X Y V : Type}

/-- **C91**, deep copies of a module: after any history, take any number of deep copies (in the middle of the stream) and then
call methods of the original and of the copies in any order, for any time.  Every one of them returns what the original would
have returned to the same calls, had there been no other object.  (For the modules in `C91_modules_partial`; the script is one
in which no call raises.) -/
theorem C91_deep_partial {ip : Bool} {H : HLeaf X Y V} {L : Leaf X Y} {fwd : List X → Except Err (List Y)}
    {eI : List V × H.A → L.Inst} {eS : List V × H.A → L.St} (M : Models ip H L fwd eI eS) (pre : List (Call (.stream X))) (n : Nat)
    (mix : List (Nat × Call (.stream X))) (k : Nat) (hk : k ≤ n) :
    let w := (hcalls H (World.new H) (pre.map ofCall)).2
    let herd := (herdCalls H ⟨[0], [w.obj], w.mem⟩ (List.replicate n (.deep 0))).2
    let script := mix.map fun p => HerdCall.on p.1 p.2
    Fine (herdCalls H herd script).1 →
    resultsOf k mix (herdSeen H herd script) = seenFrom H w ((callsOn k mix).map ofCall) := by
  intro w herd script hf
  obtain ⟨_, r, _⟩ := run_spec M (pre.map ofCall) (new_rel M) (allowed_ofCalls pre)
  have r0 : HerdRel ip eI (⟨[0], [w.obj], w.mem⟩ : Herd H) ⟨[0], [(vcalls L fwd ⟨L.init, []⟩ (pre.map ofCall)).2.obj]⟩ :=
    ⟨rfl, .cons r.obj .nil, fun _ => by simp⟩
  obtain ⟨_, r1, _⟩ := herd_run M (List.replicate n (.deep 0)) r0
  rw [val_copies _ n] at r1
  obtain ⟨s2, _, _⟩ := herd_run M script r1
  have hff := herdCalls_raised_look H herd script hf
  rw [s2] at hff ⊢
  have hv := val_mix mix (List.range (n + 1)) _ k (vcalls L fwd ⟨L.init, []⟩ (pre.map ofCall)).2.obj
    (by rw [List.getElem?_replicate, if_pos (by omega)]) hff
  have hname : ∀ m : Nat, ((List.range (n + 1))[m]? == some k) = (m == k) := by
    intro m
    by_cases hm : m < n + 1
    · simp [List.getElem?_range hm]
    · have : m ≠ k := by omega
      simp [List.getElem?_eq_none (l := List.range (n + 1)) (i := m) (by simp; omega), this]
  have e1 : resultsTo (List.range (n + 1)) k mix = resultsOf (R := CallRes (.stream Y)) k mix := by
    funext rs
    simp only [resultsTo, resultsOf, hname]
  have e2 : callsTo (List.range (n + 1)) k mix = callsOn k mix := by
    simp only [callsTo, callsOn, hname]
  rw [e1, e2] at hv
  exact hv.trans (seenFrom_obj M r.obj (callsOn k mix)).symm

/-- **C91 fails** for shallow copies: after any history and any number of `copy.copy(m)`, calls on the copies and on the original
in any order return what the original alone would have returned to all of these calls in turn: there is one stream. -/
theorem C91_shallow_refuted {ip : Bool} {H : HLeaf X Y V} {L : Leaf X Y} {fwd : List X → Except Err (List Y)}
    {eI : List V × H.A → L.Inst} {eS : List V × H.A → L.St} (M : Models ip H L fwd eI eS) (pre : List (Call (.stream X))) (n : Nat)
    (mix : List (Nat × Call (.stream X))) (hn : ∀ p ∈ mix, p.1 ≤ n) :
    let w := (hcalls H (World.new H) (pre.map ofCall)).2
    let herd := (herdCalls H ⟨[0], [w.obj], w.mem⟩ (List.replicate n (.shallow 0))).2
    let script := mix.map fun p => HerdCall.on p.1 p.2
    Fine (herdCalls H herd script).1 →
    herdSeen H herd script = seenFrom H w ((mix.map Prod.snd).map ofCall) := by
  intro w herd script hf
  obtain ⟨_, r, _⟩ := run_spec M (pre.map ofCall) (new_rel M) (allowed_ofCalls pre)
  have r0 : HerdRel ip eI (⟨[0], [w.obj], w.mem⟩ : Herd H) ⟨[0], [(vcalls L fwd ⟨L.init, []⟩ (pre.map ofCall)).2.obj]⟩ :=
    ⟨rfl, .cons r.obj .nil, fun _ => by simp⟩
  obtain ⟨_, r1, _⟩ := herd_run M (List.replicate n (.shallow 0)) r0
  rw [val_aliases _ n] at r1
  obtain ⟨s2, _, _⟩ := herd_run M script r1
  have hff := herdCalls_raised_look H herd script hf
  rw [s2] at hff ⊢
  have hv := val_mix mix (List.replicate (n + 1) 0) _ 0 (vcalls L fwd ⟨L.init, []⟩ (pre.map ofCall)).2.obj rfl hff
  have hname : ∀ m : Nat, m ≤ n → ((List.replicate (n + 1) 0)[m]? == some 0) = true := by
    intro m hm
    rw [List.getElem?_replicate, if_pos (by omega)]
    rfl
  have e2 : callsTo (List.replicate (n + 1) 0) 0 mix = mix.map Prod.snd := by
    unfold callsTo
    rw [List.filter_eq_self.2 fun p hp => hname _ (hn p hp)]
  have e1 : ∀ rs : List (CallRes (.stream Y)), rs.length = mix.length → resultsTo (List.replicate (n + 1) 0) 0 mix rs = rs := by
    intro rs hl
    unfold resultsTo
    rw [List.filter_eq_self.2 fun p hp => hname _ (hn p.1 (List.of_mem_zip hp).1)]
    exact List.map_snd_zip (by omega)
  have hlen : ∀ (mix : List (Nat × Call (.stream X))) (v : VHerd L),
      (∀ r ∈ (valCalls L fwd v (mix.map fun p => .on p.1 p.2)).1, ∀ e, r ≠ .raised e) →
      (valCalls L fwd v (mix.map fun p => .on p.1 p.2)).1.length = mix.length := by
    intro mix
    induction mix with
    | nil => intro v _; rfl
    | cons p mix ih =>
      intro v hf
      simp only [List.map_cons, valCalls] at hf ⊢
      cases hv : valCall L fwd v (.on p.1 p.2) with
      | error e =>
        rw [hv] at hf
        exact absurd rfl (hf (.raised e) (by simp) e)
      | ok q =>
        rw [hv] at hf
        simp only [List.length_cons]
        rw [ih q.2 fun r hr => hf r (by simp [hr])]
  rw [e1 _ (hlen mix _ hff), e2] at hv
  exact hv.trans (seenFrom_obj M r.obj (mix.map Prod.snd)).symm

/-- The modules to which `C91_deep_partial` and `C91_shallow_refuted` apply. -/
theorem C91_modules_partial :
    (∀ c : Delay.Cfg X, ∃ L fwd eI eS, Models true (Heap.delay c) L fwd eI eS) ∧
    (∀ c : Pool.Cfg X Y, ∃ L fwd eI eS, Models true (Heap.pool c) L fwd eI eS) ∧
    (∀ [Zero X] [AddCommMonoid Y] (c : Conv.Cfg X Y) (t : Bool), ∃ L fwd eI eS, Models (!t) (Heap.conv c t) L fwd eI eS) :=
  ⟨fun c => ⟨_, _, _, _, delay_models c⟩, fun c => ⟨_, _, _, _, pool_models c⟩,
    fun c t => ⟨_, _, _, _, conv_models c t⟩⟩

mutual
/-- A member of the network satisfies `p`. -/
def Heap.Copied.Has (p : Copied → Prop) : Copied → Prop
  | .box ms => p (.box ms) ∨ Heap.HasAny p ms
  | m => p m

def Heap.HasAny (p : Copied → Prop) : List Copied → Prop
  | [] => False
  | m :: ms => m.Has p ∨ Heap.HasAny p ms
end

mutual
theorem Heap.deepcopyNet_ok (m : Copied) :
    deepcopyNet m = .ok () ↔ ¬ m.Has fun q => q = .stepping ∨ q = .co true := by
  cases m with
  | co t => cases t <;> simp [deepcopyNet, Copied.Has]
  | stepping => simp [deepcopyNet, Copied.Has]
  | box ms =>
    have := Heap.deepcopyAll_ok ms
    simp [deepcopyNet, Copied.Has, this]

theorem Heap.deepcopyAll_ok (ms : List Copied) :
    deepcopyAll ms = .ok () ↔ ¬ HasAny (fun q => q = .stepping ∨ q = .co true) ms := by
  cases ms with
  | nil => simp [deepcopyAll, HasAny]
  | cons m ms =>
    have h1 := Heap.deepcopyNet_ok m
    have h2 := Heap.deepcopyAll_ok ms
    simp only [deepcopyAll, HasAny, not_or]
    cases hd : deepcopyNet m with
    | error e =>
      rw [hd] at h1
      simp only [reduceCtorEq, false_iff, not_not] at h1 ⊢
      exact fun h => h.1 h1
    | ok u =>
      rw [hd] at h1
      simp only [true_iff] at h1
      simp only [h2]
      exact ⟨fun h => ⟨h1, h⟩, fun h => h.2⟩
end

/-- **C91 fails** for networks: `copy.deepcopy` raises exactly if, at any depth, there is a module that `continual` mapped naively
(activation, normalisation, dropout: `forward_stepping`), or a member whose state hangs on the autograd graph. -/
theorem C91_network_refuted (m : Copied) :
    (∃ e, deepcopyNet m = .error e) ↔ m.Has fun q => q = .stepping ∨ q = .co true := by
  have h := Heap.deepcopyNet_ok m
  cases hd : deepcopyNet m with
  | error e =>
    rw [hd] at h
    simp only [reduceCtorEq, false_iff, not_not] at h
    exact ⟨fun _ => h, fun _ => ⟨e, rfl⟩⟩
  | ok u =>
    rw [hd] at h
    simp only [true_iff] at h
    exact ⟨fun he => absurd he.choose_spec (by simp), fun hc => absurd hc h⟩

example : deepcopyNet (.box [.co false, .box [.co false, .stepping]]) = .error .type ∧
    deepcopyNet (.box [.co false, .box [.co true, .co false]]) = .error .runtime ∧
    deepcopyNet (.box [.co false, .box [.co false, .co false]]) = .ok () := ⟨rfl, rfl, rfl⟩

/-- A stream, a deep copy, then frames for both in turn. -/
def exMixed : List (Nat × Call (.stream Int)) :=
  [(0, .step true 4), (1, .step true 40), (1, .step true 50), (0, .step true 5), (0, .steps false true [6, 7]), (1, .step true 60)]

example : herdSeen (Heap.pool exPool3) (herdCalls (Heap.pool exPool3) ⟨[0], [(hcalls (Heap.pool exPool3) (World.new _)
      [.steps false true [1, 2, 3]]).2.obj], (hcalls (Heap.pool exPool3) (World.new _) [.steps false true [1, 2, 3]]).2.mem⟩
      [.deep 0]).2 (exMixed.map fun p => HerdCall.on p.1 p.2) =
    [.frame (some 9), .frame (some 45), .frame (some 93), .frame (some 12), .clip (some [15, 18]), .frame (some 150)] ∧
  herdSeen (Heap.pool exPool3) (herdCalls (Heap.pool exPool3) ⟨[0], [(hcalls (Heap.pool exPool3) (World.new _)
      [.steps false true [1, 2, 3]]).2.obj], (hcalls (Heap.pool exPool3) (World.new _) [.steps false true [1, 2, 3]]).2.mem⟩
      [.shallow 0]).2 (exMixed.map fun p => HerdCall.on p.1 p.2) =
    [.frame (some 9), .frame (some 47), .frame (some 94), .frame (some 95), .clip (some [61, 18]), .frame (some 73)] :=
  ⟨rfl, rfl⟩

end CoInf
