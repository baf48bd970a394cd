/-
C75 for recurrent modules: frames of another batch size.
-/
import Verif.Model.ShapeRnn
import Verif.Props.Shape

set_option autoImplicit false

namespace CoInf
namespace Shape

/-- `P` holds of objects that refuse all frames of a size other than `n` without being changed. -/
structure Strict {X Y : Type} (M : EMod (List X) Y) (n : Nat) (P : M.Inst → Prop) : Prop where
  rej : ∀ i u x, P i → x.length ≠ n → ∃ e, M.step i u x = (.error e, i)
  keep : ∀ i u x, P i → x.length = n → P (M.step i u x).2
  start : ∀ x o, x.length = n → (M.step M.init true x).1 = .ok o → P (M.step M.init true x).2

/-- Networks that begin with a recurrent module, possibly after modules that map every entry on its own. -/
inductive RNet : {X Y : Type} → EMod (List X) Y → Prop
  | rnn {V S : Type} (c : CoInf.Rnn.Cfg V S) : RNet (Rnn.mod c)
  | seqL {X Y Z : Type} {A : EMod (List X) Y} (h : RNet A) (B : EMod Y Z) : RNet (seq A B)
  | seqR {X Y Z : Type} {B : EMod (List Y) Z} (f : X → Y) (h : RNet B) :
      RNet (seq (framewise fun (x : List X) => .ok (x.map f)) B)
  | parL {X Y Z : Type} (r : Y → Y → Except Err Z) {A : EMod (List X) Y} (h : RNet A) (B : EMod (List X) Y) : RNet (par r A B)
  | parR {X Y Z : Type} (r : List Y → List Y → Except Err Z) (f : X → Y) {B : EMod (List X) (List Y)} (h : RNet B) :
      RNet (par r (framewise fun (x : List X) => .ok (x.map f)) B)

theorem Rnn.rows_length {V S : Type} {c : CoInf.Rnn.Cfg V S} : ∀ {x : List V} {ss : List (List S)} {ys ss'}, ss.length = x.length →
    Rnn.rows c x ss = .ok (ys, ss') → ss'.length = x.length
  | [], ss, ys, ss', hl, h => by
    unfold Rnn.rows at h
    cases h
    rfl
  | x :: xs, [], _, _, hl, _ => by simp at hl
  | x :: xs, s :: ss, ys, ss', hl, h => by
    unfold Rnn.rows at h
    split at h
    · cases h
    · split at h
      · cases h
      · rename_i hr
        cases h
        simp [Rnn.rows_length (by simpa using hl) hr]

theorem Rnn.pstep_ok {V S : Type} {c : CoInf.Rnn.Cfg V S} {x : List V} {s : Option (List (List S))} {o ss}
    (h : Rnn.pstep c x s = .ok (o, ss)) : (∀ t, s = some t → t.length = x.length) ∧ ss.length = x.length := by
  unfold Rnn.pstep Rnn.torchForward at h
  by_cases hl : (s.getD (x.map fun _ => c.layers.map fun _ => c.zero)).length = x.length
  · simp only [ne_eq, hl, not_true, if_false] at h
    split at h
    · cases h
    · rename_i hr
      cases h
      refine ⟨fun t ht => ?_, Rnn.rows_length hl hr⟩
      subst ht
      exact hl
  · simp only [ne_eq, hl, not_false_eq_true, if_true] at h
    cases h

theorem Rnn.strict {V S : Type} (c : CoInf.Rnn.Cfg V S) (n : Nat) :
    Strict (Rnn.mod c) n fun i => ∃ ss, i = some ss ∧ ss.length = n where
  rej := by
    rintro i u x ⟨ss, rfl, hl⟩ hx
    show ∃ e, ((match Rnn.pstep c x (some ss) with
      | .error e => (.error e, some ss)
      | .ok (o, ss') => (.ok o, if u then some ss' else some ss)) : Except Err (Option (List V)) × Option (List (List S))) = (.error e, some ss)
    cases h : Rnn.pstep c x (some ss) with
    | error e => exact ⟨e, rfl⟩
    | ok r => exact absurd ((Rnn.pstep_ok (o := r.1) (ss := r.2) h).1 ss rfl) (by omega)
  keep := by
    rintro i u x ⟨ss, rfl, hl⟩ hx
    show ∃ t, ((match Rnn.pstep c x (some ss) with
      | .error e => (.error e, some ss)
      | .ok (o, ss') => (.ok o, if u then some ss' else some ss)) : Except Err (Option (List V)) × Option (List (List S))).2 = some t ∧ _
    cases h : Rnn.pstep c x (some ss) with
    | error e => exact ⟨ss, rfl, hl⟩
    | ok r =>
      have := (Rnn.pstep_ok (o := r.1) (ss := r.2) h).2
      cases u
      · exact ⟨ss, rfl, hl⟩
      · exact ⟨r.2, rfl, by omega⟩
  start := by
    intro x o hx h
    show ∃ t, ((match Rnn.pstep c x none with
      | .error e => (.error e, none)
      | .ok (o, ss') => (.ok o, if true then some ss' else none)) : Except Err (Option (List V)) × Option (List (List S))).2 = some t ∧ _
    cases hp : Rnn.pstep c x none with
    | error e =>
      simp only [Rnn.mod, hp] at h
      cases h
    | ok r => exact ⟨r.2, rfl, by rw [(Rnn.pstep_ok (o := r.1) (ss := r.2) hp).2, hx]⟩

theorem Strict.seqL {X Y Z : Type} {A : EMod (List X) Y} {n : Nat} {P : A.Inst → Prop} (h : Strict A n P) (B : EMod Y Z) :
    Strict (seq A B) n fun i => P i.1 where
  rej := fun i u x hi hn => by
    obtain ⟨e, he⟩ := h.rej i.1 u x hi hn
    refine ⟨e, ?_⟩
    simp only [seq, he]
    rfl
  keep := fun i u x hi hn => by
    have := h.keep i.1 u x hi hn
    simp only [seq]
    split <;> simp_all
  start := fun x o hn ho => by
    have := h.start x
    simp only [seq] at ho ⊢
    split at ho
    · cases ho
    · rename_i i1 heq
      rw [heq] at this
      simp only [heq]
      exact this none hn rfl
    · rename_i y i1 heq
      rw [heq] at this
      simp only [heq]
      exact this (some y) hn rfl

theorem Strict.seqR {X Y Z : Type} {B : EMod (List Y) Z} {n : Nat} {P : B.Inst → Prop} (h : Strict B n P) (f : X → Y) :
    Strict (seq (framewise fun x => .ok (x.map f)) B) n fun i => P i.2 where
  rej := fun i u x hi hn => by
    obtain ⟨e, he⟩ := h.rej i.2 u (x.map f) hi (by simpa using hn)
    refine ⟨e, ?_⟩
    simp only [seq, framewise, he]
    rfl
  keep := fun i u x hi hn => h.keep i.2 u (x.map f) hi (by simpa using hn)
  start := fun x o hn ho => h.start (x.map f) o (by simpa using hn) ho

theorem Strict.parL {X Y Z : Type} {A : EMod (List X) Y} {n : Nat} {P : A.Inst → Prop} (h : Strict A n P)
    (r : Y → Y → Except Err Z) (B : EMod (List X) Y) : Strict (par r A B) n fun i => P i.1 where
  rej := fun i u x hi hn => by
    obtain ⟨e, he⟩ := h.rej i.1 u x hi hn
    refine ⟨e, ?_⟩
    simp only [par, he]
    rfl
  keep := fun i u x hi hn => by
    have := h.keep i.1 u x hi hn
    simp only [par]
    split
    · simp_all
    · split
      · simp_all
      · split <;> simp_all
  start := fun x o hn ho => by
    have := h.start x
    simp only [par] at ho ⊢
    split at ho
    · cases ho
    · rename_i o1 i1 heq
      rw [heq] at this
      have := this o1 hn rfl
      split
      · exact this
      · split <;> exact this

theorem Strict.parR {X Y : Type} {Z : Type} {B : EMod (List X) (List Y)} {n : Nat} {P : B.Inst → Prop} (h : Strict B n P)
    (r : List Y → List Y → Except Err Z) (f : X → Y) :
    Strict (par r (framewise fun x => .ok (x.map f)) B) n fun i => P i.2 where
  rej := fun i u x hi hn => by
    obtain ⟨e, he⟩ := h.rej i.2 u x hi hn
    refine ⟨e, ?_⟩
    simp only [par, framewise, he]
    rfl
  keep := fun i u x hi hn => by
    have := h.keep i.2 u x hi hn
    simp only [par, framewise]
    split
    · simp_all
    · split <;> simp_all
  start := fun x o hn ho => by
    have := h.start x
    simp only [par, framewise] at ho ⊢
    split at ho
    · cases ho
    · rename_i o2 i2 heq
      rw [heq] at this
      have := this o2 hn rfl
      split <;> exact this

theorem RNet.strict {X Y : Type} {M : EMod (List X) Y} (h : RNet M) (n : Nat) : ∃ P, Strict M n P := by
  induction h with
  | rnn c => exact ⟨_, Rnn.strict c n⟩
  | seqL _ B ih => obtain ⟨P, h⟩ := ih; exact ⟨_, h.seqL B⟩
  | seqR f _ ih => obtain ⟨P, h⟩ := ih; exact ⟨_, h.seqR f⟩
  | parL r _ B ih => obtain ⟨P, h⟩ := ih; exact ⟨_, h.parL r B⟩
  | parR r f _ ih => obtain ⟨P, h⟩ := ih; exact ⟨_, h.parR r f⟩

theorem Strict.run {X Y : Type} {M : EMod (List X) Y} {n : Nat} {P : M.Inst → Prop} (h : Strict M n P) :
    ∀ (xs : List (List X)) (i : M.Inst), P i →
      good n xs (play M i xs) = play M i (xs.filter fun x => x.length = n) ∧
      ∀ r ∈ bad n xs (play M i xs), ∃ e, r = .error e := by
  intro xs
  induction xs with
  | nil => intro i _; exact ⟨rfl, by simp [bad]⟩
  | cons x xs ih =>
    intro i hi
    by_cases hx : x.length = n
    · obtain ⟨g, b⟩ := ih _ (h.keep i true x hi hx)
      have hf : (x :: xs).filter (fun x => decide (x.length = n)) = x :: xs.filter fun x => decide (x.length = n) := by
        simp [hx]
      rw [hf]
      simp only [good, bad, Shape.play, List.zip_cons_cons, List.filterMap_cons, if_pos hx] at g b ⊢
      exact ⟨by rw [g], b⟩
    · obtain ⟨e, he⟩ := h.rej i true x hi hx
      obtain ⟨g, b⟩ := ih i hi
      have hf : (x :: xs).filter (fun x => decide (x.length = n)) = xs.filter fun x => decide (x.length = n) := by
        simp [hx]
      rw [hf]
      simp only [good, bad, Shape.play, he, List.zip_cons_cons, List.filterMap_cons, if_neg hx] at g b ⊢
      refine ⟨g, fun r hr => ?_⟩
      rcases List.mem_cons.mp hr with rfl | hr
      · exact ⟨e, rfl⟩
      · exact b r hr

end Shape

open Shape

/-- **C75** for networks that begin with a recurrent module: once the first frame, of size `n`, has been accepted, every frame of a size other than
`n` raises an exception, frames of a single entry among them, and the results for the frames of size `n` are those obtained had
the others not been passed. -/
theorem C75_recurrent {X Y : Type} {M : EMod (List X) Y} (hM : RNet M) (x0 : List X) (o : Option Y)
    (h0 : (M.step M.init true x0).1 = .ok o) (xs : List (List X)) :
    good x0.length xs (play M (M.step M.init true x0).2 xs) =
        play M (M.step M.init true x0).2 (xs.filter fun x => x.length = x0.length) ∧
      ∀ r ∈ bad x0.length xs (play M (M.step M.init true x0).2 xs), ∃ e, r = .error e := by
  obtain ⟨P, h⟩ := hM.strict x0.length
  exact h.run xs _ (h.start x0 o rfl h0)

/-- The results of a recurrent module that is given the frames of a single entry. -/
def Spec.alone {V S : Type} (c : Rnn.Cfg V S) (i : Option (List S)) : List V → List (Except Err (Option V))
  | [] => []
  | x :: xs => match Rnn.forwardStep c i true x with
    | .error e => .error e :: Spec.alone c i xs
    | .ok (o, j) => .ok o :: Spec.alone c j xs

namespace Shape

theorem Rnn.stack_one {V S : Type} : ∀ (fs : List (CoInf.Rnn.Cell V S)) (ss : List S) (v : V), ss.length = fs.length →
    ∃ y ss', CoInf.Rnn.stack fs ss [v] = ([y], ss') ∧ ss'.length = fs.length
  | [], _, v, _ => ⟨v, [], rfl, rfl⟩
  | f :: fs, [], v, h => by simp at h
  | f :: fs, s :: ss, v, h => by
    obtain ⟨y, ss', h1, h2⟩ := Rnn.stack_one fs ss (f v s).1 (by simpa using h)
    exact ⟨y, (f v s).2 :: ss', by simp [CoInf.Rnn.stack, CoInf.Rnn.layer, h1], by simp [h2]⟩

theorem Rnn.torch_one {V S : Type} (c : CoInf.Rnn.Cfg V S) (s : List S) (v : V) (h : s.length = c.layers.length) :
    ∃ y s', CoInf.Rnn.torchForward c [v] (some s) = .ok ([y], s') ∧ s'.length = c.layers.length := by
  obtain ⟨y, s', h1, h2⟩ := Rnn.stack_one c.layers s v h
  exact ⟨y, s', by simp [CoInf.Rnn.torchForward, h, h1], h2⟩

theorem Rnn.rows_get {V S : Type} (c : CoInf.Rnn.Cfg V S) : ∀ (x : List V) (ss : List (List S)), ss.length = x.length →
    (∀ s ∈ ss, s.length = c.layers.length) → ∃ ys ss', Rnn.rows c x ss = .ok (ys, ss') ∧ ss'.length = x.length ∧
      (∀ s ∈ ss', s.length = c.layers.length) ∧ ∀ (b : Nat) v s, x[b]? = some v → ss[b]? = some s →
        ∃ y s', CoInf.Rnn.torchForward c [v] (some s) = .ok ([y], s') ∧ ys[b]? = some y ∧ ss'[b]? = some s'
  | [], ss, h, _ => by
    refine ⟨[], [], ?_, rfl, by simp, by simp⟩
    unfold Rnn.rows
    rfl
  | x :: xs, [], h, _ => by simp at h
  | x :: xs, s :: ss, h, hs => by
    obtain ⟨y, s', h1, h2⟩ := Rnn.torch_one c s x (hs s (by simp))
    obtain ⟨ys, ss', h3, h4, h5, h6⟩ := Rnn.rows_get c xs ss (by simpa using h) fun t ht => hs t (by simp [ht])
    refine ⟨y :: ys, s' :: ss', ?_, by simp [h4], ?_, ?_⟩
    · unfold Rnn.rows
      simp only [h1, h3, List.cons_append, List.nil_append]
    · intro t ht
      rcases List.mem_cons.1 ht with rfl | ht
      · exact h2
      · exact h5 t ht
    · intro b v t hv ht
      cases b with
      | zero =>
        cases hv
        cases ht
        exact ⟨y, s', h1, rfl, rfl⟩
      | succ b => exact h6 b v t hv ht

theorem Rnn.entries {V S : Type} (c : CoInf.Rnn.Cfg V S) {n : Nat} (b : Fin n) : ∀ (xs : List (Fin n → V)) (I : Option (List (List S)))
    (i : Option (List S)), (I = none ∧ i = none ∨ ∃ ss s, I = some ss ∧ ss.length = n ∧ (∀ s ∈ ss, s.length = c.layers.length) ∧
      ss[b.val]? = some s ∧ i = some s) →
    (play (Rnn.mod c) I (xs.map fun x => List.ofFn x)).map (fun r => r.map fun o => o.bind fun y => y[b.val]?) =
      Spec.alone c i (xs.map fun x => x b)
  | [], _, _, _ => rfl
  | x :: xs, I, i, hI => by
    obtain ⟨ss, s, e1, e2, e3, e4, e5⟩ : ∃ ss s, I.getD ((List.ofFn x).map fun _ => c.layers.map fun _ => c.zero) = ss ∧ ss.length = n ∧
        (∀ s ∈ ss, s.length = c.layers.length) ∧ ss[b.val]? = some s ∧ i.getD (c.layers.map fun _ => c.zero) = s := by
      rcases hI with ⟨rfl, rfl⟩ | ⟨ss, s, rfl, h1, h2, h3, rfl⟩
      · refine ⟨_, _, rfl, by simp, ?_, ?_, rfl⟩
        · intro s hs
          obtain ⟨_, _, rfl⟩ := List.mem_map.1 hs
          simp
        · simp [List.getElem?_ofFn]
      · exact ⟨ss, s, rfl, h1, h2, h3, rfl⟩
    obtain ⟨ys, ss', h1, h2, h3, h4⟩ := Rnn.rows_get c (List.ofFn x) ss (by simp [e2]) e3
    obtain ⟨y, s', h5, h6, h7⟩ := h4 b (x b) s (by simp [List.getElem?_ofFn]) e4
    have hp : Rnn.pstep c (List.ofFn x) I = .ok (some ys, ss') := by
      unfold Rnn.pstep Rnn.torchForward
      simp only [e1, e2, List.length_ofFn, ne_eq, not_true, if_false, h1]
    have hq : CoInf.Rnn.forwardStep c i true (x b) = .ok (some y, some s') := by
      have : CoInf.Rnn.torchForward c [x b] i = CoInf.Rnn.torchForward c [x b] (some s) := by
        simp only [CoInf.Rnn.torchForward, e5, Option.getD_some]
      unfold CoInf.Rnn.forwardStep CoInf.Rnn.pstep
      rw [this, h5]
      rfl
    have ih := Rnn.entries c b xs (some ss') (some s') (.inr ⟨ss', s', rfl, by simpa using h2, h3, h7, rfl⟩)
    simp only [List.map_cons, play, Spec.alone, hq]
    have hs : (Rnn.mod c).step I true (List.ofFn x) = (.ok (some ys), some ss') := by
      simp only [Rnn.mod, hp, if_true]
    rw [hs]
    rw [ih]
    simp only [Except.map, Option.bind_some, h6]

end Shape

/-- **C75** for recurrent modules: for frames of one size, every entry gets the results of a module of its own. -/
theorem C75_recurrent_entries {V S : Type} (c : Rnn.Cfg V S) {n : Nat} (b : Fin n) (xs : List (Fin n → V)) :
    (play (Shape.Rnn.mod c) (Shape.Rnn.mod c).init (xs.map fun x => List.ofFn x)).map (fun r => r.map fun o => o.bind fun y => y[b.val]?) =
      Spec.alone c none (xs.map fun x => x b) :=
  Shape.Rnn.entries c b xs none none (.inl ⟨rfl, rfl⟩)

/-- Two layers that add up, behind a frame-wise module; frames of two entries, of one, of three, of two. -/
example : RNet (seq (framewise fun (x : List Int) => .ok (x.map (· + 1)))
      (Shape.Rnn.mod (⟨[fun v s => (v + s, v + s), fun v s => (v * 10 + s, v)], 0⟩ : Rnn.Cfg Int Int))) ∧
    ((play (seq (framewise fun (x : List Int) => .ok (x.map (· + 1)))
      (Shape.Rnn.mod (⟨[fun v s => (v + s, v + s), fun v s => (v * 10 + s, v)], 0⟩ : Rnn.Cfg Int Int))) ((), none)
        [[1, 2], [3], [3, 4, 5], [3, 4]]).map fun r => match r with
          | .ok (some y) => some y
          | _ => none) = [some [20, 30], none, none, some [62, 83]] :=
  ⟨.seqR _ (.rnn _), by decide +kernel⟩

end CoInf
