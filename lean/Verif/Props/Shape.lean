/-
C75: a frame of another size.

A stream has frames of one shape.  A frame whose batch size (or the size of a preserved spatial axis) differs should be
refused with an exception, and, once the exception is caught, the stream should go on as if the frame had never been
passed.
-/
import Verif.Lemmas.ShapeRefine

set_option autoImplicit false

namespace CoInf

namespace Shape

/-- Networks in which a member with a buffer is reached by every frame, in its original size, before any other member is
updated: delays, convolutions with a temporal kernel and pooling modules; `Sequential`s and two-branch containers that
begin with one, possibly after modules that map every entry on its own. -/
inductive Net : {X Y : Type} → EMod (List X) Y → Prop
  | delay {X : Type} {d : Nat} (hd : 1 ≤ d) (fill : X → X) (sh : Shrink) : Net (Delay.mod d fill sh)
  | conv {X Y : Type} [Zero Y] [Add Y] {c : Conv.Cfg X Y} (hK : 2 ≤ c.K)
      (hc : ∀ x rows, c.conv x = .ok rows → rows.length = c.K ∧ ∀ r ∈ rows, r.length = x.length) : Net (Conv.mod c)
  | pool {X Y : Type} {c : Pool.Cfg X Y} (hc : ∀ x y, c.spatial x = .ok y → y.length = x.length) : Net (Pool.mod c)
  | seqL {X Y Z : Type} {A : EMod (List X) Y} (h : Net A) (B : EMod Y Z) : Net (seq A B)
  | seqR {X Y Z : Type} {B : EMod (List Y) Z} (f : X → Y) (h : Net B) :
      Net (seq (framewise fun (x : List X) => .ok (x.map f)) B)
  | parL {X Y Z : Type} (r : Y → Y → Except Err Z) {A : EMod (List X) Y} (h : Net A) (B : EMod (List X) Y) :
      Net (par r A B)
  | parR {X Y Z : Type} (r : List Y → List Y → Except Err Z) (f : X → Y) {B : EMod (List X) (List Y)} (h : Net B) :
      Net (par r (framewise fun (x : List X) => .ok (x.map f)) B)

theorem Net.guarded {X Y : Type} {M : EMod (List X) Y} (h : Net M) (n : Nat) : ∃ P, Guarded M n P := by
  induction h with
  | delay hd fill sh => exact ⟨_, Delay.guarded (by omega) fill sh n⟩
  | conv hK hc => exact ⟨_, Conv.guarded hK hc n⟩
  | pool hc => exact ⟨_, Pool.guarded hc n⟩
  | seqL _ B ih => obtain ⟨P, h⟩ := ih; exact ⟨_, h.seqL B⟩
  | seqR f _ ih => obtain ⟨P, h⟩ := ih; exact ⟨_, h.seqR f⟩
  | parL r _ B ih => obtain ⟨P, h⟩ := ih; exact ⟨_, h.parL r B⟩
  | parR r f _ ih => obtain ⟨P, h⟩ := ih; exact ⟨_, h.parR r f⟩

/-- Results that belong to the frames of size `n`. -/
def good {X Y : Type} (n : Nat) (xs : List (List X)) (rs : List Y) : List Y :=
  (xs.zip rs).filterMap fun p => if p.1.length = n then some p.2 else none

/-- Results that belong to the other frames. -/
def bad {X Y : Type} (n : Nat) (xs : List (List X)) (rs : List Y) : List Y :=
  (xs.zip rs).filterMap fun p => if p.1.length = n then none else some p.2

theorem Guarded.play {X Y : Type} {M : EMod (List X) Y} {n : Nat} {P : M.Inst → Prop} (h : Guarded M n P) :
    ∀ (xs : List (List X)) (i : M.Inst), P i → (∀ x ∈ xs, x.length = 1 → n = 1) →
      good n xs (play M i xs) = play M i (xs.filter fun x => x.length = n) ∧
      ∀ r ∈ bad n xs (play M i xs), ∃ e, r = .error e := by
  intro xs
  induction xs with
  | nil => intro i _ _; exact ⟨rfl, by simp [bad]⟩
  | cons x xs ih =>
    intro i hi h1
    have ht := fun y hy => h1 y (List.mem_cons_of_mem _ hy)
    by_cases hx : x.length = n
    · obtain ⟨g, b⟩ := ih _ (h.keep i true x hi hx) ht
      have hf : (x :: xs).filter (fun x => decide (x.length = n)) = x :: xs.filter fun x => decide (x.length = n) := by
        simp [hx]
      rw [hf]
      simp only [good, bad, Shape.play, List.zip_cons_cons, List.filterMap_cons, if_pos hx] at g b ⊢
      exact ⟨by rw [g], b⟩
    · have hx1 : x.length ≠ 1 := fun h' => hx (h'.trans (h1 x (by simp) h').symm)
      obtain ⟨e, he⟩ := h.rej i true x hi hx hx1
      obtain ⟨g, b⟩ := ih i hi ht
      have hf : (x :: xs).filter (fun x => decide (x.length = n)) = xs.filter fun x => decide (x.length = n) := by
        simp [hx]
      rw [hf]
      simp only [good, bad, Shape.play, he, List.zip_cons_cons, List.filterMap_cons, if_neg hx] at g b ⊢
      refine ⟨g, fun r hr => ?_⟩
      rcases List.mem_cons.mp hr with rfl | hr
      · exact ⟨e, rfl⟩
      · exact b r hr

end Shape

open Shape

/-- **C75** (refused).  Once the first frame, of size `n`, has been accepted, every frame of a size other than `n` raises
an exception, and the results for the frames of size `n` are those obtained had the others not been passed.  (Frames of
a single entry are excluded unless `n = 1`, see `C75_single_entry_refuted`; for the first frame see
`C75_first_frame_refuted`.) -/
theorem C75_bad_frames_partial {X Y : Type} {M : EMod (List X) Y} (hM : Net M) (x0 : List X) (o : Option Y)
    (h0 : (M.step M.init true x0).1 = .ok o) (xs : List (List X)) (h1 : ∀ x ∈ xs, x.length = 1 → x0.length = 1) :
    good x0.length xs (play M (M.step M.init true x0).2 xs) =
        play M (M.step M.init true x0).2 (xs.filter fun x => x.length = x0.length) ∧
      ∀ r ∈ bad x0.length xs (play M (M.step M.init true x0).2 xs), ∃ e, r = .error e := by
  obtain ⟨P, h⟩ := hM.guarded x0.length
  exact h.play xs _ (h.start x0 o rfl h0) h1

namespace Shape

/-- The results of `forward_step`, frame by frame, exceptions caught: the object stays as it was if one is raised. -/
def Leaf.play {X Y : Type} (L : Leaf X Y) (i : L.Inst) : List X → List (Except Err (Option Y))
  | [] => []
  | x :: xs => match L.forwardStep i true x with
    | .error e => .error e :: Leaf.play L i xs
    | .ok (o, i') => .ok o :: Leaf.play L i' xs

/-- A module of this model and the one of the other models that handles frames of `n` entries. -/
inductive Same {n : Nat} : {X Y : Type} → EMod (List X) (List Y) → Leaf (Fin n → X) (Fin n → Y) → Prop
  | delay {X : Type} (d : Nat) (fill : X → X) (sh : Shrink) :
      Same (Delay.mod d fill sh) (CoInf.Delay.leaf { d := d, fill := fun (x : Fin n → X) b => fill (x b), shrink := sh })
  | conv {X Y : Type} [Zero X] [AddMonoid Y] (K S P : Nat) (fill padMode : Fill) (w : Nat → X → Y) (bias : Option Y) :
      Same (Conv.mod ⟨K, S, P, fill, Conv.entrywise K w, bias⟩)
        (CoInf.Conv.leaf (X := Fin n → X) (Y := Fin n → Y)
          ⟨K, S, P, fill, padMode, fun k x j => w k (x j), bias.map fun b _ => b⟩)
  | pool {X Y : Type} {c : Pool.Cfg X Y} {b : CoInf.Pool.Cfg (Fin n → X) (Fin n → Y)} (h : Pool.Agree c b) :
      Same (Pool.mod c) (CoInf.Pool.leaf b)

theorem Refines.play {X Y : Type} {n : Nat} {M : EMod (List X) (List Y)} {L : Leaf (Fin n → X) (Fin n → Y)}
    {π : L.Inst → M.Inst} {I : L.Inst → Prop} (h : Refines M L π I) (xs : List (Fin n → X)) :
    ∀ i, I i → play M (π i) (xs.map fun x => List.ofFn x) =
      (Leaf.play L i xs).map fun r => r.map fun o => o.map fun y => List.ofFn y := by
  induction xs with
  | nil => intro i _; rfl
  | cons x xs ih =>
    intro i hi
    obtain ⟨h1, h2⟩ := h.step i true x hi
    simp only [List.map_cons, Shape.play, Leaf.play]
    cases hf : L.forwardStep i true x with
    | error e =>
      rw [h1 e hf, ih i hi]
      rfl
    | ok p =>
      obtain ⟨o, i'⟩ := p
      obtain ⟨hi', hs⟩ := h2 o i' hf
      rw [hs, ih i' hi']
      rfl

end Shape

/-- **C75** (one size).  For frames of one size `n`, delays, convolutions of every entry and pooling modules give the
results of the modules of the other models, whose frames have type `Fin n → X`. -/
theorem C75_one_size {X Y : Type} {n : Nat} {M : EMod (List X) (List Y)} {L : Leaf (Fin n → X) (Fin n → Y)}
    (h : Same M L) (xs : List (Fin n → X)) :
    play M M.init (xs.map fun x => List.ofFn x) =
      (Leaf.play L L.init xs).map fun r => r.map fun o => o.map fun y => List.ofFn y := by
  have : ∃ π I, Refines M L π I := by
    cases h with
    | delay d fill sh => exact ⟨_, _, Delay.refines d fill sh⟩
    | conv K S P fill padMode w bias => exact ⟨_, _, Conv.refines K S P fill padMode w bias⟩
    | pool h => exact ⟨_, _, Pool.refines h⟩
  obtain ⟨π, I, h⟩ := this
  rw [h.init]
  exact h.play xs _ h.inv

/-! ### Frames of a single entry -/

namespace Shape

theorem play_append {X Y : Type} (M : EMod X Y) (xs ys : List X) : ∀ i : M.Inst,
    play M i (xs ++ ys) = play M i xs ++ play M (xs.foldl (fun j x => (M.step j true x).2) i) ys := by
  induction xs with
  | nil => intro i; rfl
  | cons x xs ih => intro i; simp only [List.cons_append, play, ih, List.foldl_cons]

/-- A running object does not distinguish a frame of one entry from `n` copies of it. -/
def Repeats {X Y : Type} (M : EMod (List X) Y) (n : Nat) (P : M.Inst → Prop) : Prop :=
  ∀ i u a, P i → M.step i u [a] = M.step i u (List.replicate n a)

theorem Guarded.after {X Y : Type} {M : EMod (List X) Y} {n : Nat} {P : M.Inst → Prop} (h : Guarded M n P) (x0 : List X)
    (o : Option Y) (h0 : (M.step M.init true x0).1 = .ok o) (hx : x0.length = n) :
    ∀ xs : List (List X), (∀ x ∈ xs, x.length = n) → P (xs.foldl (fun j x => (M.step j true x).2) (M.step M.init true x0).2) := by
  suffices H : ∀ (xs : List (List X)) i, P i → (∀ x ∈ xs, x.length = n) →
      P (xs.foldl (fun j x => (M.step j true x).2) i) from fun xs hxs => H xs _ (h.start x0 o hx h0) hxs
  intro xs
  induction xs with
  | nil => intro i hi _; exact hi
  | cons x xs ih =>
    intro i hi hl
    exact ih _ (h.keep i true x hi (hl x (by simp))) fun y hy => hl y (List.mem_cons_of_mem _ hy)

theorem Delay.repeats {X : Type} (d : Nat) (hd : d ≠ 0) (fill : X → X) (sh : Shrink) (n : Nat) :
    Repeats (Delay.mod d fill sh) n (Delay.Running d n) := by
  intro i u a hi
  have hg : Delay.get i = some i := if_pos (by have := hi.1; omega)
  have : Delay.pstep d fill sh [a] (some i) = Delay.pstep d fill sh (List.replicate n a) (some i) := by
    simp only [Delay.pstep, if_neg hd, Delay.run, setRow_one hi.2]
  simp only [Delay.mod, ofStep, hg, this]

theorem Pool.repeats {X Y : Type} {c : Pool.Cfg X Y} {g : X → Y} (hc : ∀ x, c.spatial x = .ok (x.map g)) (n : Nat) :
    Repeats (Pool.mod c) n (Pool.Running n) := by
  intro i u a hi
  have hg : Pool.get i = some i := if_pos hi.1
  have : Pool.pstep c [a] (some i) = Pool.pstep c (List.replicate n a) (some i) := by
    simp only [Pool.pstep, hc, Pool.run, List.map_cons, List.map_nil, List.map_replicate, setRow_one hi.2]
  simp only [Pool.mod, ofStep, hg, this]

theorem bcast2_one {Y : Type} (op : Y → Y → Y) (a : Y) (b : List Y) :
    bcast2 op [a] b = bcast2 op (List.replicate b.length a) b := by
  unfold bcast2
  have : List.zipWith op (List.replicate b.length a) b = b.map fun y => op a y := by
    induction b with
    | nil => rfl
    | cons y b ih => simp [List.replicate_succ, ih]
  split
  · rename_i h
    simp at h
    rw [if_pos (by simp), ← h]
    rfl
  · rw [if_pos (by simp), this]

theorem bcast2_length {Y : Type} {op : Y → Y → Y} {a b c : List Y} (h : bcast2 op a b = .ok c) (hl : a.length = b.length) :
    c.length = a.length := by
  unfold bcast2 at h
  rw [if_pos hl] at h
  cases h
  simp [hl]

theorem Conv.repeats {X Y : Type} [Zero Y] [Add Y] {K S P : Nat} {fill : Fill} {w : Nat → X → Y} {bias : Option Y}
    (hK : 2 ≤ K) (n : Nat) :
    Repeats (Conv.mod ⟨K, S, P, fill, Conv.entrywise K w, bias⟩) n
      (Conv.Running ⟨K, S, P, fill, Conv.entrywise K w, bias⟩ n) := by
  intro i u a hi
  have hg : Conv.get i = some i := if_pos hi.1
  have hst : ¬ (K = 1 ∧ P = 0 ∧ S = 1) := by omega
  obtain ⟨hpos, hb⟩ := hi
  have hrow : ∀ x : List X, pyGet ((List.range K).map fun j => x.map (w (K - 1 - j))) 0 = .ok (x.map (w (K - 1))) := by
    intro x
    rw [show (0 : Int) = ((0 : Nat) : Int) from rfl]
    apply pyGet_ofNat
    rw [List.getElem?_map, List.getElem?_range (by omega)]
    simp
  have hsum : ∀ ps : List (List Y), ps ≠ [] → (∀ p ∈ ps, p.length = n) → ∀ y : Y,
      Conv.addSum [y] ps = Conv.addSum (List.replicate n y) ps := by
    intro ps hne hl y
    cases ps with
    | nil => exact absurd rfl hne
    | cons p ps =>
      have hfold : ∀ (ps : List (List Y)) (p : List Y), p.length = n → (∀ q ∈ ps, q.length = n) →
          ∀ s, ps.foldlM (bcast2 (· + ·)) p = .ok s → s.length = n := by
        intro ps
        induction ps with
        | nil => intro p hp _ s hs; cases hs; exact hp
        | cons q ps ih =>
          intro p hp hq s hs
          rw [List.foldlM_cons] at hs
          cases hb : bcast2 (· + ·) p q with
          | error e => rw [hb] at hs; cases hs
          | ok r =>
            rw [hb] at hs
            refine ih r ?_ (fun q' hq' => hq q' (by simp [hq'])) s hs
            rw [bcast2_length hb (by rw [hp, hq q (by simp)]), hp]
      simp only [Conv.addSum]
      cases hf : ps.foldlM (bcast2 (· + ·)) p with
      | error e => rfl
      | ok s =>
        have := hfold ps p (hl p (by simp)) (fun q hq => hl q (by simp [hq])) s hf
        simp only
        rw [bcast2_one, this]
  have hpick : ∀ ps, Conv.pick i (K - 1) = .ok ps → ps ≠ [] ∧ ∀ p ∈ ps, p.length = n := by
    intro ps hps
    obtain ⟨h1, h2⟩ := Conv.mapM_mem (P := fun p : List Y => p.length = n) hps fun j _ p hp => by
      cases hr : pyGet i.buffer (((j : Int) + i.index) % (K - 1 : Nat)) with
      | error e => rw [hr] at hp; cases hp
      | ok row =>
        rw [hr] at hp
        exact (hb row (pyGet_mem hr)).2 p (pyGet_mem hp)
    refine ⟨?_, h2⟩
    rintro rfl
    simp at h1
    omega
  have hout : ∀ y : Y, Conv.output (X := X) ⟨K, S, P, fill, Conv.entrywise K w, bias⟩ i [y] =
      Conv.output (X := X) ⟨K, S, P, fill, Conv.entrywise K w, bias⟩ i (List.replicate n y) := by
    intro y
    unfold Conv.output
    simp only
    split
    · cases hp : Conv.pick i (K - 1) with
      | error e => rfl
      | ok ps =>
        obtain ⟨h1, h2⟩ := hpick ps hp
        simp only [hsum ps h1 h2]
    · rfl
  have hslot : Conv.setSlot i.buffer i.index (((List.range K).map fun j => [a].map (w (K - 1 - j))).drop 1) =
      Conv.setSlot i.buffer i.index (((List.range K).map fun j => (List.replicate n a).map (w (K - 1 - j))).drop 1) := by
    unfold Conv.setSlot
    cases hr : pyGet i.buffer i.index with
    | error e => rfl
    | ok slot =>
      obtain ⟨_, hs⟩ := hb slot (pyGet_mem hr)
      have hz : ∀ (slot : List (List Y)) (js : List Nat), (∀ r ∈ slot, r.length = n) →
          ((List.zip slot (js.map fun j => [a].map (w (K - 1 - j)))).mapM fun p => assignRow p.1.length p.2) =
          (List.zip slot (js.map fun j => (List.replicate n a).map (w (K - 1 - j)))).mapM
            fun p => assignRow p.1.length p.2 := by
        intro slot
        induction slot with
        | nil => intro js _; simp
        | cons r slot ih =>
          intro js hl
          cases js with
          | nil => simp
          | cons j js =>
            simp only [List.map_cons, List.zip_cons_cons, List.mapM_cons, List.map_nil, List.map_replicate,
              hl r (by simp), assignRow_one]
            have := ih js fun r' hr' => hl r' (by simp [hr'])
            simp only [List.map_cons, List.map_nil, List.map_replicate] at this
            rw [this]
      simp only [← List.map_drop]
      rw [hz slot _ hs]
  have : Conv.pstep ⟨K, S, P, fill, Conv.entrywise K w, bias⟩ [a] (some i) =
      Conv.pstep ⟨K, S, P, fill, Conv.entrywise K w, bias⟩ (List.replicate n a) (some i) := by
    simp only [Conv.pstep, Conv.entrywise, if_neg hst, Conv.run, hrow, hslot]
    simp only [List.map_cons, List.map_nil, List.map_replicate, hout]
  simp only [Conv.mod, ofStep, hg, this]

end Shape

namespace Shape

/-- Delays, convolutions with a temporal kernel and pooling modules that treat the entries of a frame separately. -/
inductive Plain : {X Y : Type} → EMod (List X) (List Y) → Prop
  | delay {X : Type} {d : Nat} (hd : 1 ≤ d) (fill : X → X) (sh : Shrink) : Plain (Delay.mod d fill sh)
  | conv {X Y : Type} [Zero Y] [Add Y] {K : Nat} (hK : 2 ≤ K) (S P : Nat) (fill : Fill) (w : Nat → X → Y)
      (bias : Option Y) : Plain (Conv.mod ⟨K, S, P, fill, Conv.entrywise K w, bias⟩)
  | pool {X Y : Type} (K S P dil : Nat) (g : X → Y) (pool : List (List Y) → List Y) (fill : Y → Y) :
      Plain (Pool.mod ⟨K, S, P, dil, fun x => .ok (x.map g), pool, fill⟩)

theorem entrywise_rows {X Y : Type} {K : Nat} {w : Nat → X → Y} {x : List X} {rows : List (List Y)}
    (h : Conv.entrywise K w x = .ok rows) : rows.length = K ∧ ∀ r ∈ rows, r.length = x.length := by
  cases h
  refine ⟨by simp, fun r hr => ?_⟩
  obtain ⟨j, _, rfl⟩ := List.mem_map.mp hr
  simp

theorem Plain.repeats {X Y : Type} {M : EMod (List X) (List Y)} (h : Plain M) (n : Nat) :
    ∃ P, Guarded M n P ∧ Repeats M n P := by
  cases h with
  | delay hd fill sh => exact ⟨_, Delay.guarded (by omega) fill sh n, Delay.repeats _ (by omega) fill sh n⟩
  | conv hK S P fill w bias =>
    exact ⟨_, Conv.guarded (c := ⟨_, S, P, fill, Conv.entrywise _ w, bias⟩) hK (fun _ _ h => entrywise_rows h) n,
      Conv.repeats hK n⟩
  | pool K S P dil g pool fill =>
    exact ⟨_, Pool.guarded (fun x y h => by cases h; simp) n, Pool.repeats (fun _ => rfl) n⟩

end Shape

/-- What **C75** does not say: a frame of a single entry, in a stream of `n` entries, is not refused.  Delays,
convolutions with a temporal kernel and pooling modules take it for `n` copies of the entry. -/
theorem C75_single_entry_refuted {X Y : Type} {M : EMod (List X) (List Y)} (hM : Plain M) (x0 : List X)
    (o : Option (List Y)) (h0 : (M.step M.init true x0).1 = .ok o) (xs ys : List (List X))
    (hxs : ∀ x ∈ xs, x.length = x0.length) (a : X) :
    play M M.init (x0 :: xs ++ [a] :: ys) = play M M.init (x0 :: xs ++ List.replicate x0.length a :: ys) := by
  obtain ⟨P, h, hr⟩ := hM.repeats x0.length
  have hP := h.after x0 o h0 rfl xs hxs
  rw [List.cons_append, List.cons_append]
  simp only [play, play_append, hr _ _ a hP]

/-! ### The first frame -/

/-- What **C75** does not say: an exception raised for the first frame leaves the network as it was.  If the first member
of a `Sequential` accepts the frame and a later one raises, the first member has been initialised for that size: all
frames of another size are refused from then on (until `clean_state`). -/
theorem C75_first_frame_refuted {X Y Z : Type} {A : EMod (List X) Y} (hA : Net A) (B : EMod Y Z) (x : List X) (y : Y)
    (h1 : (A.step A.init true x).1 = .ok (some y)) (e : Err) (h2 : (B.step B.init true y).1 = .error e)
    (ys : List (List X)) (hys : ∀ z ∈ ys, z.length ≠ x.length ∧ z.length ≠ 1) :
    ((seq A B).step (seq A B).init true x).1 = .error e ∧
      ∀ r ∈ play (seq A B) ((seq A B).step (seq A B).init true x).2 ys, ∃ e', r = .error e' := by
  obtain ⟨P, h⟩ := hA.guarded x.length
  have hP := h.start x _ rfl h1
  have hs : (seq A B).step (seq A B).init true x = (.error e, ((A.step A.init true x).2, (B.step B.init true y).2)) := by
    simp only [seq]
    split
    · rename_i heq; rw [heq] at h1; cases h1
    · rename_i heq; rw [heq] at h1; cases h1
    · rename_i y' i1 heq
      rw [heq] at h1
      cases h1
      simp only [h2, heq]
  rw [hs]
  refine ⟨rfl, ?_⟩
  have hg := h.seqL B
  generalize hi : ((A.step A.init true x).2, (B.step B.init true y).2) = i
  have hPi : P i.1 := by rw [← hi]; exact hP
  clear hi
  induction ys with
  | nil => intro r hr; simp [play] at hr
  | cons z ys ih =>
    intro r hr
    obtain ⟨e', he⟩ := hg.rej i true z hPi (hys z (by simp)).1 (hys z (by simp)).2
    simp only [play] at hr
    rw [he] at hr
    rcases List.mem_cons.mp hr with rfl | hr
    · exact ⟨e', rfl⟩
    · exact ih (fun z' hz' => hys z' (by simp [hz'])) r hr

/-! ### Examples -/

namespace Shape

/-- A convolution over time with kernel `(10, 1)` on a batch of integers. -/
def exConv (P : Nat) : EMod (List Int) (List Int) :=
  Conv.mod ⟨2, 1, P, .zeros, Conv.entrywise 2 fun k x => if k = 0 then 10 * x else x, none⟩

/-- A frame-wise convolution along the axis with kernel size 3, which does not fit frames of fewer than three entries. -/
def exWide : EMod (List Int) (List Int) :=
  framewise fun x => if x.length < 3 then .error .runtime else .ok (x.map (2 * ·))

/-- `Residual(co.Conv(2))` as a two-branch container. -/
def exResidual : EMod (List Int) (List Int) := par (bcast2 (· + ·)) (Delay.mod 1 (fun _ => 0) .off) (exConv 0)

theorem exConv_net (P : Nat) : Net (exConv P) :=
  .conv (c := ⟨2, 1, P, .zeros, _, none⟩) (Nat.le_refl 2) fun _ _ h =>
    entrywise_rows (K := 2) (w := fun k (x : Int) => if k = 0 then 10 * x else x) h

/-- The hypotheses of `C75_bad_frames_partial` are met, and frames of three and no entries are refused in a stream of
two. -/
example : Net exResidual ∧ (∃ o, (exResidual.step exResidual.init true [1, 2]).1 = .ok o) ∧
    play exResidual exResidual.init [[1, 2], [3, 4], [5, 6, 7], [], [5, 6]] =
      [.ok none, .ok (some [14, 26]), .error .runtime, .error .runtime, .ok (some [38, 50])] :=
  ⟨.parL _ (.delay (by decide) _ _) _, ⟨_, rfl⟩, rfl⟩

/-- A single entry is taken for two copies. -/
example : Plain (exConv 0) ∧ play (exConv 0) (exConv 0).init [[1, 2], [5], [3, 4]] =
    [.ok none, .ok (some [15, 25]), .ok (some [53, 54])] :=
  ⟨.conv (by decide) _ _ _ _ _, rfl⟩

/-- A first frame that does not fit makes the network refuse the frames it would have accepted. -/
example : (play (seq (exConv 1) exWide) (seq (exConv 1) exWide).init [[1, 2, 3], [4, 5, 6]] =
      [.ok (some [2, 4, 6]), .ok (some [28, 50, 72])]) ∧
    (play (seq (exConv 1) exWide) (seq (exConv 1) exWide).init [[1, 2], [1, 2, 3], [4, 5, 6]] =
      [.error .runtime, .error .runtime, .error .runtime]) ∧
    ((exConv 1).step (exConv 1).init true [1, 2]).1 = .ok (some [1, 2]) ∧
    (exWide.step exWide.init true [1, 2]).1 = .error .runtime := ⟨rfl, rfl, rfl, rfl⟩

/-- Average pooling of integers over two steps (without the division), as a module of both models. -/
example : Pool.Agree (n := 3) (X := Int) (Y := Int)
    ⟨2, 1, 0, 1, fun x => .ok (x.map id), fun l => match l with
      | [a, b] => List.zipWith (· + ·) a b
      | _ => (List.replicate 3 0), fun _ => 0⟩
    { K := 2, S := 1, P := 0, dil := 1, spatial := id, pool := fun l => match l with
        | [a, b] => fun j => a j + b j
        | _ => fun _ => 0,
      fillIn := fun _ _ => 0, fillOut := fun _ _ => 0, refPad := fun _ => 0 } where
  K := rfl
  S := rfl
  P := rfl
  dil := rfl
  spatial := fun x => by simp
  pool := fun ys => by
    match ys with
    | [] => rfl
    | [a] => rfl
    | [a, b] =>
      simp only [List.map_cons, List.map_nil]
      apply List.ext_getElem <;> simp
    | a :: b :: c :: l => rfl
  fill := fun _ => rfl

end Shape

end CoInf
