/-
C18 and C22, continued: the reductions that come with the library, the constructor of `BroadcastReduce`, and what the
members of `Parallel` see.
-/
import Verif.Props.Parallel
import Verif.Props.Routing
import Mathlib.Algebra.BigOperators.Group.List.Basic

set_option autoImplicit false

namespace CoInf
open Spec
variable {X Y Z : Type}

/-! ### Sum, product, maximum and concatenation -/

theorem foldFrame_sum [AddMonoid Y] : ∀ ys : List Y, foldFrame (· + ·) 0 ys = ys.sum
  | [] => rfl
  | y :: ys => by
    have : ∀ (ys : List Y) (y : Y), ys.foldl (· + ·) y = y + ys.sum := by
      intro ys
      induction ys with
      | nil => intro y; simp
      | cons a ys ih => intro y; rw [List.foldl_cons, ih, List.sum_cons, add_assoc]
    simp only [foldFrame, this, List.sum_cons]

theorem foldFrame_prod [Monoid Y] : ∀ ys : List Y, foldFrame (· * ·) 1 ys = ys.prod
  | [] => rfl
  | y :: ys => by
    have : ∀ (ys : List Y) (y : Y), ys.foldl (· * ·) y = y * ys.prod := by
      intro ys
      induction ys with
      | nil => intro y; simp
      | cons a ys ih => intro y; rw [List.foldl_cons, ih, List.prod_cons, mul_assoc]
    simp only [foldFrame, this, List.prod_cons]

theorem foldFrame_max [LinearOrder Y] (d : Y) {ys : List Y} (h : ys ≠ []) :
    foldFrame max d ys ∈ ys ∧ ∀ y ∈ ys, y ≤ foldFrame max d ys := by
  cases ys with
  | nil => exact absurd rfl h
  | cons y ys =>
    have : ∀ (ys : List Y) (y : Y), ys.foldl max y ∈ y :: ys ∧ ∀ a ∈ y :: ys, a ≤ ys.foldl max y := by
      intro ys
      induction ys with
      | nil => intro y; simp
      | cons a ys ih =>
        intro y
        obtain ⟨h1, h2⟩ := ih (max y a)
        rw [List.foldl_cons]
        refine ⟨?_, ?_⟩
        · rcases List.mem_cons.mp h1 with h | h
          · rw [h]
            rcases max_choice y a with h' | h' <;> simp [h']
          · simp [h]
        · intro b hb
          have hm := h2 (max y a) (by simp)
          rcases List.mem_cons.mp hb with rfl | hb
          · exact (le_max_left _ _).trans hm
          · rcases List.mem_cons.mp hb with rfl | hb
            · exact (le_max_right _ _).trans hm
            · exact h2 b (by simp [hb])
    exact this ys y

/-- What `BroadcastReduce` makes of branches that emit in lock step. -/
structure Reduces (r : Reducer Y Z) (ms : List (CoMod (.stream X) (.stream Y))) (φs : List (List X → List Y))
    (f : List Y → Z) : Prop where
  streams : StreamsAs (BroadcastReduce.mod r ms) fun xs => zipReduce f (φs.map (· xs))
  chunks : ∀ i, Reach (BroadcastReduce.mod r ms) [] i → ∀ ops : List (Op X), (∀ op ∈ ops, op.feeds) →
    ∃ rs i', run (BroadcastReduce.mod r ms) i ops = .ok (rs, i') ∧ outsOf rs = zipReduce f (φs.map (· (framesOf ops)))
  forward : ∀ i xs yss i' T, BroadcastReduce.fwdAll ms i xs = .ok (yss, i') → (∀ ys ∈ yss, ys.length = T) →
    (BroadcastReduce.mod r ms).fwd i xs = .ok (zipReduce f yss, i')

/-- **C18**, `reduce="sum"`: the emissions are the sums of the branches' emissions, in every mode. -/
theorem C18_sum [AddMonoid Y] {ms : List (CoMod (.stream X) (.stream Y))} {φs : List (List X → List Y)}
    (hlen : 2 ≤ ms.length) (H : List.Forall₂ Implements ms φs) (hal : Aligned φs) :
    Reduces (foldReducer (· + ·)) ms φs List.sum := by
  have hr : ReduceOk (foldReducer (· + ·)) (List.sum (α := Y)) ms.length := by
    rw [← funext foldFrame_sum]
    exact reduceOk_of (by omega) (foldReducer_lawful _ _ _ hlen) (foldReducer_sound _)
  obtain ⟨h1, h2, h3⟩ := C18_framewise (by omega) hr rfl H hal
  exact ⟨h1, h2, h3⟩

/-- **C18**, `reduce="mul"`: products. -/
theorem C18_mul [Monoid Y] {ms : List (CoMod (.stream X) (.stream Y))} {φs : List (List X → List Y)}
    (hlen : 2 ≤ ms.length) (H : List.Forall₂ Implements ms φs) (hal : Aligned φs) :
    Reduces (foldReducer (· * ·)) ms φs List.prod := by
  have hr : ReduceOk (foldReducer (· * ·)) (List.prod (α := Y)) ms.length := by
    rw [← funext foldFrame_prod]
    exact reduceOk_of (by omega) (foldReducer_lawful _ _ _ hlen) (foldReducer_sound _)
  obtain ⟨h1, h2, h3⟩ := C18_framewise (by omega) hr rfl H hal
  exact ⟨h1, h2, h3⟩

/-- **C18**, `reduce="max"`: maxima, for every function `f` that picks the greatest element of a non-empty list. -/
theorem C18_max [LinearOrder Y] {ms : List (CoMod (.stream X) (.stream Y))} {φs : List (List X → List Y)}
    (hlen : 2 ≤ ms.length) (H : List.Forall₂ Implements ms φs) (hal : Aligned φs) (f : List Y → Y)
    (hf : ∀ ys, ys ≠ [] → f ys ∈ ys ∧ ∀ y ∈ ys, y ≤ f ys) : Reduces (foldReducer max) ms φs f := by
  have hr : ReduceOk (foldReducer max) f ms.length := by
    have H : ∀ d ys, ys ≠ [] → foldFrame max d ys = f ys := fun d ys h =>
      le_antisymm ((hf ys h).2 _ (foldFrame_max d h).1) ((foldFrame_max d h).2 _ (hf ys h).1)
    by_cases hY : Nonempty Y
    · obtain ⟨d⟩ := hY
      have hl := foldReducer_lawful max d ms.length hlen
      refine reduceOk_of (by omega) ⟨fun ys hy => ?_, fun cs T hc hT => ?_⟩ (foldReducer_sound _)
      · rw [hl.frame ys hy, H d ys (by rintro rfl; simp at hy; omega)]
      · rw [hl.clip cs T hc hT]
        congr 1
        apply List.map_congr_left
        intro t ht
        apply H
        have ht' : t < T := by simpa using ht
        cases cs with
        | nil => simp at hc; omega
        | cons c cs =>
          have : t < c.length := by rw [hT c (by simp)]; exact ht'
          simp [atTime, this]
    · have hl : ∀ ys : List Y, ys = [] := fun ys => by
        cases ys with
        | nil => rfl
        | cons y _ => exact absurd ⟨y⟩ hY
      refine ⟨fun ys hy => ?_, fun cs T hc hT => ?_, fun {cs zs} h h' => ?_, fun {cs zs} _ _ => hl zs⟩
      · rw [hl ys] at hy; simp at hy; omega
      · have hs := foldReducer_sound (Y := Y) max
        match cs, hc, hT with
        | [], hc, _ => simp at hc; omega
        | [_], hc, _ => simp at hc; omega
        | c :: c' :: rest, _, hT =>
          have he : ∀ (rest : List (List Y)) (c : List Y), c = [] → rest.foldlM (bcast2 max) c = .ok ([] : List Y) := by
            intro rest
            induction rest with
            | nil => rintro c rfl; rfl
            | cons a rest ih =>
              rintro c rfl
              rw [List.foldlM_cons, hl a]
              exact ih _ rfl
          show (c' :: rest).foldlM (bcast2 max) c = _
          rw [he _ _ (hl c), hl (zipReduce f (c :: c' :: rest))]
      · intro h''
        exact (foldReducer_sound max).nonempty h h' h''
  obtain ⟨h1, h2, h3⟩ := C18_framewise (by omega) hr rfl H hal
  exact ⟨h1, h2, h3⟩

/-- **C18**, `reduce="concat"`: channel-wise concatenations. -/
theorem C18_concat (cat : List Y → Z) {ms : List (CoMod (.stream X) (.stream Y))} {φs : List (List X → List Y)}
    (hlen : 1 ≤ ms.length) (H : List.Forall₂ Implements ms φs) (hal : Aligned φs) :
    Reduces (catReducer cat) ms φs cat := by
  have hr : ReduceOk (catReducer cat) cat ms.length :=
    reduceOk_of hlen (catReducer_lawful _ _ hlen) (catReducer_sound _)
  obtain ⟨h1, h2, h3⟩ := C18_framewise hlen hr rfl H hal
  exact ⟨h1, h2, h3⟩

/-- **C18**, unequal branches: `forward` with `reduce="concat"` raises if the branches return clips of different length;
with `reduce="sum"` (and the like) it raises for two branches unless one of the clips has a single frame, which is then
repeated. -/
theorem C18_lengths (cat : List Y → Z) (op : Y → Y → Y) (ms : List (CoMod (.stream X) (.stream Y)))
    (i : BroadcastReduce.Inst ms) (xs : List X) (a b : List Y) (rest : List (List Y)) (i' : BroadcastReduce.Inst ms)
    (h : BroadcastReduce.fwdAll ms i xs = .ok (a :: b :: rest, i')) (hab : a.length ≠ b.length) :
    (BroadcastReduce.mod (catReducer cat) ms).fwd i xs = .error .runtime ∧
    (rest = [] → a.length ≠ 1 → b.length ≠ 1 →
      (BroadcastReduce.mod (foldReducer op) ms).fwd i xs = .error .runtime) ∧
    (rest = [] → ∀ v, b = [v] →
      (BroadcastReduce.mod (foldReducer op) ms).fwd i xs = .ok (a.map fun y => op y v, i')) ∧
    (rest = [] → ∀ u, a = [u] →
      (BroadcastReduce.mod (foldReducer op) ms).fwd i xs = .ok (b.map fun y => op u y, i')) := by
  have hfw : ∀ {Z : Type} (r : Reducer Y Z), (BroadcastReduce.mod r ms).fwd i xs =
      (r.clip (a :: b :: rest)).map fun o => (o, i') := by
    intro Z r
    show BroadcastReduce.fwd r ms i xs = _
    rw [BroadcastReduce.fwd, h, ok_bind]
    simp only
    cases r.clip (a :: b :: rest) <;> rfl
  refine ⟨?_, ?_, ?_, ?_⟩
  · rw [hfw]
    have : ((b :: rest).all fun c' => decide (c'.length = a.length)) = false := by simp [Ne.symm hab]
    simp only [catReducer, this]
    rfl
  · rintro rfl ha hb
    rw [hfw]
    have : bcast2 op a b = .error .runtime := by
      unfold bcast2
      rw [if_neg hab]
      split
      · simp at ha
      · simp at hb
      · rfl
    show Except.map _ (List.foldlM (bcast2 op) a [b]) = _
    rw [List.foldlM_cons, this]
    rfl
  · rintro rfl v rfl
    rw [hfw]
    have : bcast2 op a [v] = .ok (a.map fun y => op y v) := by
      unfold bcast2
      rw [if_neg hab]
      split
      · simp at hab
      · rename_i y hy; rw [List.singleton_inj.mp hy]
      · rename_i h1 h2; exact absurd rfl (h2 v)
    show Except.map _ (List.foldlM (bcast2 op) a [[v]]) = _
    rw [List.foldlM_cons, this]
    rfl
  · rintro rfl u rfl
    rw [hfw]
    have : bcast2 op [u] b = .ok (b.map fun y => op u y) := by
      unfold bcast2
      rw [if_neg hab]
    show Except.map _ (List.foldlM (bcast2 op) [u] [b]) = _
    rw [List.foldlM_cons, this]
    rfl

/-- **C18**, constructor: without `auto_delay`, `BroadcastReduce(*ms)` is accepted exactly if there are at least two
branches and they have one stride in common. -/
theorem C18_constructor (fill : Y → Y) (r : Reducer Y Z) (ms : List (CoMod (.stream X) (.stream Y))) :
    (∀ M, BroadcastReduce.make fill false r ms = .ok M ↔
      M = BroadcastReduce.mod r ms ∧ 2 ≤ ms.length ∧ ∀ m ∈ ms, ∀ m' ∈ ms, m.stride = m'.stride) ∧
    ∀ e, BroadcastReduce.make fill false r ms = .error e → e = .assertion := by
  have hstr : (ms.all fun m => decide (m.stride = (BroadcastReduce.mod r ms).stride)) = true ↔
      ∀ m ∈ ms, ∀ m' ∈ ms, m.stride = m'.stride := by
    rw [List.all_eq_true]
    cases ms with
    | nil => simp
    | cons a ms =>
      simp only [decide_eq_true_eq]
      refine ⟨fun h m hm m' hm' => (h m hm).trans (h m' hm').symm, fun h m hm => h m hm a (by simp)⟩
  have hm : BroadcastReduce.make fill false r ms = if ms.length ≤ 1 then .error .assertion else
      if (ms.all fun m => decide (m.stride = (BroadcastReduce.mod r ms).stride)) = true then
        .ok (BroadcastReduce.mod r ms) else .error .assertion := rfl
  refine ⟨fun M => ?_, fun e => ?_⟩
  · rw [hm]
    by_cases h1 : ms.length ≤ 1
    · rw [if_pos h1]
      exact ⟨fun h => (by cases h), fun h => by omega⟩
    · rw [if_neg h1]
      by_cases h2 : (ms.all fun m => decide (m.stride = (BroadcastReduce.mod r ms).stride)) = true
      · rw [if_pos h2]
        exact ⟨fun h => ⟨(Except.ok.inj h).symm, by omega, hstr.mp h2⟩, fun h => by rw [h.1]⟩
      · rw [if_neg h2]
        exact ⟨fun h => (by cases h), fun h => absurd (hstr.mpr h.2.2) h2⟩
  · rw [hm]
    intro h
    split at h
    · cases h; rfl
    · split at h
      · cases h
      · cases h; rfl

/-! ### Members of `Parallel` -/

namespace Spec

/-- Attributes of member number `k`. -/
def member : (ms : List (CoMod (.stream X) (.stream Y))) → BroadcastReduce.Inst ms → (k : Nat) → (h : k < ms.length) →
    ms[k].Inst
  | _ :: _, i, 0, _ => i.1
  | _ :: ms, i, k + 1, h => member ms i.2 k (Nat.lt_of_succ_lt_succ h)

end Spec

namespace Parallel

theorem all_iff {α β : Type} {call : (m : CoMod (.stream X) (.stream Y)) → m.Inst → α → Except Err (β × m.Inst)}
    {F : (ms : List (CoMod (.stream X) (.stream Y))) → BroadcastReduce.Inst ms → List (Option α) →
      Except Err (List β × BroadcastReduce.Inst ms)}
    (hnil : ∀ i xs, F [] i xs = .ok ([], i))
    (hcons : ∀ m ms i x xs, F (m :: ms) i (some x :: xs) = match call m i.1 x with
      | .error e => .error e
      | .ok (o, i1) => match F ms i.2 xs with
        | .error e => .error e
        | .ok (os, i2) => .ok (o :: os, (i1, i2))) :
    ∀ (ms : List (CoMod (.stream X) (.stream Y))) (i i' : BroadcastReduce.Inst ms) (xs : List α) (hx : xs.length = ms.length)
      (os : List β), F ms i (xs.map some) = .ok (os, i') ↔ ∃ ho : os.length = ms.length, ∀ k (h : k < ms.length),
        call ms[k] (member ms i k h) (xs[k]'(hx ▸ h)) = .ok (os[k]'(ho ▸ h), member ms i' k h) := by
  intro ms
  induction ms with
  | nil =>
    intro i i' xs hx os
    rw [hnil]
    constructor
    · intro h
      cases h
      exact ⟨rfl, fun k h => absurd h (Nat.not_lt_zero k)⟩
    · rintro ⟨ho, _⟩
      have : os = [] := List.length_eq_zero_iff.mp ho
      subst this
      rfl
  | cons m ms ih =>
    intro i i' xs hx os
    cases xs with
    | nil => simp at hx
    | cons x xs =>
      rw [List.map_cons, hcons]
      constructor
      · intro h
        cases h1 : call m i.1 x with
        | error e => rw [h1] at h; cases h
        | ok p =>
          obtain ⟨o, i1⟩ := p
          rw [h1] at h
          simp only at h
          cases h2 : F ms i.2 (xs.map some) with
          | error e => rw [h2] at h; cases h
          | ok q =>
            obtain ⟨os', i2⟩ := q
            rw [h2] at h
            cases h
            obtain ⟨ho, hk⟩ := (ih i.2 i2 xs (by simpa using hx) os').mp h2
            refine ⟨by simp [ho], fun k hk' => ?_⟩
            cases k with
            | zero => exact h1
            | succ k => exact hk k (Nat.lt_of_succ_lt_succ hk')
      · rintro ⟨ho, hk⟩
        cases os with
        | nil => simp at ho
        | cons o os =>
          have h1 := hk 0 (by simp)
          have h2 := (ih i.2 i'.2 xs (by simpa using hx) os).mpr
            ⟨by simpa using ho, fun k h => hk (k + 1) (Nat.succ_lt_succ h)⟩
          have h1' : call m i.1 x = .ok (o, i'.1) := h1
          rw [h1', h2]

end Parallel

/-- **C22**, `Parallel`, every call: in `forward_step`, `forward_steps` and `forward`, with all flags and for arbitrary
members in arbitrary states, member number `k` is called once, on stream number `k`, with the flags given; its result is
number `k` of the results.  The call raises if and only if there is no such collection of results. -/
theorem C22_members (ms : List (CoMod (.stream X) (.stream Y))) (i i' : BroadcastReduce.Inst ms) :
    (∀ (u : Bool) (xs : List X) (hx : xs.length = ms.length) (o : Option (List (Option Y))),
      (Parallel.mod ms).step i u (xs.map some) = .ok (o, i') ↔
        ∃ os : List (Option Y), ∃ ho : os.length = ms.length, o = some os ∧ ∀ k (h : k < ms.length),
          ms[k].step (member ms i k h) u (xs[k]'(hx ▸ h)) = .ok (os[k]'(ho ▸ h), member ms i' k h)) ∧
    (∀ (p u : Bool) (xs : List (List X)) (hx : xs.length = ms.length) (o : Option (List (Option (List Y)))),
      (Parallel.mod ms).steps i p u (xs.map some) = .ok (o, i') ↔
        ∃ os : List (Option (List Y)), ∃ ho : os.length = ms.length, o = some os ∧ ∀ k (h : k < ms.length),
          ms[k].steps (member ms i k h) p u (xs[k]'(hx ▸ h)) = .ok (os[k]'(ho ▸ h), member ms i' k h)) ∧
    (∀ (xs : List (List X)) (hx : xs.length = ms.length) (ys : List (List Y)),
      (Parallel.mod ms).fwd i (xs.map some) = .ok (ys.map some, i') ↔
        ∃ ho : ys.length = ms.length, ∀ k (h : k < ms.length),
          ms[k].fwd (member ms i k h) (xs[k]'(hx ▸ h)) = .ok (ys[k]'(ho ▸ h), member ms i' k h)) := by
  refine ⟨fun u xs hx o => ?_, fun p u xs hx o => ?_, fun xs hx ys => ?_⟩
  · have key := Parallel.all_iff (call := fun m j x => m.step j u x) (F := fun ms j xs => Parallel.step ms j u xs)
      (fun i xs => rfl) (fun m ms i x xs => by
        show (do let x' ← Parallel.arg (some x :: xs); _) = _
        simp only [Parallel.arg, ok_bind]
        cases m.step i.1 u x with
        | error e => rfl
        | ok p =>
          simp only [ok_bind, List.tail_cons]
          cases Parallel.step ms i.2 u xs <;> rfl) ms i i' xs hx
    have hs : (Parallel.mod ms).step i u (xs.map some) = (Parallel.step ms i u (xs.map some)).map fun p => (some p.1, p.2) := by
      show (do let p ← Parallel.step ms i u (xs.map some); _) = _
      cases Parallel.step ms i u (xs.map some) <;> rfl
    rw [hs]
    constructor
    · intro h
      cases hp : Parallel.step ms i u (xs.map some) with
      | error e => rw [hp] at h; cases h
      | ok q =>
        obtain ⟨os, j⟩ := q
        rw [hp] at h
        cases h
        obtain ⟨ho, hk⟩ := (key os).mp hp
        exact ⟨os, ho, rfl, hk⟩
    · rintro ⟨os, ho, rfl, hk⟩
      rw [(key os).mpr ⟨ho, hk⟩]
      rfl
  · have key := Parallel.all_iff (call := fun m j x => m.steps j p u x) (F := fun ms j xs => Parallel.steps ms j p u xs)
      (fun i xs => rfl) (fun m ms i x xs => by
        show (do let x' ← Parallel.arg (some x :: xs); _) = _
        simp only [Parallel.arg, ok_bind]
        cases m.steps i.1 p u x with
        | error e => rfl
        | ok q =>
          simp only [ok_bind, List.tail_cons]
          cases Parallel.steps ms i.2 p u xs <;> rfl) ms i i' xs hx
    have hs : (Parallel.mod ms).steps i p u (xs.map some) =
        (Parallel.steps ms i p u (xs.map some)).map fun p => (some p.1, p.2) := by
      show (do let p ← Parallel.steps ms i p u (xs.map some); _) = _
      cases Parallel.steps ms i p u (xs.map some) <;> rfl
    rw [hs]
    constructor
    · intro h
      cases hp : Parallel.steps ms i p u (xs.map some) with
      | error e => rw [hp] at h; cases h
      | ok q =>
        obtain ⟨os, j⟩ := q
        rw [hp] at h
        cases h
        obtain ⟨ho, hk⟩ := (key os).mp hp
        exact ⟨os, ho, rfl, hk⟩
    · rintro ⟨os, ho, rfl, hk⟩
      rw [(key os).mpr ⟨ho, hk⟩]
      rfl
  · have key := Parallel.all_iff (call := fun m j x => (m.fwd j x).map fun p => (some p.1, p.2))
      (F := fun ms j xs => Parallel.fwd ms j xs)
      (fun i xs => rfl) (fun m ms i x xs => by
        show (do let x' ← Parallel.arg (some x :: xs); _) = _
        simp only [Parallel.arg, ok_bind]
        cases m.fwd i.1 x with
        | error e => rfl
        | ok q =>
          simp only [ok_bind, List.tail_cons, Except.map]
          cases Parallel.fwd ms i.2 xs <;> rfl) ms i i' xs hx (ys.map some)
    show Parallel.fwd ms i (xs.map some) = _ ↔ _
    rw [key]
    have hmap : ∀ (m : CoMod (.stream X) (.stream Y)) (j j' : m.Inst) (x : List X) (y : List Y),
        ((m.fwd j x).map fun p => (some p.1, p.2)) = .ok (some y, j') ↔ m.fwd j x = .ok (y, j') := by
      intro m j j' x y
      cases m.fwd j x with
      | error e => exact ⟨fun h => (by cases h), fun h => (by cases h)⟩
      | ok p =>
        obtain ⟨a, b⟩ := p
        exact ⟨fun h => (by cases h; rfl), fun h => (by cases h; rfl)⟩
    constructor
    · rintro ⟨ho, hk⟩
      refine ⟨by simpa using ho, fun k h => ?_⟩
      have := hk k h
      rw [List.getElem_map] at this
      exact (hmap _ _ _ _ _).mp this
    · rintro ⟨ho, hk⟩
      refine ⟨by simpa using ho, fun k h => ?_⟩
      rw [List.getElem_map]
      exact (hmap _ _ _ _ _).mpr (hk k h)

/-! ### Examples -/

/-- Two delays by one and two frames, in parallel, on two streams. -/
def exParallel : List (CoMod (.stream Int) (.stream Int)) :=
  [Delay.mod { d := 1, fill := fun _ => 0 }, Delay.mod { d := 2, fill := fun _ => 0 }]

example : ((Parallel.mod exParallel).steps (Parallel.mod exParallel).init false true ([[1, 2, 3], [10, 20, 30]].map some)).map
    Prod.fst = .ok (some [some [1, 2], some [10]]) := rfl

/-- The hypotheses of `C18_sum` and its relatives are met by a delay and a shifted delay. -/
example : ∃ φs : List (List Int → List Int), 2 ≤ exParallel.length ∧ List.Forall₂ Implements
    [Delay.mod { d := 1, fill := fun _ => (0 : Int) }, Delay.mod { d := 1, fill := fun _ => 0 }] φs ∧ Aligned φs :=
  ⟨_, by decide, .cons (Delay.implements _) (.cons (Delay.implements _) .nil),
    BroadcastReduce.aligned_of_sched (d := 1) (s := 1) (by
      intro φ hφ
      simp only [List.mem_cons, List.not_mem_nil, or_false] at hφ
      rcases hφ with rfl | rfl
      · exact (Delay.geom { d := 1, fill := fun _ => (0 : Int) } rfl).geo.sched
      · exact (Delay.geom { d := 1, fill := fun _ => (0 : Int) } rfl).geo.sched)⟩

/-- One branch alone is refused, and so are branches with different strides. -/
example : BroadcastReduce.make id false (foldReducer (· + ·)) [Conv.mod (exSum 3 1 1)] = .error .assertion ∧
    BroadcastReduce.make id false (foldReducer (· + ·)) [Conv.mod (exSum 3 1 1), Conv.mod (exSum 3 2 1)] =
      .error .assertion := ⟨rfl, rfl⟩

/-- Clips of two frames and one frame: concatenation raises, the sum repeats the single frame. -/
example :
    let ms : List (CoMod (.stream Int) (.stream Int)) := [Pointwise.mod id, Conv.mod (exSum 2 1 0)]
    (BroadcastReduce.fwdAll ms (BroadcastReduce.init ms) [1, 2]).map Prod.fst = .ok [[1, 2], [3]] ∧
    ((BroadcastReduce.mod (catReducer id) ms).fwd (BroadcastReduce.init ms) [1, 2]).map Prod.fst = .error .runtime ∧
    ((BroadcastReduce.mod (foldReducer (· + ·)) ms).fwd (BroadcastReduce.init ms) [1, 2]).map Prod.fst = .ok [4, 5] :=
  ⟨rfl, rfl, rfl⟩

end CoInf
