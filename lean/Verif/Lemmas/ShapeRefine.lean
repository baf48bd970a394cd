/-
On frames of one size, the modules of `Verif.Model.Shape` are those of the other models.
-/
import Verif.Lemmas.Shape
import Verif.Lemmas.Hom
import Mathlib.Algebra.BigOperators.Group.List.Basic

set_option autoImplicit false

namespace CoInf.Shape

variable {X Y : Type} {n : Nat}

/-- `M` on frames of `n` entries is `L`, up to the translation `π` of the objects that satisfy `I`. -/
structure Refines (M : EMod (List X) (List Y)) (L : Leaf (Fin n → X) (Fin n → Y)) (π : L.Inst → M.Inst)
    (I : L.Inst → Prop) : Prop where
  init : M.init = π L.init
  inv : I L.init
  step : ∀ i u x, I i → (∀ e, L.forwardStep i u x = .error e → M.step (π i) u (List.ofFn x) = (.error e, π i)) ∧
    ∀ o i', L.forwardStep i u x = .ok (o, i') →
      I i' ∧ M.step (π i) u (List.ofFn x) = (.ok (o.map fun y => List.ofFn y), π i')

theorem refines_of {L : Leaf (Fin n → X) (Fin n → Y)} {St : Type} {init : St} {get : St → Option St}
    {pstep : List X → Option St → Except Err (Option (List Y) × Option St)} {σ : L.Inst → L.St} {τ : L.St → St}
    {I : L.Inst → Prop} {J : L.St → Prop} (hinit : init = τ (σ L.init)) (hI : I L.init)
    (hget : ∀ i, get (τ (σ i)) = (L.get i).map τ) (hJ : ∀ i s, I i → L.get i = some s → J s)
    (hset : ∀ s i, σ (L.set s i) = s) (hIset : ∀ s i, J s → I (L.set s i))
    (hstep : ∀ x s, (∀ t, s = some t → J t) → (pstep (List.ofFn x) (s.map τ) =
      (L.pstep x s).map fun p => (p.1.map fun y => List.ofFn y, p.2.map τ)) ∧
      ∀ o s', L.pstep x s = .ok (o, s') → ∀ t, s' = some t → J t) :
    Refines (ofStep init get pstep) L (fun i => τ (σ i)) I where
  init := hinit
  inv := hI
  step := fun i u x hi => by
    obtain ⟨h1, h2⟩ := hstep x (L.get i) fun t ht => hJ i t hi ht
    simp only [ofStep, hget, h1, Leaf.forwardStep]
    cases hp : L.pstep x (L.get i) with
    | error e =>
      refine ⟨fun e' he => ?_, fun o i' h => ?_⟩
      · cases he; rfl
      · cases h
    | ok p =>
      obtain ⟨o, s⟩ := p
      refine ⟨fun e' he => ?_, fun o' i' h => ?_⟩
      · cases he
      · cases h
        cases u
        · exact ⟨by simpa [Leaf.save] using hi, by simp [Leaf.save, Except.map]⟩
        · cases s with
          | none => exact ⟨by simpa [Leaf.save] using hi, by simp [Leaf.save, Except.map]⟩
          | some t =>
            refine ⟨?_, ?_⟩
            · simpa [Leaf.save] using hIset t i (h2 _ _ hp t rfl)
            · simp [Leaf.save, Except.map, hset]

/-! ### Rows of one size -/

theorem assignRow_ofFn (y x : Fin n → X) : assignRow (List.ofFn y).length (List.ofFn x) = .ok (List.ofFn x) :=
  assignRow_self (by simp)

theorem setRow_ofFn (b : List (Fin n → X)) (i : Int) (x : Fin n → X) :
    setRow (b.map fun y => List.ofFn y) i (List.ofFn x) = (pySet b i x).map (List.map fun y => List.ofFn y) := by
  unfold setRow
  rw [pyGet_map]
  have hps := pySet_map (fun y : Fin n → X => List.ofFn y) b i x
  cases hg : pyGet b i with
  | error e =>
    simp only [Except.map]
    unfold pyGet at hg
    unfold pySet
    simp only at hg ⊢
    generalize (if i < 0 then i + (b.length : Int) else i) = j at hg ⊢
    by_cases hj : j < 0
    · rw [if_pos hj] at hg ⊢; cases hg; rfl
    · rw [if_neg hj] at hg ⊢
      by_cases hl : j.toNat < b.length
      · rw [List.getElem?_eq_getElem hl] at hg; cases hg
      · rw [List.getElem?_eq_none (not_lt.mp hl)] at hg
        rw [if_neg hl]
        cases hg
        rfl
  | ok row =>
    simp only [Except.map, assignRow_ofFn]
    rw [hps]
    rfl

/-! ### Delay -/

namespace Delay

/-- The state with frames as lists. -/
def toList (s : CoInf.Delay.St (Fin n → X)) : St X := (s.1.map fun y => List.ofFn y, s.2)

theorem refines (d : Nat) (fill : X → X) (sh : Shrink) :
    Refines (mod d fill sh) (CoInf.Delay.leaf { d := d, fill := fun (x : Fin n → X) b => fill (x b), shrink := sh })
      toList (fun _ => True) := by
  refine refines_of (L := CoInf.Delay.leaf { d := d, fill := fun (x : Fin n → X) b => fill (x b), shrink := sh })
    (I := fun _ => True) (σ := id) (τ := toList) (J := fun _ => True) rfl trivial ?_ (fun _ _ _ _ => trivial) (fun _ _ => rfl)
    (fun _ _ _ => trivial) ?_
  · intro i
    simp only [id, get, toList, List.length_map]
    split <;> rfl
  · intro x s _
    refine ⟨?_, fun _ _ _ _ _ => trivial⟩
    have key : ∀ st, run d (List.ofFn x) (toList st) =
        (do
          let output ← if st.2 ≥ 0 then (pyGet st.1 st.2).map some else .ok none
          let buffer' ← pySet st.1 (st.2 % d) x
          return (output, some (buffer', if st.2 + 1 > 0 then (st.2 + 1) % (d : Int) else st.2 + 1))
          : Except Err (Option (Fin n → X) × Option (CoInf.Delay.St (Fin n → X)))).map
          fun p => (p.1.map fun y => List.ofFn y, p.2.map toList) := by
      rintro ⟨b, k⟩
      simp only [run, toList, setRow_ofFn, pyGet_map]
      by_cases hk : k ≥ 0
      · simp only [if_pos hk]
        cases pyGet b k with
        | error e => rfl
        | ok y => cases pySet b (k % d) x <;> rfl
      · simp only [if_neg hk]
        cases pySet b (k % d) x <;> rfl
    simp only [pstep, CoInf.Delay.pstep]
    by_cases hd : d = 0
    · simp only [if_pos hd]; rfl
    · simp only [if_neg hd]
      cases s with
      | some st => exact key st
      | none =>
        have : initState d fill sh (List.ofFn x) =
            toList (CoInf.Delay.initState { d := d, fill := fun (x : Fin n → X) b => fill (x b), shrink := sh } x) := by
          simp only [initState, toList, CoInf.Delay.initState, List.map_replicate, List.map_ofFn, Function.comp_def]
        simp only [Option.map_none, this]
        exact key _

end Delay

/-! ### Pooling -/

namespace Pool

/-- The state with frames as lists. -/
def toList (s : CoInf.Pool.St (Fin n → Y)) : St Y := ⟨s.buffer.map fun y => List.ofFn y, s.index, s.strideIndex⟩

/-- Corresponding arguments. -/
structure Agree (c : Cfg X Y) (b : CoInf.Pool.Cfg (Fin n → X) (Fin n → Y)) : Prop where
  K : b.K = c.K
  S : b.S = c.S
  P : b.P = c.P
  dil : b.dil = c.dil
  spatial : ∀ x, c.spatial (List.ofFn x) = .ok (List.ofFn (b.spatial x))
  pool : ∀ ys, c.pool (ys.map fun y => List.ofFn y) = List.ofFn (b.pool ys)
  fill : ∀ y, b.fillOut y = fun j => c.fill (y j)

theorem refines {c : Cfg X Y} {b : CoInf.Pool.Cfg (Fin n → X) (Fin n → Y)} (h : Agree c b) :
    Refines (mod c) (CoInf.Pool.leaf b) toList (fun _ => True) := by
  refine refines_of (L := CoInf.Pool.leaf b) (I := fun _ => True) (σ := id) (τ := toList) (J := fun _ => True) rfl trivial ?_ (fun _ _ _ _ => trivial) (fun _ _ => rfl)
    (fun _ _ _ => trivial) ?_
  · intro i
    simp only [id, get, toList, List.length_map]
    split <;> rfl
  · intro x s _
    refine ⟨?_, fun _ _ _ _ _ => trivial⟩
    have hsel : ∀ (l : List (Fin n → Y)) (m : Int), select c (l.map fun y => List.ofFn y) m =
        (CoInf.Pool.select b l m).map (List.map fun y => List.ofFn y) := by
      intro l m
      simp only [select, CoInf.Pool.select, h.dil, h.K, List.length_map, pyGet_map]
      split
      · rfl
      · exact CoInf.Pool.mapM_map _ _ _
    have key : ∀ st, pstep c (List.ofFn x) (some (toList st)) = (CoInf.Pool.pstep b x (some st)).map
          fun p => (p.1.map fun y => List.ofFn y, p.2.map toList) := by
      rintro ⟨l, i, k⟩
      simp only [pstep, run, toList, h.spatial, setRow_ofFn, CoInf.Pool.pstep, bind, Except.bind, pure, Except.pure, h.K,
        h.S]
      cases pySet l i (b.spatial x) with
      | error e => rfl
      | ok l' =>
        simp only [Except.map, hsel]
        by_cases hk : k = (c.S : Int) - 1
        · simp only [if_pos hk]
          cases CoInf.Pool.select b l' ((i + 1) % (c.K : Int)) with
          | error e => rfl
          | ok sel => simp only [Except.map, h.pool]; rfl
        · simp only [if_neg hk]; rfl
    cases s with
    | some st => exact key st
    | none =>
      have h1 : CoInf.Pool.pstep b x none = CoInf.Pool.pstep b x (some (CoInf.Pool.initState b (b.spatial x))) := rfl
      have h2 : pstep c (List.ofFn x) none = pstep c (List.ofFn x) (some (toList (CoInf.Pool.initState b (b.spatial x)))) := by
        have : initState c (List.ofFn (b.spatial x)) = toList (CoInf.Pool.initState b (b.spatial x)) := by
          simp only [initState, toList, CoInf.Pool.initState, CoInf.Pool.bufLen, h.K, h.S, h.P, h.dil, h.fill, List.map_replicate,
            List.map_ofFn, Function.comp_def]
        simp only [pstep, h.spatial, this]
      simp only [CoInf.Pool.leaf, h1, Option.map_none, h2]
      exact key _

end Pool

/-! ### Convolution -/

namespace Conv
variable [AddMonoid Y]

/-- The state with frames as lists. -/
def toList (s : CoInf.Conv.St (Fin n → Y)) : St Y :=
  ⟨s.buffer.map (List.map fun y => List.ofFn y), s.index, s.strideIndex⟩

theorem bcast2_ofFn (a b : Fin n → Y) : bcast2 (· + ·) (List.ofFn a) (List.ofFn b) = .ok (List.ofFn (a + b)) := by
  unfold bcast2
  rw [if_pos (by simp)]
  congr 1
  apply List.ext_getElem <;> simp

theorem foldlM_ofFn (ps : List (Fin n → Y)) : ∀ p : Fin n → Y,
    (ps.map fun y => List.ofFn y).foldlM (bcast2 (· + ·)) (List.ofFn p) = .ok (List.ofFn (p + ps.sum)) := by
  induction ps with
  | nil => intro p; simp; rfl
  | cons a ps ih =>
    intro p
    rw [List.map_cons, List.foldlM_cons, bcast2_ofFn]
    show List.foldlM _ _ _ = _
    rw [ih, List.sum_cons, add_assoc]

theorem addSum_ofFn (x : Fin n → Y) (ps : List (Fin n → Y)) :
    addSum (List.ofFn x) (ps.map fun y => List.ofFn y) = .ok (List.ofFn (x + ps.sum)) := by
  cases ps with
  | nil => simp [addSum]
  | cons p ps => simp only [List.map_cons, addSum, foldlM_ofFn, bcast2_ofFn, List.sum_cons]

variable [Zero X]

/-- The convolution of the other models whose frames have `n` entries treated alike. -/
def base (n K S P : Nat) (fill : Fill) (padMode : Fill) (w : Nat → X → Y) (bias : Option Y) :
    CoInf.Conv.Cfg (Fin n → X) (Fin n → Y) where
  K := K
  S := S
  P := P
  fill := fill
  padMode := padMode
  w := fun k x j => w k (x j)
  bias := bias.map fun b _ => b

variable {K S P : Nat} {fill padMode : Fill} {w : Nat → X → Y} {bias : Option Y}

theorem taps_ofFn (x : Fin n → X) : entrywise K w (List.ofFn x) =
    .ok ((CoInf.Conv.taps (base n K S P fill padMode w bias) x).map fun y => List.ofFn y) := by
  simp only [entrywise, CoInf.Conv.taps, base, List.map_map, List.map_ofFn, Function.comp_def]

theorem addBias_ofFn (y : Fin n → Y) : addBias (X := X) ⟨K, S, P, fill, entrywise K w, bias⟩ (List.ofFn y) =
    List.ofFn (CoInf.Conv.addBias (base n K S P fill padMode w bias) y) := by
  unfold addBias CoInf.Conv.addBias base
  cases bias with
  | none => rfl
  | some b => simp only [Option.map_some, List.map_ofFn]; rfl

theorem pick_ofFn (st : CoInf.Conv.St (Fin n → Y)) (tot : Nat) :
    pick (toList st) tot = (CoInf.Conv.pick st tot).map (List.map fun y => List.ofFn y) := by
  unfold pick CoInf.Conv.pick
  rw [← CoInf.Pool.mapM_map]
  congr 1
  funext i
  simp only [toList, pyGet_map, bind, Except.bind]
  cases pyGet st.buffer (((i : Int) + st.index) % tot) with
  | error e => rfl
  | ok row => simp only [Except.map, pyGet_map]

theorem output_ofFn (st : CoInf.Conv.St (Fin n → Y)) (x : Fin n → Y) :
    output (X := X) ⟨K, S, P, fill, entrywise K w, bias⟩ (toList st) (List.ofFn x) =
      (CoInf.Conv.output (base n K S P fill padMode w bias) st x).map (Option.map fun y => List.ofFn y) := by
  unfold output CoInf.Conv.output
  show (if st.strideIndex = (S : Int) - 1 then _ else _) = Except.map _ (if st.strideIndex = (S : Int) - 1 then _ else _)
  by_cases h : st.strideIndex = (S : Int) - 1
  · rw [if_pos h, if_pos h, pick_ofFn]
    show _ = Except.map _ (do let ps ← CoInf.Conv.pick st (K - 1); _)
    cases CoInf.Conv.pick st (K - 1) with
    | error e => rfl
    | ok ps =>
      simp only [Except.map, addSum_ofFn, addBias_ofFn (padMode := padMode)]
      rfl
  · rw [if_neg h, if_neg h]; rfl

theorem mapM_assign (slot rest : List (Fin n → Y)) (h : slot.length = rest.length) :
    ((List.zip (slot.map fun y => List.ofFn y) (rest.map fun y => List.ofFn y)).mapM fun p => assignRow p.1.length p.2) =
      .ok (rest.map fun y => List.ofFn y) := by
  induction slot generalizing rest with
  | nil => cases rest with
    | nil => rfl
    | cons a rest => cases h
  | cons s slot ih => cases rest with
    | nil => cases h
    | cons a rest =>
      simp only [List.map_cons, List.zip_cons_cons, List.mapM_cons, assignRow_ofFn, ih rest (by simpa using h)]
      rfl

theorem setSlot_ofFn {b : List (List (Fin n → Y))} {i : Int} {rest : List (Fin n → Y)} (hb : ∀ s ∈ b, s.length = rest.length) :
    setSlot (b.map (List.map fun y => List.ofFn y)) i (rest.map fun y => List.ofFn y) =
      (pySet b i rest).map (List.map (List.map fun y => List.ofFn y)) := by
  unfold setSlot
  rw [pyGet_map]
  have hps := pySet_map (List.map fun y : Fin n → Y => List.ofFn y) b i rest
  cases hg : pyGet b i with
  | error e =>
    simp only [Except.map]
    unfold pyGet at hg
    unfold pySet
    simp only at hg ⊢
    generalize (if i < 0 then i + (b.length : Int) else i) = j at hg ⊢
    by_cases hj : j < 0
    · rw [if_pos hj] at hg ⊢; cases hg; rfl
    · rw [if_neg hj] at hg ⊢
      by_cases hl : j.toNat < b.length
      · rw [List.getElem?_eq_getElem hl] at hg; cases hg
      · rw [List.getElem?_eq_none (not_lt.mp hl)] at hg
        rw [if_neg hl]
        cases hg
        rfl
  | ok slot =>
    simp only [Except.map, mapM_assign slot rest (hb slot (pyGet_mem hg))]
    rw [hps]
    rfl

theorem refines (K S P : Nat) (fill padMode : Fill) (w : Nat → X → Y) (bias : Option Y) :
    Refines (mod ⟨K, S, P, fill, entrywise K w, bias⟩) (CoInf.Conv.leaf (base n K S P fill padMode w bias)) toList
      (fun i => ∀ s ∈ i.buffer, s.length = K - 1) := by
  refine refines_of (L := CoInf.Conv.leaf (base n K S P fill padMode w bias)) (I := fun i => ∀ s ∈ i.buffer, s.length = K - 1) (σ := id) (τ := toList)
    (J := fun i => ∀ s ∈ i.buffer, s.length = K - 1) rfl (by simp) ?_ ?_ (fun _ _ => rfl) (fun _ _ h => h) ?_
  · intro i
    simp only [id, get, toList, List.length_map]
    split <;> rfl
  · intro i s h hs
    simp only at hs
    split at hs
    · cases hs; exact h
    · cases hs
  · intro x s hJ
    have htl : ((CoInf.Conv.taps (base n K S P fill padMode w bias) x).drop 1).length = K - 1 := by
      simp [CoInf.Conv.taps, base]
    by_cases hst : K = 1 ∧ P = 0 ∧ S = 1
    · have hsl : CoInf.Conv.stateless (base n K S P fill padMode w bias) = true := by
        simp [CoInf.Conv.stateless, base, hst]
      obtain ⟨rfl, rfl, rfl⟩ := hst
      have hfw : CoInf.Conv.pstep (base n 1 1 0 fill padMode w bias) x s =
          .ok (some (CoInf.Conv.addBias (base n 1 1 0 fill padMode w bias) fun j => w 0 (x j)), s) := by
        unfold CoInf.Conv.pstep
        rw [if_pos hsl]
        simp [CoInf.Conv.forward, CoInf.Conv.torchConv, base, bind, Except.bind, pyGet]
        rfl
      simp only [CoInf.Conv.leaf, hfw]
      refine ⟨?_, ?_⟩
      · simp only [pstep, taps_ofFn (S := 1) (P := 0) (fill := fill) (padMode := padMode) (bias := bias), and_self, if_true]
        have : pyGet ((CoInf.Conv.taps (base n 1 1 0 fill padMode w bias) x).map fun y => List.ofFn y) 0 =
            .ok (List.ofFn fun j => w 0 (x j)) := rfl
        rw [this]
        simp only [Except.map, addBias_ofFn (padMode := padMode)]
        rfl
      · intro o s' h t ht
        cases h
        exact hJ t ht
    · have hsl : ¬ CoInf.Conv.stateless (base n K S P fill padMode w bias) = true := by
        exact fun h => hst (of_decide_eq_true h)
      have key : ∀ st : CoInf.Conv.St (Fin n → Y), (∀ s ∈ st.buffer, s.length = K - 1) →
          (run ⟨K, S, P, fill, entrywise K w, bias⟩
            ((CoInf.Conv.taps (base n K S P fill padMode w bias) x).map fun y => List.ofFn y) (toList st) =
          (CoInf.Conv.pstep (base n K S P fill padMode w bias) x (some st)).map
            fun p => (p.1.map fun y => List.ofFn y, p.2.map toList)) ∧
          ∀ o s', CoInf.Conv.pstep (base n K S P fill padMode w bias) x (some st) = .ok (o, s') →
            ∀ t, s' = some t → ∀ s ∈ t.buffer, s.length = K - 1 := by
        intro st hJ
        unfold CoInf.Conv.pstep
        rw [if_neg hsl]
        unfold run
        rw [pyGet_map]
        cases pyGet (CoInf.Conv.taps (base n K S P fill padMode w bias) x) 0 with
        | error e => exact ⟨rfl, fun o s' h => by cases h⟩
        | ok xo =>
          simp only [Except.map, bind, Except.bind, output_ofFn (padMode := padMode)]
          cases CoInf.Conv.output (base n K S P fill padMode w bias) st xo with
          | error e => exact ⟨rfl, fun o s' h => by cases h⟩
          | ok out =>
            simp only [Except.map, CoInf.Conv.writeBack]
            have hK' : (base n K S P fill padMode w bias).K = K := rfl
            simp only [hK']
            by_cases hK : K > 1
            · simp only [if_pos hK, ← List.map_drop]
              have := setSlot_ofFn (b := st.buffer) (i := st.index)
                (rest := (CoInf.Conv.taps (base n K S P fill padMode w bias) x).drop 1) (by rw [htl]; exact hJ)
              simp only [toList, this, bind, Except.bind]
              cases hp : pySet st.buffer st.index ((CoInf.Conv.taps (base n K S P fill padMode w bias) x).drop 1) with
              | error e => exact ⟨rfl, fun o s' h => by cases h⟩
              | ok b =>
                refine ⟨rfl, fun o s' h t ht => ?_⟩
                cases h
                cases ht
                intro s hs
                rcases (pySet_spec hp).2 s hs with rfl | h
                · exact htl
                · exact hJ s h
            · simp only [if_neg hK]
              refine ⟨rfl, fun o s' h t ht => ?_⟩
              cases h
              cases ht
              exact hJ
      cases s with
      | some st =>
        simp only [pstep, taps_ofFn (S := S) (P := P) (fill := fill) (padMode := padMode) (bias := bias), if_neg hst,
          Option.map_some]
        exact key st (hJ st rfl)
      | none =>
        have h1 : CoInf.Conv.pstep (base n K S P fill padMode w bias) x none =
            CoInf.Conv.pstep (base n K S P fill padMode w bias) x
              (some (CoInf.Conv.initState (base n K S P fill padMode w bias)
                ((CoInf.Conv.taps (base n K S P fill padMode w bias) x).drop 1))) := by
          unfold CoInf.Conv.pstep
          rw [if_neg hsl, if_neg hsl]
        have h2 : initState (X := X) ⟨K, S, P, fill, entrywise K w, bias⟩
            (((CoInf.Conv.taps (base n K S P fill padMode w bias) x).map fun y => List.ofFn y).drop 1) =
            toList (CoInf.Conv.initState (base n K S P fill padMode w bias)
                ((CoInf.Conv.taps (base n K S P fill padMode w bias) x).drop 1)) := by
          simp only [initState, CoInf.Conv.initState, toList, List.map_replicate, ← List.map_drop, CoInf.Conv.padRest]
          cases fill with
          | zeros =>
            simp only [base, List.map_map, Function.comp_def, List.map_ofFn]
            rfl
          | replicate => rfl
        simp only [pstep, taps_ofFn (S := S) (P := P) (fill := fill) (padMode := padMode) (bias := bias), if_neg hst,
          Option.map_none, CoInf.Conv.leaf, h1, h2]
        apply key
        intro s hs
        simp only [CoInf.Conv.initState] at hs
        rw [List.eq_of_mem_replicate hs]
        unfold CoInf.Conv.padRest
        split
        · rw [List.length_map]; exact htl
        · exact htl

end Conv

end CoInf.Shape
