import Verif.Lemmas.Heap

set_option autoImplicit false

namespace CoInf.Heap
open Spec
variable {X Y V : Type}

/-- The memory and address with which a step starts: the given state, or a new buffer. -/
structure Base {A : Type} (s : Option (Nat × A)) (h : Mem V) (a : Nat) (h1 : Mem V) : Prop where
  lt : a < h1.length
  le : h.length ≤ h1.length
  old : ∀ q < h.length, read h1 q = read h q
  own : h.length ≤ a ∨ s.map Prod.fst = some a

theorem Base.given {A : Type} {st : Nat × A} {h : Mem V} (hv : st.1 < h.length) : Base (some st) h st.1 h :=
  ⟨hv, Nat.le_refl _, fun _ _ => rfl, .inr rfl⟩

theorem Base.fresh {A : Type} {s : Option (Nat × A)} {h : Mem V} (b : List V) : Base s h h.length (h ++ [b]) :=
  ⟨by simp, by simp, fun _ hq => read_append_lt hq _, .inl (Nat.le_refl _)⟩

theorem pySet_nil {α : Type} (i : Int) (v : α) : pySet ([] : List α) i v = .error .index := by
  unfold pySet; simp

/-- Writing into the buffer, possibly after making other tensors. -/
theorem Base.write {A : Type} {s : Option (Nat × A)} {h h1 : Mem V} {a : Nat} (B : Base s h a h1) (t : Mem V) {i : Int} {v : V} {b : List V}
    (hb : pySet (read h1 a) i v = .ok b) :
    store (h1 ++ t) a i v = .ok ((h1 ++ t).set a b) ∧ Frame true s h ((h1 ++ t).set a b) ∧
      read ((h1 ++ t).set a b) a = b ∧ a < ((h1 ++ t).set a b).length := by
  have hlt : a < (h1 ++ t).length := by have := B.lt; simp; omega
  refine ⟨?_, ⟨?_, ?_⟩, read_set_self hlt b, by simpa using hlt⟩
  · unfold store; rw [read_append_lt B.lt, hb]; rfl
  · have := B.le; simp; omega
  · intro q hq hs
    by_cases e : q = a
    · subst e
      rcases hs with hs | hs | hs
      · cases hs
      · rcases B.own with c | c
        · omega
        · exact absurd c hs
      · rw [B.old q hq, hs, pySet_nil] at hb; cases hb
    · rw [read_set_ne e, read_append_lt (Nat.lt_of_lt_of_le hq B.le), B.old q hq]

theorem Base.write_error {A : Type} {s : Option (Nat × A)} {h h1 : Mem V} {a : Nat} (B : Base s h a h1) (t : Mem V) {i : Int} {v : V} {e : Err}
    (hb : pySet (read h1 a) i v = .error e) : store (h1 ++ t) a i v = .error e := by
  unfold store; rw [read_append_lt B.lt, hb]; rfl

theorem Base.owned {A : Type} {s : Option (Nat × A)} {h h1 h2 : Mem V} {a : Nat} (B : Base s h a h1) (hl : a < h2.length) (c : A) :
    Owned s h (some (a, c)) h2 := by
  intro st hst
  cases hst
  exact ⟨hl, B.own⟩

/-! ### Delay -/

theorem delay_step (c : Delay.Cfg X) (x : X) (s : Option (Nat × Int)) (h : Mem X) (hv : ∀ st, s = some st → st.1 < h.length) :
    StepOk true some id s h (Delay.pstep c x (s.map fun st => (read h st.1, st.2))) (delayStep c x s h) := by
  unfold StepOk
  by_cases h0 : c.d = 0
  · have e1 : Delay.pstep c x (s.map fun st => (read h st.1, st.2)) =
        .ok (some x, s.map fun st => (read h st.1, st.2)) := by
      unfold Delay.pstep; rw [if_pos h0]
    rw [e1]
    have e2 : delayStep c x s h = .ok ⟨some ⟨h.length, 0⟩, s, h ++ [[x]]⟩ := by
      unfold delayStep; rw [if_pos h0]; rfl
    refine ⟨_, e2, ?_, id, ⟨by simp, fun q hq _ => read_append_lt hq _⟩, ?_, ⟨x, ?_, rfl⟩, rfl, by simp, by simp, ?_⟩
    · cases s with
      | none => rfl
      | some st => simp only [Option.map_some, id]; rw [read_append_lt (hv st rfl)]
    · intro st hst
      refine ⟨?_, .inr (by have e : s = some st := hst; rw [e]; rfl)⟩
      have := hv st hst
      simp; omega
    · simp [View.read, read_alloc]
    · intro st hst he
      have := hv st hst
      simp only at he
      omega
  · -- the state with which the step starts
    obtain ⟨a, index, h1, B, hval, hmem⟩ : ∃ (a : Nat) (index : Int) (h1 : Mem X), Base s h a h1 ∧
        Delay.pstep c x (s.map fun st => (read h st.1, st.2)) = Delay.pstep c x (some (read h1 a, index)) ∧
        delayStep c x s h = delayStep c x (some (a, index)) h1 := by
      cases s with
      | some st => exact ⟨st.1, st.2, h, .given (hv st rfl), rfl, rfl⟩
      | none =>
        refine ⟨h.length, (Delay.initState c x).2, h ++ [(Delay.initState c x).1], .fresh _, ?_, ?_⟩
        · rw [read_alloc]; unfold Delay.pstep; rw [if_neg h0, if_neg h0]; rfl
        · unfold delayStep alloc; rw [if_neg h0, if_neg h0]
    rw [hval, hmem]
    unfold Delay.pstep delayStep
    simp only [if_neg h0]
    by_cases hi : index ≥ 0
    · simp only [if_pos hi]
      cases hg : pyGet (read h1 a) index with
      | error e => simp [Except.map, bind, Except.bind]
      | ok v =>
        simp only [Except.map, bind, Except.bind, alloc]
        cases hb : pySet (read h1 a) (index % c.d) x with
        | error e => simp [B.write_error [[v]] hb]
        | ok b =>
          obtain ⟨w1, w2, w3, w4⟩ := B.write [[v]] hb
          simp only [w1, pure, Except.pure]
          refine ⟨_, rfl, ?_, ?_, w2, B.owned w4 _, ⟨v, ?_, rfl⟩, rfl, ?_, ?_, ?_⟩
          · simp only [Option.map_some, id]; rw [w3]
          · intro e; cases e
          · have : h1.length ≠ a := Nat.ne_of_gt B.lt
            simp only [View.read]
            rw [read_set_ne this, read_alloc]; rfl
          · exact B.le
          · simp
          · intro st hst
            cases hst
            exact Nat.ne_of_lt B.lt
    · simp only [if_neg hi, bind, Except.bind]
      cases hb : pySet (read h1 a) (index % c.d) x with
      | error e => have := B.write_error [] hb; rw [List.append_nil] at this; simp [this]
      | ok b =>
        obtain ⟨w1, w2, w3, w4⟩ := B.write [] hb
        rw [List.append_nil] at w1 w2 w3 w4
        simp only [w1, pure, Except.pure]
        refine ⟨_, rfl, ?_, ?_, w2, B.owned w4 _, trivial⟩
        · simp only [Option.map_some, id]; rw [w3]
        · intro e; cases e

theorem delay_models (c : Delay.Cfg X) :
    Models true (delay c) (Delay.leaf c) (fun xs => .ok (Delay.forward c xs)) id id where
  init := rfl
  clean := fun _ => rfl
  get := fun _ => rfl
  set := fun _ _ => rfl
  padding := rfl
  makePad := rfl
  fwd := rfl
  pstep := fun x s h hv => delay_step c x s h hv

/-! ### Pooling -/

/-- The pooling state as a record. -/
def poolVal (p : List Y × Int × Int) : Pool.St Y := ⟨p.1, p.2.1, p.2.2⟩

theorem pool_step (c : Pool.Cfg X Y) (x : X) (s : Option (Nat × Int × Int)) (h : Mem Y)
    (hv : ∀ st, s = some st → st.1 < h.length) :
    StepOk true some poolVal s h (Pool.pstep c x (s.map fun st => poolVal (read h st.1, st.2))) (poolStep c x s h) := by
  unfold StepOk
  obtain ⟨a, index, si, h1, B, hval, hmem⟩ : ∃ (a : Nat) (index si : Int) (h1 : Mem Y), Base s h a h1 ∧
      Pool.pstep c x (s.map fun st => poolVal (read h st.1, st.2)) = Pool.pstep c x (some ⟨read h1 a, index, si⟩) ∧
      poolStep c x s h = poolStep c x (some (a, index, si)) h1 := by
    cases s with
    | some st => exact ⟨st.1, st.2.1, st.2.2, h, .given (hv st rfl), rfl, rfl⟩
    | none =>
      refine ⟨h.length, (Pool.initState c (c.spatial x)).index, (Pool.initState c (c.spatial x)).strideIndex,
        h ++ [(Pool.initState c (c.spatial x)).buffer], .fresh _, ?_, ?_⟩
      · rw [read_alloc]; unfold Pool.pstep; rfl
      · unfold poolStep alloc; rfl
  rw [hval, hmem]
  unfold Pool.pstep poolStep
  cases hb : pySet (read h1 a) index (c.spatial x) with
  | error e => have := B.write_error [] hb; rw [List.append_nil] at this; simp [this, hb, bind, Except.bind]
  | ok b =>
    obtain ⟨w1, w2, w3, w4⟩ := B.write [] hb
    rw [List.append_nil] at w1 w2 w3 w4
    simp only [w1, hb, bind, Except.bind, w3]
    by_cases hs : si = (c.S : Int) - 1
    · simp only [if_pos hs]
      cases hsel : Pool.select c b ((index + 1) % (c.K : Int)) with
      | error e => simp
      | ok sel =>
        simp only [pure, Except.pure, alloc]
        refine ⟨_, rfl, ?_, ?_, ⟨?_, ?_⟩, B.owned ?_ _, ⟨c.pool sel, ?_, rfl⟩, rfl, ?_, ?_, ?_⟩
        · simp only [Option.map_some, poolVal]; rw [read_append_lt w4, w3]
        · intro e; cases e
        · have := w2.1; simp only [List.length_append]; omega
        · intro q hq hq'
          rw [read_append_lt (Nat.lt_of_lt_of_le hq w2.1), w2.2 q hq hq']
        · simp only [List.length_append]; omega
        · simp only [View.read]; rw [read_alloc]; rfl
        · exact w2.1
        · simp
        · intro st hst
          cases hst
          exact Nat.ne_of_lt w4
    · simp only [if_neg hs, pure, Except.pure]
      refine ⟨_, rfl, ?_, ?_, w2, B.owned w4 _, trivial⟩
      · simp only [Option.map_some, poolVal]; rw [w3]
      · intro e; cases e

theorem pool_models (c : Pool.Cfg X Y) : Models true (pool c) (Pool.leaf c) (Pool.forward c) poolVal poolVal where
  init := rfl
  clean := fun _ => rfl
  get := fun _ => rfl
  set := fun _ _ => rfl
  padding := rfl
  makePad := rfl
  fwd := rfl
  pstep := fun x s h hv => pool_step c x s h hv

/-! ### Convolution -/
section
variable [Zero X] [AddCommMonoid Y]

/-- The convolution state as a record. -/
def convVal (p : List (List Y) × Int × Int) : Conv.St Y := ⟨p.1, p.2.1, p.2.2⟩

/-- Writing back after the output tensor was made. -/
theorem convWrite_spec (c : Conv.Cfg X Y) (training : Bool) {s : Option (Nat × Int × Int)} {h h1 : Mem (List Y)} {a : Nat}
    (B : Base s h a h1) (t : Mem (List Y)) (index si : Int) (rest : List Y) :
    match Conv.writeBack c ⟨read h1 a, index, si⟩ rest with
    | .error e => convWrite c training a index rest (h1 ++ t) = .error e
    | .ok (b, i') => ∃ a' h', convWrite c training a index rest (h1 ++ t) = .ok ((a', i'), h') ∧ read h' a' = b ∧
        a' < h'.length ∧ Frame (!training) s h h' ∧ (h.length ≤ a' ∨ s.map Prod.fst = some a') ∧
        (∀ q < (h1 ++ t).length, q ≠ a → read h' q = read (h1 ++ t) q) ∧ (h1 ++ t).length ≤ h'.length ∧
        (a' = a ∨ (h1 ++ t).length ≤ a') := by
  have hla : a < (h1 ++ t).length := by have := B.lt; simp; omega
  have fr : ∀ {ip : Bool} (u : Mem (List Y)), Frame ip s h (h1 ++ u) := fun u => ⟨by have := B.le; simp; omega, fun q hq _ => by
      rw [read_append_lt (Nat.lt_of_lt_of_le hq B.le), B.old q hq]⟩
  unfold Conv.writeBack convWrite
  by_cases hK : c.K > 1
  · simp only [if_pos hK]
    cases training with
    | false =>
      simp only [Bool.false_eq_true, if_false]
      cases hb : pySet (read h1 a) index rest with
      | error e => simp [B.write_error t hb, bind, Except.bind]
      | ok b =>
        obtain ⟨w1, w2, w3, w4⟩ := B.write t hb
        simp only [w1, bind, Except.bind, pure, Except.pure]
        exact ⟨a, _, rfl, w3, w4, w2, B.own, fun q _ hq => read_set_ne hq _, by simp, .inl rfl⟩
    | true =>
      simp only [if_true, alloc]
      have B' : Base (none : Option (Nat × Int × Int)) (h1 ++ t) (h1 ++ t).length ((h1 ++ t) ++ [read (h1 ++ t) a]) :=
        .fresh _
      have e : read ((h1 ++ t) ++ [read (h1 ++ t) a]) (h1 ++ t).length = read h1 a := by
        rw [read_alloc, read_append_lt B.lt]
      cases hb : pySet (read h1 a) index rest with
      | error er =>
        have := B'.write_error [] (i := index) (v := rest) (e := er) (by rw [e]; exact hb)
        rw [List.append_nil] at this
        simp only [this, bind, Except.bind]
      | ok b =>
        obtain ⟨w1, w2, w3, w4⟩ := B'.write [] (i := index) (v := rest) (b := b) (by rw [e]; exact hb)
        rw [List.append_nil] at w1 w2 w3 w4
        simp only [w1, bind, Except.bind, pure, Except.pure]
        have hold : ∀ q < (h1 ++ t).length, read ((h1 ++ t ++ [read (h1 ++ t) a]).set (h1 ++ t).length b) q = read (h1 ++ t) q :=
          fun q hq => w2.2 q hq (.inr (.inl (by simp)))
        refine ⟨_, _, rfl, w3, w4, ⟨?_, fun q hq _ => ?_⟩, .inl ?_, fun q hq _ => hold q hq, w2.1, .inr (Nat.le_refl _)⟩
        · exact Nat.le_trans (fr (ip := true) t).1 w2.1
        · rw [hold q (Nat.lt_of_lt_of_le hq (fr (ip := true) t).1)]
          rw [read_append_lt (Nat.lt_of_lt_of_le hq B.le), B.old q hq]
        · exact (fr (ip := true) t).1
  · simp only [if_neg hK]
    exact ⟨a, _, rfl, read_append_lt B.lt t, hla, fr t, B.own, fun _ _ _ => rfl, Nat.le_refl _, .inl rfl⟩

theorem conv_step (c : Conv.Cfg X Y) (training : Bool) (x : X) (s : Option (Nat × Int × Int)) (h : Mem (List Y))
    (hv : ∀ st, s = some st → st.1 < h.length) :
    StepOk (!training) List.head? convVal s h (Conv.pstep c x (s.map fun st => convVal (read h st.1, st.2)))
      (convStep c training x s h) := by
  unfold StepOk
  by_cases h0 : Conv.stateless c = true
  · have e1 : Conv.pstep c x (s.map fun st => convVal (read h st.1, st.2)) =
        (do let ys ← Conv.forward c [x]; let y ← pyGet ys 0
            return (some y, s.map fun st => convVal (read h st.1, st.2))) := by
      unfold Conv.pstep; rw [if_pos h0]
    have e2 : convStep c training x s h = (match Conv.forward c [x] with
        | .error e => .error e
        | .ok ys => match pyGet ys 0 with
          | .error e => .error e
          | .ok y => .ok ⟨some ⟨h.length, 0⟩, s, h ++ [[[y]]]⟩) := by
      unfold convStep alloc; rw [if_pos h0]; rfl
    rw [e1, e2]
    cases Conv.forward c [x] with
    | error e => simp [bind, Except.bind]
    | ok ys =>
      simp only [bind, Except.bind]
      cases pyGet ys 0 with
      | error e => simp
      | ok y =>
        simp only [pure, Except.pure]
        refine ⟨_, rfl, ?_, id, ⟨by simp, fun q hq _ => read_append_lt hq _⟩, ?_, ⟨[y], ?_, rfl⟩, rfl, by simp, by simp, ?_⟩
        · cases s with
          | none => rfl
          | some st => simp only [Option.map_some]; rw [read_append_lt (hv st rfl)]
        · intro st hst
          refine ⟨?_, .inr (by have e : s = some st := hst; rw [e]; rfl)⟩
          have := hv st hst
          simp; omega
        · simp [View.read, read_alloc]
        · intro st hst he
          have := hv st hst
          simp only at he
          omega
  · obtain ⟨a, index, si, h1, B, hval, hmem⟩ : ∃ (a : Nat) (index si : Int) (h1 : Mem (List Y)), Base s h a h1 ∧
        Conv.pstep c x (s.map fun st => convVal (read h st.1, st.2)) = Conv.pstep c x (some ⟨read h1 a, index, si⟩) ∧
        convStep c training x s h = convStep c training x (some (a, index, si)) h1 := by
      cases s with
      | some st => exact ⟨st.1, st.2.1, st.2.2, h, .given (hv st rfl), rfl, rfl⟩
      | none =>
        refine ⟨h.length, (Conv.initState c ((Conv.taps c x).drop 1)).index,
          (Conv.initState c ((Conv.taps c x).drop 1)).strideIndex,
          h ++ [(Conv.initState c ((Conv.taps c x).drop 1)).buffer], .fresh _, ?_, ?_⟩
        · rw [read_alloc]; unfold Conv.pstep; rw [if_neg h0, if_neg h0]; rfl
        · unfold convStep alloc; rw [if_neg h0, if_neg h0]
    rw [hval, hmem]
    unfold Conv.pstep convStep
    rw [if_neg h0, if_neg h0]
    cases pyGet (Conv.taps c x) 0 with
    | error e => simp [bind, Except.bind]
    | ok xOut =>
      simp only [bind, Except.bind]
      cases Conv.output c ⟨read h1 a, index, si⟩ xOut with
      | error e => simp
      | ok out =>
        simp only
        cases out with
        | none =>
          simp only
          have hw := convWrite_spec c training B [] index si ((Conv.taps c x).drop 1)
          rw [List.append_nil] at hw
          cases hwb : Conv.writeBack c ⟨read h1 a, index, si⟩ ((Conv.taps c x).drop 1) with
          | error e => rw [hwb] at hw; simp only at hw; simp only [hw]
          | ok p =>
            obtain ⟨b, i'⟩ := p
            rw [hwb] at hw
            obtain ⟨a', h', k1, k2, k3, k4, k5, k6, k7, k8⟩ := hw
            simp only [k1, pure, Except.pure]
            refine ⟨_, rfl, ?_, ?_, k4, ?_, trivial⟩
            · simp only [Option.map_some, convVal]; rw [k2]
            · intro e; cases e
            · intro st hst; cases hst; exact ⟨k3, k5⟩
        | some y =>
          simp only [alloc]
          have hw := convWrite_spec c training B [[[y]]] index si ((Conv.taps c x).drop 1)
          cases hwb : Conv.writeBack c ⟨read h1 a, index, si⟩ ((Conv.taps c x).drop 1) with
          | error e => rw [hwb] at hw; simp only at hw; simp only [hw]
          | ok p =>
            obtain ⟨b, i'⟩ := p
            rw [hwb] at hw
            obtain ⟨a', h', k1, k2, k3, k4, k5, k6, k7, k8⟩ := hw
            simp only [k1, pure, Except.pure]
            have hne : h1.length ≠ a := Nat.ne_of_gt B.lt
            refine ⟨_, rfl, ?_, ?_, k4, ?_, ⟨[y], ?_, rfl⟩, rfl, B.le, ?_, ?_⟩
            · simp only [Option.map_some, convVal]; rw [k2]
            · intro e; cases e
            · intro st hst; cases hst; exact ⟨k3, k5⟩
            · simp only [View.read]; rw [k6 _ (by simp) hne, read_alloc]; rfl
            · have : (h1 ++ [[[y]]]).length ≤ h'.length := k7
              simp at this; exact this
            · intro st hst
              cases hst
              show a' ≠ h1.length
              rcases k8 with k8 | k8
              · rw [k8]; exact Nat.ne_of_lt B.lt
              · simp at k8; omega

theorem conv_models (c : Conv.Cfg X Y) (training : Bool) :
    Models (!training) (conv c training) (Conv.leaf c) (Conv.forward c) convVal convVal where
  init := rfl
  clean := fun _ => rfl
  get := fun _ => rfl
  set := fun _ _ => rfl
  padding := rfl
  makePad := rfl
  fwd := rfl
  pstep := fun x s h hv => conv_step c training x s h hv

end
end CoInf.Heap
