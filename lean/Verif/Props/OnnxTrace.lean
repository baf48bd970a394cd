/-
C84: the exported graph computes what the module computes, as long as no branch changes.
-/
import Verif.Props.OnnxStream
import Verif.Model.OnnxTrace
import Mathlib.Data.List.Rotate

set_option autoImplicit false

namespace CoInf.Onnx
open CoInf.Onnx.Spec
open CoInf.Spec (threadSteps PImplements)

variable {X Y T : Type}

mutual
/-- No member is warming up: the conditions of all members are the ones that give an output. -/
def Spec.Steady : TMod X T → Nested T → Prop
  | .leaf _ _ br _, v => br v = (true, true)
  | .seq ms, v => SteadyAll ms v.items
  | .reduce _ ms, v => SteadyAll ms v.items
def Spec.SteadyAll : List (TMod X T) → List (Nested T) → Prop
  | [], _ => True
  | m :: ms, vs => Steady m (vs.headD (.many [])) ∧ SteadyAll ms vs.tail
end

mutual
theorem traced_shape : (m : TMod X T) → (ex : Nested T) → (m.traced ex).shape = m.real.shape
  | .leaf n inds br f, ex => by simp [TMod.traced, TMod.real, Mod.shape]
  | .seq ms, ex => by simp [TMod.traced, TMod.real, Mod.shape, traceds_shape ms ex.items]
  | .reduce r ms, ex => by simp [TMod.traced, TMod.real, Mod.shape, traceds_shape ms ex.items]
theorem traceds_shape : (ms : List (TMod X T)) → (exs : List (Nested T)) →
    Mod.shapes (TMod.traceds ms exs) = Mod.shapes (TMod.reals ms)
  | [], exs => by simp [TMod.traceds, TMod.reals]
  | m :: ms, exs => by
    simp only [TMod.traceds, TMod.reals, Mod.shapes, traced_shape m (exs.headD (.many [])), traceds_shape ms exs.tail]
end

mutual
theorem traced_step : (m : TMod X T) → {ex v : Nested T} → Steady m ex → Steady m v → (x : X) →
    (m.traced ex).step x v = m.real.step x v
  | .leaf n inds br f, ex, v, h, h', x => by
    simp only [Steady] at h h'
    simp only [TMod.traced, TMod.real, Mod.step, h, h']
  | .seq ms, ex, v, h, h', x => by
    simp only [Steady] at h h'
    cases v with
    | one t => simp only [TMod.traced, TMod.real, Mod.step]
    | many vs =>
      simp only [TMod.traced, TMod.real, Mod.step]
      rw [show Mod.seqSteps (TMod.traceds ms ex.items) x vs = Mod.seqSteps (TMod.reals ms) x vs from traced_seq ms h h' x]
  | .reduce r ms, ex, v, h, h', x => by
    simp only [Steady] at h h'
    cases v with
    | one t => simp only [TMod.traced, TMod.real, Mod.step]
    | many vs =>
      simp only [TMod.traced, TMod.real, Mod.step]
      rw [show Mod.mapSteps (TMod.traceds ms ex.items) (fun _ => .ok x) 0 vs = Mod.mapSteps (TMod.reals ms) (fun _ => .ok x) 0 vs from traced_map ms h h' _ 0]
theorem traced_seq : (ms : List (TMod X T)) → {exs vs : List (Nested T)} → SteadyAll ms exs → SteadyAll ms vs → (x : X) →
    Mod.seqSteps (TMod.traceds ms exs) x vs = Mod.seqSteps (TMod.reals ms) x vs
  | [], exs, vs, h, h', x => by simp only [TMod.traceds, TMod.reals]
  | m :: ms, exs, vs, h, h', x => by
    simp only [SteadyAll] at h h'
    rw [TMod.traceds, TMod.reals, Mod.seqSteps, Mod.seqSteps]
    cases vs with
    | nil => simp only [pop]
    | cons v vs =>
      have h1 := traced_step m h.1 h'.1 x
      simp only [List.headD_cons, List.tail_cons] at h1 h'
      simp only [pop, h1]
      cases m.real.step x v with
      | error e => rfl
      | ok p =>
        obtain ⟨o, s'⟩ := p
        cases o with
        | none => rfl
        | some y => simp only [traced_seq ms h.2 h'.2 y]
theorem traced_map : (ms : List (TMod X T)) → {exs vs : List (Nested T)} → SteadyAll ms exs → SteadyAll ms vs →
    (inp : Nat → Except Err X) → (i : Nat) →
    Mod.mapSteps (TMod.traceds ms exs) inp i vs = Mod.mapSteps (TMod.reals ms) inp i vs
  | [], exs, vs, h, h', inp, i => by simp only [TMod.traceds, TMod.reals]
  | m :: ms, exs, vs, h, h', inp, i => by
    simp only [SteadyAll] at h h'
    rw [TMod.traceds, TMod.reals, Mod.mapSteps, Mod.mapSteps]
    cases inp i with
    | error e => rfl
    | ok x =>
      cases vs with
      | nil => simp only [pop]
      | cons v vs =>
        have h1 := traced_step m h.1 h'.1 x
        simp only [List.headD_cons, List.tail_cons] at h1 h'
        simp only [pop, h1]
        cases m.real.step x v with
        | error e => rfl
        | ok p => simp only [traced_map ms h.2 h'.2 inp (i + 1)]
end

/-- What is needed of a module. -/
structure TGood (t : TExp Y T) : Prop where
  good : Good t.exp
  real : t.tmod.real = t.exp.mod
  keeps : ∀ {x v o v'}, Steady t.tmod v → t.exp.mod.step x v = .ok (o, v') → Steady t.tmod v'
  ready : ∀ {x s y s' v}, t.exp.co.pstep x s = .ok (some y, s') → t.exp.enc s' = some v → Steady t.tmod v

theorem tgood_plain {m : Mod Y T} {co : CoMod (.stream Y) (.stream Y)} {enc : Option co.St → Option (Nested T)} {n : Nat}
    {inds : List Bool} {f : Y → Nested T → Except Err (Option Y × Nested T)} (hm : m = .leaf n inds f) (hg : Good ⟨co, m, enc⟩) :
    TGood ⟨⟨co, m, enc⟩, .plain n inds f⟩ where
  good := hg
  real := by simp only [TMod.plain, TMod.real, hm]
  keeps := by intros; simp only [TMod.plain, Steady]
  ready := by intros; simp only [TMod.plain, Steady]

theorem tgood_branch {m : CoMod (.stream Y) (.stream Y)} {n : Nat} {inds : List Bool} {dec : List (Nested T) → Option m.St}
    {enc : m.St → List T} {br : m.St → Bool × Bool} {f : Bool × Bool → Y → m.St → Except Err (Option Y × m.St)}
    (hg : Good (Exp.leaf m n inds dec enc)) (hd : ∀ s, dec ((enc s).map .one) = some s)
    {init : Y → m.St} (hn : ∀ x, m.pstep x none = m.pstep x (some (init x)))
    (hf : ∀ x s, m.pstep x (some s) = (f (br s) x s).map fun p => (p.1, some p.2))
    (hk : ∀ x s o s', br s = (true, true) → f (true, true) x s = .ok (o, s') → br s' = (true, true))
    (hr : ∀ x s y s', f (br s) x s = .ok (some y, s') → br s = (true, true)) :
    TGood ⟨Exp.leaf m n inds dec enc, .ofBranch n inds dec enc br f⟩ where
  good := hg
  real := by
    simp only [TMod.ofBranch, TMod.real, Exp.leaf, Mod.leaf.injEq, true_and]
    funext x s
    cases s with
    | one t => rfl
    | many l =>
      simp only [ofPstep, Nested.items]
      cases dec l with
      | none => rfl
      | some st => simp only [hf]
  keeps := by
    intro x v o v' h h'
    simp only [TMod.ofBranch, Steady] at h ⊢
    cases v with
    | one t => simp only [Exp.leaf, Mod.step, ofPstep] at h'; cases h'
    | many l =>
      simp only [Nested.items] at h
      simp only [Exp.leaf, Mod.step, ofPstep] at h'
      cases hl : dec l with
      | none => rw [hl] at h'; cases h'
      | some st =>
        rw [hl] at h h'
        simp only [hf] at h h'
        rw [h] at h'
        cases hs : f (true, true) x st with
        | error e => rw [hs] at h'; cases h'
        | ok p =>
          rw [hs] at h'
          cases h'
          simp only [Nested.items, hd]
          exact hk x st p.1 p.2 h hs
  ready := by
    intro x s y s' v h h'
    obtain ⟨st, rfl, rfl⟩ := Option.map_eq_some_iff.1 h'
    simp only [TMod.ofBranch, Steady, Nested.items, hd]
    have key : ∀ s0, m.pstep x (some s0) = .ok (some y, some st) → br st = (true, true) := by
      intro s0 h0
      rw [hf] at h0
      cases hs : f (br s0) x s0 with
      | error e => rw [hs] at h0; cases h0
      | ok p =>
        obtain ⟨o, s1⟩ := p
        rw [hs] at h0
        cases h0
        have hb := hr x s0 y s1 hs
        rw [hb] at hs
        exact hk x s0 _ s1 hb hs
    cases s with
    | some s0 => exact key s0 h
    | none => exact key (init x) ((hn x).symm.trans h)

theorem tgood_delay (c : Delay.Cfg Y) : TGood (TExp.delay c) := by
  by_cases hd : c.d = 0
  · have h1 : TExp.delay c = ⟨⟨Delay.mod c, delay c, (Exp.delay c).enc⟩,
        .plain 0 [] (ofStateless fun x => (Delay.pstep c x none).map (·.1))⟩ := by
      simp only [TExp.delay, Traced.delay, hd, if_true]; rfl
    rw [h1]
    exact tgood_plain (by simp only [delay, hd, if_true]) (good_delay c)
  · have hpos : (0 : Int) < c.d := by omega
    have h1 : TExp.delay c = ⟨Exp.leaf (T := Tensor Y) (Delay.mod c) 2 [true, false]
        (fun | [.one (.buf b), .one (.idx i)] => some (b, i) | _ => none) (fun s => [.buf s.1, .idx s.2]),
        .ofBranch 2 [true, false] (fun | [.one (.buf b), .one (.idx i)] => some (b, i) | _ => none)
          (fun s => [.buf s.1, .idx s.2]) (fun st => (decide (st.2 ≥ 0), decide (st.2 + 1 > 0))) (Traced.delayStep c)⟩ := by
      simp only [TExp.delay, Traced.delay, Exp.delay, delay, hd, if_false, Exp.leaf]; rfl
    rw [h1]
    refine tgood_branch (m := Delay.mod c) (init := Delay.initState c)
      (good_leaf rfl (fun _ => rfl) (fun _ => rfl) (delay_some c hd)) (fun _ => rfl) ?_ ?_ ?_ ?_
    · intro x
      show Delay.pstep c x none = Delay.pstep c x (some (Delay.initState c x))
      simp only [Delay.pstep, if_neg hd]
    · intro x s
      show Delay.pstep c x (some s) = _
      obtain ⟨b, i⟩ := s
      simp only [Delay.pstep, if_neg hd, Traced.delayStep, bind, Except.bind, pure, Except.pure, decide_eq_true_eq]
      by_cases hi : i ≥ 0
      · simp only [hi, if_true]
        cases pyGet b i with
        | error e => rfl
        | ok o =>
          simp only [Except.map]
          cases pySet b (i % c.d) x <;> rfl
      · simp only [hi, if_false]
        cases pySet b (i % c.d) x <;> rfl
    · intro x s o s' h h'
      obtain ⟨b, i⟩ := s
      simp only [Prod.mk.injEq, decide_eq_true_eq] at h
      simp only [Traced.delayStep, if_true] at h'
      repeat' split at h'
      all_goals first | (cases h'; done) | skip
      cases h'
      simp only [Prod.mk.injEq, decide_eq_true_eq]
      have := Int.emod_nonneg (i + 1) (by omega : (c.d : Int) ≠ 0)
      omega
    · intro x s y s' h
      obtain ⟨b, i⟩ := s
      by_cases hi : i ≥ 0
      · simp only [Prod.mk.injEq, decide_eq_true_eq]; omega
      · simp only [Traced.delayStep, hi, decide_false, Bool.false_eq_true, if_false] at h
        split at h
        · cases h
        · cases h

theorem tgood_skip (n : Nat) : TGood (TExp.skip (Y := Y) n) := by
  refine tgood_branch (m := Skip.mod n Y) (init := fun _ => -(n : Int)) (good_skip n) (fun _ => rfl) (fun _ => rfl) ?_ ?_ ?_
  · intro x s
    show Skip.pstep n x (some s) = _
    simp only [Skip.pstep, Traced.skipStep, decide_eq_true_eq]
    split <;> rfl
  · intro x s o s' h h'
    simp only [Traced.skipStep, if_true] at h'
    cases h'
    exact h
  · intro x s y s' h
    by_cases hi : (s : Int) ≥ 0
    · simp only [hi, decide_true]
    · simp only [Traced.skipStep, hi, decide_false, Bool.false_eq_true, if_false] at h
      cases h

theorem conv_real [AddCommMonoid Y] (c : Conv.Cfg Y Y) (hd : ¬ Conv.stateless c) (x : Y) (s : Conv.St Y) :
    Conv.pstep c x (some s) =
      (Traced.convStep c (decide (s.strideIndex = (c.S : Int) - 1), decide (s.strideIndex + 1 > 0)) x s).map
        fun p => (p.1, some p.2) := by
  simp only [Conv.pstep, if_neg hd, Traced.convStep, Conv.output, Traced.stride, Conv.nextStride, bind, Except.bind, pure,
    Except.pure, decide_eq_true_eq]
  cases pyGet (Conv.taps c x) 0 with
  | error e => rfl
  | ok xOut =>
    simp only
    by_cases hs : s.strideIndex = (c.S : Int) - 1
    · simp only [hs, if_true]
      cases Conv.pick s (c.K - 1) with
      | error e => rfl
      | ok ps =>
        simp only [Except.map]
        cases Conv.writeBack c s (List.drop 1 (Conv.taps c x)) <;> rfl
    · simp only [hs, if_false]
      cases Conv.writeBack c s (List.drop 1 (Conv.taps c x)) <;> rfl

theorem tgood_conv [AddCommMonoid Y] (c : Conv.Cfg Y Y) (hS : c.S = 1) : TGood (TExp.conv c) := by
  by_cases hd : Conv.stateless c
  · have h1 : TExp.conv c = ⟨⟨Conv.mod c, conv c, (Exp.conv c).enc⟩,
        .plain 0 [] (ofStateless fun x => (Conv.pstep c x none).map (·.1))⟩ := by
      simp only [TExp.conv, Traced.conv, hd, if_true]; rfl
    rw [h1]
    exact tgood_plain (by simp only [conv, hd, if_true]) (good_conv c)
  · have h1 : TExp.conv c = ⟨Exp.leaf (T := Tensor Y) (Conv.mod c) 3 [true, false, false]
        (fun | [.one (.taps b), .one (.idx i), .one (.idx k)] => some ⟨b, i, k⟩ | _ => none)
        (fun s => [.taps s.buffer, .idx s.index, .idx s.strideIndex]),
        .ofBranch 3 [true, false, false]
          (fun | [.one (.taps b), .one (.idx i), .one (.idx k)] => some ⟨b, i, k⟩ | _ => none)
          (fun s => [.taps s.buffer, .idx s.index, .idx s.strideIndex])
          (fun st => (decide (st.strideIndex = (c.S : Int) - 1), decide (st.strideIndex + 1 > 0))) (Traced.convStep c)⟩ := by
      simp only [TExp.conv, Traced.conv, Exp.conv, conv, hd, if_false, Exp.leaf, Bool.false_eq_true]; rfl
    rw [h1]
    refine tgood_branch (m := Conv.mod c) (init := fun x => Conv.initState c ((Conv.taps c x).drop 1))
      (good_leaf rfl (fun _ => rfl) (fun _ => rfl) (conv_some c hd)) (fun _ => rfl) ?_ (conv_real c hd) ?_ ?_
    · intro x
      show Conv.pstep c x none = Conv.pstep c x (some _)
      simp only [Conv.pstep, if_neg hd]
    · intro x s o s' h h'
      simp only [Prod.mk.injEq, decide_eq_true_eq, hS] at h
      simp only [Traced.convStep, if_true] at h'
      repeat' split at h'
      all_goals first | (cases h'; done) | skip
      cases h'
      simp only [Traced.stride, hS, if_true, Prod.mk.injEq, decide_eq_true_eq]
      omega
    · intro x s y s' h
      by_cases hi : (s : Conv.St Y).strideIndex = (c.S : Int) - 1
      · simp only [hi, decide_true, Prod.mk.injEq, true_and, decide_eq_true_eq]; omega
      · simp only [Traced.convStep, hi, decide_false, Bool.false_eq_true, if_false] at h
        repeat' split at h
        all_goals cases h

theorem pool_real (c : Pool.Cfg Y Y) (x : Y) (s : Pool.St Y) :
    Pool.pstep c x (some s) =
      (Traced.poolStep c (decide (s.strideIndex = (c.S : Int) - 1), decide (s.strideIndex + 1 > 0)) x s).map
        fun p => (p.1, some p.2) := by
  simp only [Pool.pstep, Traced.poolStep, Traced.stride, Conv.nextStride, bind, Except.bind, pure, Except.pure,
    decide_eq_true_eq]
  cases pySet s.buffer s.index (c.spatial x) with
  | error e => rfl
  | ok b =>
    simp only
    by_cases hs : s.strideIndex = (c.S : Int) - 1
    · simp only [hs, if_true]
      cases Pool.select c b ((s.index + 1) % (c.K : Int)) <;> rfl
    · simp only [hs, if_false]; rfl

theorem tgood_pool (c : Pool.Cfg Y Y) (hS : c.S = 1) : TGood (TExp.pool c) := by
  refine tgood_branch (m := Pool.mod c) (init := fun x => Pool.initState c (c.spatial x)) (good_pool c) (fun _ => rfl)
    (fun _ => rfl) (pool_real c) ?_ ?_
  · intro x s o s' h h'
    simp only [Prod.mk.injEq, decide_eq_true_eq, hS] at h
    simp only [Traced.poolStep, if_true] at h'
    repeat' split at h'
    all_goals first | (cases h'; done) | skip
    cases h'
    simp only [Traced.stride, hS, if_true, Prod.mk.injEq, decide_eq_true_eq]
    omega
  · intro x s y s' h
    by_cases hi : (s : Pool.St Y).strideIndex = (c.S : Int) - 1
    · simp only [hi, decide_true, Prod.mk.injEq, true_and, decide_eq_true_eq]; omega
    · simp only [Traced.poolStep, hi, decide_false, Bool.false_eq_true, if_false] at h
      repeat' split at h
      all_goals cases h

theorem tgood_map (f : Y → Y) : TGood (TExp.map (T := T) f) := tgood_plain rfl (good_map f)

theorem tgood_leaf {m : CoMod (.stream Y) (.stream Y)} {n : Nat} {inds : List Bool} {dec : List (Nested T) → Option m.St}
    {enc : m.St → List T} (hg : Good (Exp.leaf m n inds dec enc)) : TGood (TExp.leaf m n inds dec enc) := tgood_plain rfl hg

/-! ### Containers -/

theorem reals_map : ∀ (ts : List (TExp Y T)), (∀ t ∈ ts, TGood t) →
    TMod.reals (ts.map (·.tmod)) = (ts.map (·.exp)).map (·.mod)
  | [], _ => by simp only [List.map_nil, TMod.reals]
  | t :: ts, h => by
    simp only [List.map_cons, TMod.reals, (h t (by simp)).real, reals_map ts fun t' h' => h t' (by simp [h'])]

theorem keeps_seq : ∀ (ts : List (TExp Y T)), (∀ t ∈ ts, TGood t) → ∀ {x o vs vs'}, SteadyAll (ts.map (·.tmod)) vs →
    Mod.seqSteps ((ts.map (·.exp)).map (·.mod)) x vs = .ok (o, vs') → SteadyAll (ts.map (·.tmod)) vs'
  | [], _, x, o, vs, vs', h, h' => by simp only [List.map_nil, SteadyAll]
  | t :: ts, ht, x, o, vs, vs', h, h' => by
    simp only [List.map_cons, SteadyAll] at h ⊢
    simp only [List.map_cons] at h'
    rw [Mod.seqSteps] at h'
    cases vs with
    | nil => simp only [pop] at h'; cases h'
    | cons v vs =>
      simp only [pop] at h'
      simp only [List.headD_cons, List.tail_cons] at h
      cases hp : t.exp.mod.step x v with
      | error e => rw [hp] at h'; cases h'
      | ok p =>
        obtain ⟨o', v'⟩ := p
        rw [hp] at h'
        have h1 := (ht t (by simp)).keeps h.1 hp
        cases o' with
        | none => cases h'; exact ⟨h1, h.2⟩
        | some y =>
          simp only at h'
          cases hq : Mod.seqSteps ((ts.map (·.exp)).map (·.mod)) y vs with
          | error e => rw [hq] at h'; cases h'
          | ok p2 =>
            obtain ⟨o2, vs2⟩ := p2
            rw [hq] at h'
            cases h'
            exact ⟨h1, keeps_seq ts (fun t' h' => ht t' (by simp [h'])) h.2 hq⟩

theorem keeps_map : ∀ (ts : List (TExp Y T)), (∀ t ∈ ts, TGood t) → ∀ {inp i os vs vs'}, SteadyAll (ts.map (·.tmod)) vs →
    Mod.mapSteps ((ts.map (·.exp)).map (·.mod)) inp i vs = .ok (os, vs') → SteadyAll (ts.map (·.tmod)) vs'
  | [], _, inp, i, o, vs, vs', h, h' => by simp only [List.map_nil, SteadyAll]
  | t :: ts, ht, inp, i, o, vs, vs', h, h' => by
    simp only [List.map_cons, SteadyAll] at h ⊢
    simp only [List.map_cons] at h'
    rw [Mod.mapSteps] at h'
    cases hi : inp i with
    | error e => rw [hi] at h'; cases h'
    | ok x =>
      rw [hi] at h'
      cases vs with
      | nil => simp only [pop] at h'; cases h'
      | cons v vs =>
        simp only [pop] at h'
        simp only [List.headD_cons, List.tail_cons] at h
        cases hp : t.exp.mod.step x v with
        | error e => rw [hp] at h'; cases h'
        | ok p =>
          obtain ⟨o', v'⟩ := p
          rw [hp] at h'
          simp only at h'
          cases hq : Mod.mapSteps ((ts.map (·.exp)).map (·.mod)) inp (i + 1) vs with
          | error e => rw [hq] at h'; cases h'
          | ok p2 =>
            obtain ⟨o2, vs2⟩ := p2
            rw [hq] at h'
            cases h'
            exact ⟨(ht t (by simp)).keeps h.1 hp, keeps_map ts (fun t' h' => ht t' (by simp [h'])) h.2 hq⟩

theorem ready_chain : ∀ (t : TExp Y T) (ts : List (TExp Y T)), TGood t → (∀ t' ∈ ts, TGood t') → ∀ {s s' y vs} {x : Y},
    (Exp.chain t.exp (ts.map (·.exp))).pstepAll x s = .ok (some y, s') →
    Exp.chainEnc t.exp (ts.map (·.exp)) s' = some vs → SteadyAll (t.tmod :: ts.map (·.tmod)) vs
  | t, [], ht, _, s, s', y, vs, x, h, h' => by
    obtain ⟨v, hv, rfl⟩ := Option.map_eq_some_iff.1 h'
    simp only [List.map_nil, SteadyAll, and_true, List.headD_cons]
    exact ht.ready h hv
  | t, t' :: ts, ht, hts, (s : Option t.exp.co.St × (Exp.chain t'.exp (ts.map (·.exp))).St), s', y, vs, x, h, h' => by
    cases hp : t.exp.co.pstep x s.1 with
    | error er =>
      have hc : (Exp.chain t.exp (t'.exp :: ts.map (·.exp))).pstepAll x s = .error er := pstepAll_error hp
      cases hc.symm.trans h
    | ok p =>
      obtain ⟨o, s1⟩ := p
      cases o with
      | none =>
        have hc : (Exp.chain t.exp (t'.exp :: ts.map (·.exp))).pstepAll x s = .ok (none, (s1, s.2)) := pstepAll_none hp
        cases hc.symm.trans h
      | some z =>
        cases hq : (Exp.chain t'.exp (ts.map (·.exp))).pstepAll z s.2 with
        | error er =>
          have hc : (Exp.chain t.exp (t'.exp :: ts.map (·.exp))).pstepAll x s = .error er := pstepAll_some_error hp hq
          cases hc.symm.trans h
        | ok p2 =>
          obtain ⟨z2, s2⟩ := p2
          have hc : (Exp.chain t.exp (t'.exp :: ts.map (·.exp))).pstepAll x s = .ok (z2, (s1, s2)) := pstepAll_some_ok hp hq
          cases hc.symm.trans h
          have h' : (match t.exp.enc s1, Exp.chainEnc t'.exp (ts.map TExp.exp) s2 with
            | some s, some ss => some (s :: ss)
            | _, _ => none) = some vs := h'
          split at h'
          · rename_i v vs1 hv hvs
            cases h'
            rw [SteadyAll]
            simp only [List.headD_cons, List.tail_cons]
            exact ⟨ht.ready hp hv, ready_chain t' ts (hts t' (by simp)) (fun t'' h'' => hts t'' (by simp [h''])) hq hvs⟩
          · cases h'

theorem ready_list : ∀ (ts : List (TExp Y T)), (∀ t ∈ ts, TGood t) → ∀ {x : Y} {s os s' vs},
    BroadcastReduce.pstepAll ((ts.map (·.exp)).map (·.co)) x s = .ok (os, s') → (os.all Option.isSome) = true →
    Exp.listEnc (ts.map (·.exp)) s' = some vs → SteadyAll (ts.map (·.tmod)) vs
  | [], _, x, s, os, s', vs, h, _, _ => by simp only [List.map_nil, SteadyAll]
  | t :: ts, hts, x, (s : Option t.exp.co.St × BroadcastReduce.St ((ts.map (·.exp)).map (·.co))), os, s', vs, h, ho, h' => by
    cases hp : t.exp.co.pstep x s.1 with
    | error er =>
      have hc : BroadcastReduce.pstepAll (((t :: ts).map (·.exp)).map (·.co)) x s = .error er := par_error hp
      cases hc.symm.trans h
    | ok p =>
      obtain ⟨o, s1⟩ := p
      cases hq : BroadcastReduce.pstepAll ((ts.map (·.exp)).map (·.co)) x s.2 with
      | error er =>
        have hc : BroadcastReduce.pstepAll (((t :: ts).map (·.exp)).map (·.co)) x s = .error er := par_ok_error hp hq
        cases hc.symm.trans h
      | ok p2 =>
        obtain ⟨os', s2⟩ := p2
        have hc : BroadcastReduce.pstepAll (((t :: ts).map (·.exp)).map (·.co)) x s = .ok (o :: os', (s1, s2)) := par_ok hp hq
        cases hc.symm.trans h
        simp only [List.all_cons, Bool.and_eq_true] at ho
        obtain ⟨y, rfl⟩ := Option.isSome_iff_exists.1 ho.1
        have h' : (match t.exp.enc s1, Exp.listEnc (ts.map TExp.exp) s2 with
          | some s, some ss => some (s :: ss)
          | _, _ => none) = some vs := h'
        split at h'
        · rename_i v vs1 hv hvs
          cases h'
          rw [List.map_cons, SteadyAll]
          simp only [List.headD_cons, List.tail_cons]
          exact ⟨(hts t (by simp)).ready hp hv, ready_list ts (fun t'' h'' => hts t'' (by simp [h''])) hq ho.2 hvs⟩
        · cases h'

theorem tgood_seq {t : TExp Y T} {ts : List (TExp Y T)} (ht : TGood t) (hts : ∀ t' ∈ ts, TGood t') : TGood (TExp.seq t ts) where
  good := good_seq ht.good (by simpa using fun t' h' => (hts t' h').good)
  real := by
    have := reals_map (t :: ts) (by simpa using ⟨ht, hts⟩)
    simp only [List.map_cons] at this
    simp only [TExp.seq, TMod.real, this, Exp.seq]
  keeps := by
    intro x v o v' h h'
    simp only [TExp.seq, Exp.seq] at h'
    cases v with
    | one _ => simp only [Mod.step] at h'; cases h'
    | many vs =>
      simp only [TExp.seq, Steady] at h ⊢
      simp only [Mod.step] at h'
      cases hq : Mod.seqSteps (t.exp.mod :: (ts.map (·.exp)).map (·.mod)) x vs with
      | error e => rw [hq] at h'; cases h'
      | ok p =>
        obtain ⟨o2, vs2⟩ := p
        rw [hq] at h'
        cases h'
        exact keeps_seq (t :: ts) (by simpa using ⟨ht, hts⟩) h hq
  ready := by
    intro x s y s' v h h'
    obtain ⟨vs, hvs, rfl⟩ := Option.map_eq_some_iff.1 h'
    simp only [TExp.seq, Steady]
    cases hp : (Exp.chain t.exp (ts.map (·.exp))).pstepAll x (s.getD (Exp.chain t.exp (ts.map (·.exp))).noneSt) with
    | error er =>
      have hc : (Exp.seq t.exp (ts.map TExp.exp)).co.pstep x s = .error er := pstep_chain_error hp
      cases hc.symm.trans h
    | ok p =>
      obtain ⟨o, s1⟩ := p
      have hc : (Exp.seq t.exp (ts.map TExp.exp)).co.pstep x s = .ok (o, some s1) := pstep_chain_ok hp
      cases hc.symm.trans h
      exact ready_chain t ts ht hts hp hvs

theorem tgood_reduce (r : Reducer Y Y) {ts : List (TExp Y T)} (hts : ∀ t' ∈ ts, TGood t') : TGood (TExp.reduce r ts) where
  good := good_reduce r (by simpa using fun t' h' => (hts t' h').good)
  real := by simp only [TExp.reduce, TMod.real, reals_map ts hts, Exp.reduce]
  keeps := by
    intro x v o v' h h'
    simp only [TExp.reduce, Exp.reduce] at h'
    cases v with
    | one _ => simp only [Mod.step] at h'; cases h'
    | many vs =>
      simp only [TExp.reduce, Steady] at h ⊢
      simp only [Mod.step] at h'
      cases hq : Mod.mapSteps ((ts.map (·.exp)).map (·.mod)) (fun _ => .ok x) 0 vs with
      | error e => rw [hq] at h'; cases h'
      | ok p =>
        obtain ⟨o2, vs2⟩ := p
        have hk := keeps_map ts hts h hq
        rw [hq] at h'
        simp only at h'
        split at h'
        · split at h'
          · cases h'; exact hk
          · cases h'
        · cases h'; exact hk
  ready := by
    intro x s y s' v h h'
    obtain ⟨vs, hvs, rfl⟩ := Option.map_eq_some_iff.1 h'
    simp only [TExp.reduce, Steady]
    cases hp : BroadcastReduce.pstepAll ((ts.map (·.exp)).map (·.co)) x (s.getD (BroadcastReduce.noneSt _)) with
    | error er =>
      have hc : (Exp.reduce r (ts.map TExp.exp)).co.pstep x s = .error er := reduce_error hp
      cases hc.symm.trans h
    | ok p =>
      obtain ⟨os, s1⟩ := p
      have hc : (Exp.reduce r (ts.map TExp.exp)).co.pstep x s = (nonempty r.frame os).map fun o => (o, some s1) := reduce_ok hp
      have hc := hc.symm.trans h
      by_cases ho : os.all Option.isSome = true
      · cases hn : nonempty r.frame os with
        | error er => rw [hn] at hc; cases hc
        | ok o =>
          rw [hn] at hc
          cases hc
          exact ready_list ts hts hp ho hvs
      · simp only [nonempty, allSome_not_all ho] at hc
        cases hc

/-! ### Networks without temporal strides -/

/-- Every nesting of `Sequential` and `BroadcastReduce` over delays, skips, convolutions and poolings of temporal stride 1, modules
without state, and modules whose step has no branch on its state. -/
inductive Spec.UnitStride [AddCommMonoid Y] : TExp Y (Tensor Y) → Prop where
  | delay (c : Delay.Cfg Y) : UnitStride (TExp.delay c)
  | skip (n : Nat) : UnitStride (TExp.skip n)
  | conv (c : Conv.Cfg Y Y) (hS : c.S = 1) : UnitStride (TExp.conv c)
  | pool (c : Pool.Cfg Y Y) (hS : c.S = 1) : UnitStride (TExp.pool c)
  | map (f : Y → Y) : UnitStride (TExp.map f)
  | leaf (m : CoMod (.stream Y) (.stream Y)) (inds : List Bool) (dec : List (Nested (Tensor Y)) → Option m.St)
      (enc : m.St → List (Tensor Y)) (he : ∀ s, (enc s).length = inds.length) (hd : ∀ s, dec ((enc s).map .one) = some s)
      (hs : ∀ x s o s', m.pstep x s = .ok (o, s') → s'.isSome) : UnitStride (TExp.leaf m inds.length inds dec enc)
  | seq (e : TExp Y (Tensor Y)) (es : List (TExp Y (Tensor Y))) (he : UnitStride e) (hes : ∀ e' ∈ es, UnitStride e') :
      UnitStride (TExp.seq e es)
  | reduce (r : Reducer Y Y) (es : List (TExp Y (Tensor Y))) (hes : ∀ e ∈ es, UnitStride e) : UnitStride (TExp.reduce r es)

theorem unitStride_good [AddCommMonoid Y] {t : TExp Y (Tensor Y)} (h : UnitStride t) : TGood t := by
  induction h with
  | delay c => exact tgood_delay c
  | skip n => exact tgood_skip n
  | conv c hS => exact tgood_conv c hS
  | pool c hS => exact tgood_pool c hS
  | map f => exact tgood_map f
  | leaf m inds dec enc he hd hs => exact tgood_leaf (good_leaf rfl he hd hs)
  | seq e es _ _ ihe ihes => exact tgood_seq ihe ihes
  | reduce r es _ ih => exact tgood_reduce r ih

theorem unitStride_exportable [AddCommMonoid Y] {t : TExp Y (Tensor Y)} (h : UnitStride t) : Exportable t.exp := by
  induction h with
  | delay c => exact .delay c
  | skip n => exact .skip n
  | conv c hS => exact .conv c
  | pool c hS => exact .pool c
  | map f => exact .map f
  | leaf m inds dec enc he hd hs => exact .leaf m inds dec enc he hd hs
  | seq e es _ _ ihe ihes => exact .seq _ _ ihe (by simpa using ihes)
  | reduce r es _ ih => exact .reduce _ _ (by simpa using ih)

theorem TGood.loop_traced {t : TExp Y T} (h : TGood t) {ex : Nested T} (hex : Steady t.tmod ex) : (xs : List Y) → {v : Nested T} →
    Steady t.tmod v → Fits v t.exp.mod.shape →
    loop (wrapper (t.tmod.traced ex)) xs (flatten v) = loop (wrapper t.exp.mod) xs (flatten v)
  | [], v, _, _ => rfl
  | x :: xs, v, hv, hf => by
    have hf' : Fits v (t.tmod.traced ex).shape := by rw [traced_shape, h.real]; exact hf
    have hs : (t.tmod.traced ex).step x v = t.exp.mod.step x v := by rw [traced_step t.tmod hex hv x, h.real]
    simp only [loop, wrapper_flatten _ x hf, wrapper_flatten _ x hf', hs]
    cases hp : t.exp.mod.step x v with
    | error e => rfl
    | ok p =>
      obtain ⟨o, v'⟩ := p
      simp only [Except.map, h.loop_traced hex xs (h.keeps hv hp) (step_fits _ h.good.decl hf hp)]

/-- What is traced at a state in which no member is warming up computes, from every other such state, what the module computes:
the same outputs, states and exceptions.  Missing: temporal strides above 1 and warming up, see the refutations below. -/
theorem C84_traced_partial [AddCommMonoid Y] (t : TExp Y (Tensor Y)) (ht : UnitStride t) (ex v : Nested (Tensor Y))
    (hex : Steady t.tmod ex) (hv : Steady t.tmod v) (hf : Fits v t.exp.mod.shape) (xs : List Y) :
    loop (wrapper (t.tmod.traced ex)) xs (flatten v) = loop (wrapper t.exp.mod) xs (flatten v) :=
  (unitStride_good ht).loop_traced hex xs hv hf

/-- The states left by a step that gave an output are such states, from whatever state the step was taken. -/
theorem C84_steady [AddCommMonoid Y] (t : TExp Y (Tensor Y)) (ht : UnitStride t) (x y : Y) (s s' : Option t.exp.co.St)
    (h : t.exp.co.pstep x s = .ok (some y, s')) :
    ∃ v, t.exp.enc s' = some v ∧ Steady t.tmod v ∧ Fits v t.exp.mod.shape := by
  have hg := unitStride_good ht
  obtain ⟨v, hv⟩ := Option.isSome_iff_exists.1 (hg.good.ready h)
  exact ⟨v, hv, hg.ready h hv, hg.good.fits hv⟩

/-- A network is warmed up by `_forward_step` on some stream until it gives an output, and is exported with the state `ex` it has
then.  The exported graph continues every stream `xs, x` on which the module has given an output: no exception, and each frame
of `zs` gives the output that belongs to the whole stream. -/
theorem C84_continues_partial [AddCommMonoid Y] (k : CoInf.Spec.Cls) (φ : List Y → List Y) (t : TExp Y (Tensor Y))
    (ht : UnitStride t) (hn : CoInf.Spec.Net k t.exp.co φ)
    (x1 y1 : Y) (s1 s1' : Option t.exp.co.St) (ex : Nested (Tensor Y))
    (h1 : t.exp.co.pstep x1 s1 = .ok (some y1, s1')) (hex : t.exp.enc s1' = some ex)
    (xs zs : List Y) (x : Y) (os : List (Option Y)) (y : Y) (s0 s : Option t.exp.co.St)
    (hw : threadSteps t.exp.co none xs = .ok (os, s0)) (hy : t.exp.co.pstep x s0 = .ok (some y, s)) :
    ∃ v os' v', t.exp.enc s = some v ∧ loop (wrapper (t.tmod.traced ex)) zs (flatten v) = .ok (os', v') ∧
      os'.length = zs.length ∧
      ∀ i < zs.length, φ (xs ++ [x] ++ zs.take (i + 1)) = φ (xs ++ [x] ++ zs.take i) ++ ((os'[i]?).join).toList := by
  have hg := unitStride_good ht
  obtain ⟨v, os', v', hv, hl, h2, h3⟩ := C82_continues k φ t.exp (unitStride_exportable ht) hn xs zs x os y s0 s hw hy
  refine ⟨v, os', v', hv, ?_, h2, h3⟩
  rw [hg.loop_traced (hg.ready h1 hex) zs (hg.ready hy hv) (hg.good.fits hv)]
  exact hl

/-! ### Refutations -/

theorem convStep_facts [AddCommMonoid Y] {c : Conv.Cfg Y Y} {d : Bool × Bool} {x : Y} {st st' : Conv.St Y} {o : Option Y}
    (h : Traced.convStep c d x st = .ok (o, st')) : o.isSome = d.1 ∧ st'.strideIndex = Traced.stride c.S d.2 st.strideIndex := by
  simp only [Traced.convStep] at h
  cases h0 : pyGet (Conv.taps c x) 0 with
  | error e => rw [h0] at h; cases h
  | ok xOut =>
    rw [h0] at h
    simp only at h
    cases hd : d.1 with
    | true =>
      simp only [hd, if_true] at h
      cases hp : Conv.pick st (c.K - 1) with
      | error e => rw [hp] at h; cases h
      | ok ps =>
        simp only [hp, Except.map] at h
        cases hw : Conv.writeBack c st ((Conv.taps c x).drop 1) with
        | error e => rw [hw] at h; cases h
        | ok n => rw [hw] at h; cases h; exact ⟨rfl, rfl⟩
    | false =>
      simp only [hd, Bool.false_eq_true, if_false] at h
      cases hw : Conv.writeBack c st ((Conv.taps c x).drop 1) with
      | error e => rw [hw] at h; cases h
      | ok n => rw [hw] at h; cases h; exact ⟨rfl, rfl⟩

/-- The tensors of the state of a convolution. -/
def Spec.convState (s : Conv.St Y) : List (Tensor Y) := [.taps s.buffer, .idx s.index, .idx s.strideIndex]

theorem wrapper_conv {g : Y → Option (Conv.St Y) → Except Err (Option Y × Option (Conv.St Y))} {x : Y} {st : Conv.St Y}
    {o : Option Y} {w : List (Tensor Y)} (hg : ∀ o s', g x (some st) = .ok (o, s') → s'.isSome)
    (h : wrapper (.leaf 3 [true, false, false] (ofPstep g
        (fun | [.one (Tensor.taps b), .one (.idx i), .one (.idx k)] => some ⟨b, i, k⟩ | _ => none)
        (fun s => [.taps s.buffer, .idx s.index, .idx s.strideIndex]))) x (convState st) = .ok (o, w)) :
    ∃ st', g x (some st) = .ok (o, some st') ∧ w = convState st' := by
  simp only [wrapper, Mod.shape, shapeList, convState, List.drop_zero, List.take, List.map_cons, List.map_nil, Mod.step,
    ofPstep] at h
  cases hs : g x (some st) with
  | error e => rw [hs] at h; cases h
  | ok q =>
    obtain ⟨o1, s'⟩ := q
    obtain ⟨st', rfl⟩ := Option.isSome_iff_exists.1 (hg o1 s' hs)
    rw [hs] at h
    cases h
    exact ⟨st', rfl, rfl⟩

theorem loop_two {S O : Type} {f : X → S → Except Err (O × S)} {x x' : X} {s w : S} {o o' : O}
    (h : loop f [x, x'] s = .ok ([o, o'], w)) : ∃ s', f x s = .ok (o, s') ∧ f x' s' = .ok (o', w) := by
  simp only [loop] at h
  cases h1 : f x s with
  | error e => rw [h1] at h; cases h
  | ok p =>
    obtain ⟨o1, s1⟩ := p
    rw [h1] at h
    simp only at h
    cases h2 : f x' s1 with
    | error e => rw [h2] at h; cases h
    | ok q =>
      rw [h2] at h
      cases h
      exact ⟨s1, rfl, h2⟩

/-- A convolution of temporal stride at least 2 gives an output and then none; whatever state `ex` it was exported with, the exported
graph gives an output at both frames or at none of them. -/
theorem C84_stride_refuted [AddCommMonoid Y] (c : Conv.Cfg Y Y) (hS : 2 ≤ c.S)
    (ex : Nested (Tensor Y)) (st : Conv.St Y) (hst : st.strideIndex = (c.S : Int) - 1) (x x' : Y)
    (o o' p p' : Option Y) (w w' : List (Tensor Y))
    (h : loop (wrapper (TExp.conv c).exp.mod) [x, x'] (convState st) = .ok ([o, o'], w))
    (h' : loop (wrapper ((TExp.conv c).tmod.traced ex)) [x, x'] (convState st) = .ok ([p, p'], w')) :
    o.isSome ∧ o' = none ∧ p.isSome = p'.isSome := by
  have hc : ¬ Conv.stateless c = true := by simp only [Conv.stateless, decide_eq_true_eq]; omega
  have hm : (TExp.conv c).exp.mod = .leaf 3 [true, false, false] (ofPstep (Conv.pstep c)
      (fun | [.one (Tensor.taps b), .one (.idx i), .one (.idx k)] => some ⟨b, i, k⟩ | _ => none)
      (fun s => [.taps s.buffer, .idx s.index, .idx s.strideIndex])) := by
    simp only [TExp.conv, Exp.conv, conv, hc, if_false, Bool.false_eq_true]; rfl
  obtain ⟨d, ht⟩ : ∃ d, (TExp.conv c).tmod.traced ex = .leaf 3 [true, false, false] (ofPstep (fun x s => match s with
      | some st => (Traced.convStep c d x st).map fun p => (p.1, some p.2)
      | none => .error .type)
      (fun | [.one (Tensor.taps b), .one (.idx i), .one (.idx k)] => some ⟨b, i, k⟩ | _ => none)
      (fun s => [.taps s.buffer, .idx s.index, .idx s.strideIndex])) := by
    simp only [TExp.conv, Traced.conv, hc, if_false, Bool.false_eq_true, TMod.ofBranch, TMod.traced]
    exact ⟨_, rfl⟩
  rw [hm] at h
  rw [ht] at h'
  obtain ⟨w1, h1, h2⟩ := loop_two h
  obtain ⟨v1, k1, k2⟩ := loop_two h'
  obtain ⟨st1, g1, rfl⟩ := wrapper_conv (conv_some c hc x (some st)) h1
  obtain ⟨st2, g2, _⟩ := wrapper_conv (conv_some c hc x' (some st1)) h2
  have hsome : ∀ (x : Y) (s : Conv.St Y) (o : Option Y) (s' : Option (Conv.St Y)),
      ((Traced.convStep c d x s).map fun p => (p.1, some p.2)) = .ok (o, s') → s'.isSome := by
    intro x s o s' h
    cases hq : Traced.convStep c d x s with
    | error e => rw [hq] at h; cases h
    | ok q => rw [hq] at h; cases h; rfl
  obtain ⟨st1', g1', rfl⟩ := wrapper_conv (hsome x st) k1
  obtain ⟨st2', g2', _⟩ := wrapper_conv (hsome x' st1') k2
  have inv : ∀ {d : Bool × Bool} {x : Y} {s s' : Conv.St Y} {o : Option Y},
      ((Traced.convStep c d x s).map fun p => (p.1, some p.2)) = .ok (o, some s') →
      o.isSome = d.1 ∧ s'.strideIndex = Traced.stride c.S d.2 s.strideIndex := by
    intro d x s s' o h
    cases hq : Traced.convStep c d x s with
    | error e => rw [hq] at h; cases h
    | ok q => obtain ⟨o1, s1⟩ := q; rw [hq] at h; cases h; exact convStep_facts hq
  rw [conv_real c hc] at g1 g2
  have f1 := inv g1
  have f2 := inv g2
  refine ⟨by rw [f1.1]; simp only [hst, decide_true], ?_, by rw [(inv g1').1, (inv g2').1]⟩
  have hz : st1.strideIndex = 0 := by
    rw [f1.2, hst]
    have : (c.S : Int) > 0 := by omega
    simp only [Traced.stride, Int.sub_add_cancel, this, decide_true, if_true, Int.emod_self]
  have : o'.isSome = false := by
    rw [f2.1, hz]
    simp only [decide_eq_false_iff_not]
    omega
  simpa using this

/-- `RetroactiveUnity` with the conditions and the shift of its own state is the step of the module. -/
theorem unity_real (fill : Y → Y) (n : Nat) (x : Y) (st : List Y × Int) :
    Transformer.Unity.pstep fill n x (some st) =
      (Traced.unityStep n (Traced.unityBranch st).1 (Traced.unityBranch st).2 x st).map fun p => (p.1, some p.2) := by
  simp only [Transformer.Unity.pstep, Traced.unityStep, Traced.unityBranch, decide_eq_true_eq]
  cases pySet st.1 (st.2 % ((n : Int) + 2)) x <;> rfl

/-- The residual branch of a retroactive encoder, `RetroactiveUnity(n + 1)`, exported in a state with index `i`: at every other
index `j` the window that the graph returns is rotated by the wrong amount, unless tokens of the window coincide.  (Its indices
are `0, …, n` when it is past the warm-up.) -/
theorem C84_unity_refuted (fill : Y → Y) (n : Nat) (x : Y) (b b' b1 : List Y) (i j : Int)
    (hi : 0 ≤ i) (hin : i ≤ n) (hj : 0 ≤ j) (hjn : j ≤ n) (hij : i ≠ j)
    (hb : pySet b (j % ((n : Int) + 2)) x = .ok b1) (hl : b1.length = n + 2) (hnd : b1.Nodup) :
    ∃ o o' s s', Transformer.Unity.pstep fill n x (some (b, j)) = .ok (some o, s) ∧
      Traced.unityStep n (Traced.unityBranch (b', i)).1 (Traced.unityBranch (b', i)).2 x (b, j) = .ok (some o', s') ∧ o ≠ o' := by
  refine ⟨Transformer.Unity.rollLeft b1 (j + 1).toNat, Transformer.Unity.rollLeft b1 (i + 1).toNat,
    some (b1, (j + 1) % ((n : Int) + 1)), (b1, (j + 1) % ((n : Int) + 1)), ?_, ?_, ?_⟩
  · have h1 : j ≥ 0 := hj
    have h2 : j + 1 > 0 := by omega
    simp only [Transformer.Unity.pstep, hb, h1, h2, if_true]
  · have h1 : i ≥ 0 := hi
    have h2 : i + 1 > 0 := by omega
    simp only [Traced.unityStep, Traced.unityBranch, hb, h1, h2, decide_true, if_true]
  · intro h
    have e1 : Transformer.Unity.rollLeft b1 (j + 1).toNat = b1.rotate (j + 1).toNat :=
      (List.rotate_eq_drop_append_take (by omega)).symm
    have e2 : Transformer.Unity.rollLeft b1 (i + 1).toNat = b1.rotate (i + 1).toNat :=
      (List.rotate_eq_drop_append_take (by omega)).symm
    rw [e1, e2] at h
    have := hnd.rotate_congr (by intro h0; rw [h0] at hl; cases hl) _ _ h
    rw [hl, Nat.mod_eq_of_lt (by omega), Nat.mod_eq_of_lt (by omega)] at this
    omega

/-- Exported while it is warming up, a delay never gives an output; the module does. -/
theorem C84_warmup_refuted (c : Delay.Cfg Y) (hd : c.d ≠ 0) (b0 : List Y) (i0 : Int) (hi0 : i0 < 0) (xs : List Y)
    (v : List (Tensor Y)) (os : List (Option Y)) (w : List (Tensor Y))
    (h : loop (wrapper ((TExp.delay c).tmod.traced (.many [.one (.buf b0), .one (.idx i0)]))) xs v = .ok (os, w)) :
    ∀ o ∈ os, o = none := by
  induction xs generalizing v os w with
  | nil => cases h; simp
  | cons x xs ih =>
    simp only [loop] at h
    cases h1 : wrapper ((TExp.delay c).tmod.traced (.many [.one (.buf b0), .one (.idx i0)])) x v with
    | error e => rw [h1] at h; cases h
    | ok p =>
      obtain ⟨o, v1⟩ := p
      rw [h1] at h
      simp only at h
      cases h2 : loop (wrapper ((TExp.delay c).tmod.traced (.many [.one (.buf b0), .one (.idx i0)]))) xs v1 with
      | error e => rw [h2] at h; cases h
      | ok q =>
        rw [h2] at h
        cases h
        have ho : o = none := by
          have hf : ¬ (i0 ≥ 0) := by omega
          simp only [TExp.delay, Traced.delay, hd, if_false, TMod.ofBranch, TMod.traced, Nested.items, wrapper, Mod.step,
            hf, decide_false] at h1
          generalize (shapeList v _ 0).1 = u at h1
          cases u with
          | one t => cases h1
          | many l =>
            simp only [ofPstep] at h1
            split at h1
            · rename_i o2 s2 hm
              cases h1
              split at hm
              · cases hm
              · rename_i st hdec
                cases hq : Traced.delayStep c (false, decide (i0 + 1 > 0)) x st with
                | error e => rw [hq] at hm; cases hm
                | ok q =>
                  obtain ⟨o3, s3⟩ := q
                  rw [hq] at hm
                  have h3 : o3 = none := by
                    simp only [Traced.delayStep, Bool.false_eq_true, if_false] at hq
                    split at hq
                    · cases hq
                    · cases hq; rfl
                  cases hm
                  exact h3
            · cases h1
        simp only [List.mem_cons, forall_eq_or_imp]
        exact ⟨ho, ih _ _ _ h2⟩

/-! ### Examples -/

/-- A residual convolution, a pooling, a function, a skip. -/
def exTraced : TExp Int (Tensor Int) :=
  TExp.seq (TExp.reduce (foldReducer (· + ·)) [TExp.conv ⟨3, 1, 0, .zeros, .zeros, fun j x => (j + 1 : Int) * x, some 5⟩,
    TExp.delay ⟨2, fun _ => 0, .off⟩]) [TExp.pool ⟨2, 1, 0, 1, id, List.sum, id, id, 0⟩, TExp.map (fun x => 2 * x), TExp.skip 1]

theorem exTraced_ok : UnitStride exTraced :=
  .seq _ _ (.reduce _ _ (by simp only [List.mem_cons, List.not_mem_nil, or_false, forall_eq_or_imp, forall_eq]
                            exact ⟨.conv _ rfl, .delay _⟩))
    (by simp only [List.mem_cons, List.not_mem_nil, or_false, forall_eq_or_imp, forall_eq]
        exact ⟨.pool _ rfl, .map _, .skip _⟩)

/-- Warm-up on four frames; the fifth gives an output, after which no member is warming up. -/
example : ∃ s0 s y, threadSteps exTraced.exp.co none [1, 2, 3, 4] = .ok ([none, none, none, none], s0) ∧
    exTraced.exp.co.pstep (5 : Int) s0 = .ok (some y, s) ∧ (exTraced.exp.enc s).isSome := ⟨_, _, _, rfl, rfl, rfl⟩

/-- A convolution of kernel 2, a function, a skip: the hypotheses of `C84_continues_partial`. -/
def exTraced2 : TExp Int (Tensor Int) :=
  TExp.seq (TExp.conv ⟨2, 1, 0, .zeros, .zeros, fun j x => (j + 1 : Int) * x, none⟩) [TExp.map (fun x => 2 * x), TExp.skip 1]

example : UnitStride exTraced2 ∧ ∃ φ os s0 s y, CoInf.Spec.Net ⟨false, 0⟩ exTraced2.exp.co φ ∧
    threadSteps exTraced2.exp.co none [1, 2] = .ok (os, s0) ∧ exTraced2.exp.co.pstep (3 : Int) s0 = .ok (some y, s) :=
  ⟨.seq _ _ (.conv _ rfl) (by simp only [List.mem_cons, List.not_mem_nil, or_false, forall_eq_or_imp, forall_eq]
                              exact ⟨.map _, .skip _⟩),
   _, _, _, _, _, .cons (.conv _ ⟨by decide, by decide, by decide, by decide, by intro j; simp, by decide, by decide⟩)
    (.cons (.pointwise _) (.single (.skip 1 (by decide) (by decide)))), rfl, rfl⟩

/-- Temporal stride 2. -/
def exTraced3 : Conv.Cfg Int Int := ⟨2, 2, 0, .zeros, .zeros, fun j x => (j + 1 : Int) * x, none⟩

/-- The module gives an output and then none, the graph exported right before an output gives two. -/
example : ∃ w w', loop (wrapper (TExp.conv exTraced3).exp.mod) [1, 2] (convState ⟨[[7]], 0, 1⟩) = .ok ([some 9, none], w) ∧
    loop (wrapper ((TExp.conv exTraced3).tmod.traced (.many ((convState ⟨[[7]], 0, 1⟩).map .one)))) [1, 2]
      (convState ⟨[[7]], 0, 1⟩) = .ok ([some 9, some 5], w') := ⟨_, _, rfl, rfl⟩

example : pySet [10, 20, 30] ((1 : Int) % ((1 : Nat) + 2)) 40 = .ok [10, 40, 30] ∧ [10, 40, 30].length = 1 + 2 ∧
    [10, 40, 30].Nodup := ⟨rfl, rfl, by decide⟩

/-- Exported at its first step. -/
example : ∃ w, loop (wrapper ((TExp.delay ⟨1, fun _ => (0 : Int), .off⟩).tmod.traced (.many [.one (.buf [0]), .one (.idx (-1))])))
    [1, 2] [.buf [0], .idx (-1)] = .ok ([none, none], w) := ⟨_, rfl⟩

end CoInf.Onnx
