/-
C82: an exported model streams like the module.
-/
import Verif.Props.Onnx
import Verif.Model.OnnxNet
import Verif.Lemmas.Net
import Verif.Lemmas.Trace

set_option autoImplicit false

namespace CoInf.Onnx
open CoInf.Onnx.Spec
open CoInf.Spec (threadSteps PImplements)

variable {Y T : Type}

/-- What is needed of a module and its export. -/
structure Good (e : Exp Y T) : Prop where
  decl : Declared e.mod
  fits : ∀ {s v}, e.enc s = some v → Fits v e.mod.shape
  sim : ∀ {s v} (x : Y), e.enc s = some v →
    (∀ er, e.co.pstep x s = .error er → e.mod.step x v = .error er) ∧
    ∀ o s', e.co.pstep x s = .ok (o, s') → ∃ v', e.enc s' = some v' ∧ e.mod.step x v = .ok (o, v')
  ready : ∀ {x s y s'}, e.co.pstep x s = .ok (some y, s') → (e.enc s').isSome

theorem good_leaf {m : CoMod (.stream Y) (.stream Y)} {n : Nat} {inds : List Bool} {dec : List (Nested T) → Option m.St}
    {enc : m.St → List T} (hi : inds.length = n) (he : ∀ s, (enc s).length = n) (hd : ∀ s, dec ((enc s).map .one) = some s)
    (hs : ∀ x s o s', m.pstep x s = .ok (o, s') → s'.isSome) : Good (Exp.leaf m n inds dec enc) where
  decl := ofPstep_declared hi he fun x s => hs x (some s)
  fits := by
    intro s v h
    obtain ⟨st, hst, rfl⟩ := Option.map_eq_some_iff.1 h
    have := Fits.num (enc st)
    rwa [he st] at this
  sim := by
    intro s v x h
    obtain ⟨st, rfl, rfl⟩ := Option.map_eq_some_iff.1 h
    refine ⟨fun er hp => ?_, fun o s' hp => ?_⟩
    · show Mod.step (.leaf n inds _) x _ = _
      have hp : m.pstep x (some st) = .error er := hp
      simp only [Mod.step, ofPstep, hd, hp]
    · have hp : m.pstep x (some st) = .ok (o, s') := hp
      obtain ⟨st', rfl⟩ := Option.isSome_iff_exists.1 (hs _ _ _ _ hp)
      refine ⟨_, rfl, ?_⟩
      show Mod.step (.leaf n inds _) x _ = _
      simp only [Mod.step, ofPstep, hd, hp]
  ready := by
    intro x s y s' h
    obtain ⟨st', rfl⟩ := Option.isSome_iff_exists.1 (hs _ _ _ _ h)
    rfl

theorem good_stateless {m : CoMod (.stream Y) (.stream Y)} {f : Y → Except Err (Option Y)}
    (hm : ∀ x s, m.pstep x s = (f x).map fun o => (o, s)) :
    Good (⟨m, .leaf 0 [] (ofStateless f), fun _ => some (.many [])⟩ : Exp Y T) where
  decl := ofStateless_declared
  fits := by
    intro s v h
    cases h
    exact Fits.num []
  sim := by
    intro s v x h
    cases h
    refine ⟨fun er hp => ?_, fun o s' hp => ?_⟩
    · have hp : m.pstep x s = .error er := hp
      rw [hm] at hp
      simp only [Mod.step, ofStateless]
      cases hf : f x with
      | error e => rw [hf] at hp; cases hp; rfl
      | ok o => rw [hf] at hp; cases hp
    · have hp : m.pstep x s = .ok (o, s') := hp
      rw [hm] at hp
      refine ⟨_, rfl, ?_⟩
      simp only [Mod.step, ofStateless]
      cases hf : f x with
      | error e => rw [hf] at hp; cases hp
      | ok o => rw [hf] at hp; cases hp; rfl
  ready := fun _ => rfl

theorem delay_some (c : Delay.Cfg Y) (hd : c.d ≠ 0) (x : Y) (s : Option (Delay.St Y)) (o : Option Y) (s' : Option (Delay.St Y))
    (h : Delay.pstep c x s = .ok (o, s')) : s'.isSome := by
  simp only [Delay.pstep, if_neg hd, bind, Except.bind, pure, Except.pure] at h
  repeat' split at h
  all_goals first | (cases h; done) | (cases h; rfl)

theorem skip_some (n : Nat) (x : Y) (s : Option Int) (o : Option Y) (s' : Option Int) (h : Skip.pstep n x s = .ok (o, s')) :
    s'.isSome := by
  unfold Skip.pstep at h
  by_cases hi : (match s with | some i => i | none => -(n : Int)) ≥ 0
  · have h := (if_pos hi).symm.trans h
    cases h; rfl
  · have h := (if_neg hi).symm.trans h
    cases h; rfl

theorem conv_some [AddCommMonoid Y] (c : Conv.Cfg Y Y) (hd : ¬ Conv.stateless c) (x : Y) (s : Option (Conv.St Y)) (o : Option Y)
    (s' : Option (Conv.St Y)) (h : Conv.pstep c x s = .ok (o, s')) : s'.isSome := by
  simp only [Conv.pstep, if_neg hd, bind, Except.bind, pure, Except.pure] at h
  repeat' split at h
  all_goals first | (cases h; done) | (cases h; rfl)

theorem pool_some (c : Pool.Cfg Y Y) (x : Y) (s : Option (Pool.St Y)) (o : Option Y) (s' : Option (Pool.St Y))
    (h : Pool.pstep c x s = .ok (o, s')) : s'.isSome := by
  simp only [Pool.pstep, bind, Except.bind, pure, Except.pure] at h
  repeat' split at h
  all_goals first | (cases h; done) | (cases h; rfl)

theorem good_delay (c : Delay.Cfg Y) : Good (Exp.delay c) := by
  by_cases hd : c.d = 0
  · have : Exp.delay c = ⟨Delay.mod c, .leaf 0 [] (ofStateless fun x => (Delay.pstep c x none).map (·.1)), fun _ => some (.many [])⟩ := by
      simp [Exp.delay, delay, hd]
    rw [this]
    refine good_stateless ?_
    intro x s
    show Delay.pstep c x s = _
    simp [Delay.pstep, hd, Except.map]
  · have : Exp.delay c = Exp.leaf (T := Tensor Y) (Delay.mod c) 2 [true, false]
        (fun | [.one (.buf b), .one (.idx i)] => some (b, i) | _ => none) (fun s => [.buf s.1, .idx s.2]) := by
      simp [Exp.delay, delay, hd, Exp.leaf]; rfl
    rw [this]
    exact good_leaf rfl (fun _ => rfl) (fun _ => rfl) (delay_some c hd)

theorem good_skip (n : Nat) : Good (Exp.skip (Y := Y) n) :=
  good_leaf (m := Skip.mod n Y) rfl (fun _ => rfl) (fun _ => rfl) (skip_some n)

theorem good_conv [AddCommMonoid Y] (c : Conv.Cfg Y Y) : Good (Exp.conv c) := by
  by_cases hd : Conv.stateless c
  · have : Exp.conv c = ⟨Conv.mod c, .leaf 0 [] (ofStateless fun x => (Conv.pstep c x none).map (·.1)), fun _ => some (.many [])⟩ := by
      simp [Exp.conv, conv, hd]
    rw [this]
    refine good_stateless ?_
    intro x s
    show Conv.pstep c x s = _
    simp only [Conv.pstep, hd, if_true, bind, Except.bind, pure, Except.pure]
    cases Conv.forward c [x] with
    | error e => rfl
    | ok ys => simp only; cases pyGet ys 0 <;> rfl
  · have : Exp.conv c = Exp.leaf (T := Tensor Y) (Conv.mod c) 3 [true, false, false]
        (fun | [.one (.taps b), .one (.idx i), .one (.idx k)] => some ⟨b, i, k⟩ | _ => none)
        (fun s => [.taps s.buffer, .idx s.index, .idx s.strideIndex]) := by
      simp [Exp.conv, conv, hd, Exp.leaf]; rfl
    rw [this]
    exact good_leaf rfl (fun _ => rfl) (fun _ => rfl) (conv_some c hd)

theorem good_pool (c : Pool.Cfg Y Y) : Good (Exp.pool c) :=
  good_leaf (m := Pool.mod c) rfl (fun _ => rfl) (fun _ => rfl) (pool_some c)

theorem good_map (f : Y → Y) : Good (Exp.map (T := T) f) := good_stateless fun _ _ => rfl

/-! ### Containers -/

theorem declaredAll_map {es : List (Exp Y T)} (h : ∀ e ∈ es, Good e) : DeclaredAll (es.map (·.mod)) := by
  induction es with
  | nil => exact .nil
  | cons e es ih => exact .cons (h e (by simp)).decl (ih fun e' he' => h e' (by simp [he']))

theorem shapes_map (es : List (Exp Y T)) : Mod.shapes (es.map (·.mod)) = es.map fun e => e.mod.shape := by
  induction es with
  | nil => rfl
  | cons e es ih => simp [Mod.shapes, ih]

theorem chain_fits : ∀ (e : Exp Y T) (es : List (Exp Y T)), Good e → (∀ e' ∈ es, Good e') → ∀ {s vs},
    Exp.chainEnc e es s = some vs → FitsAll vs (Mod.shapes (e.mod :: es.map (·.mod)))
  | e, [], he, _, s, vs, h => by
    obtain ⟨v, hv, rfl⟩ := Option.map_eq_some_iff.1 h
    exact .cons (he.fits hv) .nil
  | e, e' :: es, he, hes, s, vs, h => by
    simp only [Exp.chainEnc] at h
    split at h
    · rename_i v vs' hv hvs
      cases h
      exact .cons (he.fits hv) (chain_fits e' es (hes e' (by simp)) (fun e'' h'' => hes e'' (by simp [h''])) hvs)
    · cases h

theorem pstepAll_error {I J O : Sig} {m : CoMod I J} {c : Chain J O} {x : I.Step} {s : Option m.St × c.St} {er : Err}
    (h : m.pstep x s.1 = .error er) : (Chain.cons m c).pstepAll x s = .error er := by
  rw [Chain.pstepAll]
  simp only [bind, Except.bind, h]

theorem pstepAll_none {I J O : Sig} {m : CoMod I J} {c : Chain J O} {x : I.Step} {s : Option m.St × c.St} {s1 : Option m.St}
    (h : m.pstep x s.1 = .ok (none, s1)) : (Chain.cons m c).pstepAll x s = .ok (none, (s1, s.2)) := by
  rw [Chain.pstepAll]
  simp only [bind, Except.bind, h]; rfl

theorem pstepAll_some_error {I J O : Sig} {m : CoMod I J} {c : Chain J O} {x : I.Step} {s : Option m.St × c.St} {y : J.Step}
    {s1 : Option m.St} {er : Err} (h : m.pstep x s.1 = .ok (some y, s1)) (h' : c.pstepAll y s.2 = .error er) :
    (Chain.cons m c).pstepAll x s = .error er := by
  rw [Chain.pstepAll]
  simp only [bind, Except.bind, h, h']

theorem pstepAll_some_ok {I J O : Sig} {m : CoMod I J} {c : Chain J O} {x : I.Step} {s : Option m.St × c.St} {y : J.Step}
    {s1 : Option m.St} {z : Option O.Step} {s2 : c.St} (h : m.pstep x s.1 = .ok (some y, s1))
    (h' : c.pstepAll y s.2 = .ok (z, s2)) : (Chain.cons m c).pstepAll x s = .ok (z, (s1, s2)) := by
  rw [Chain.pstepAll]
  simp only [bind, Except.bind, h, h']; rfl

theorem pstep_chain_error {I O : Sig} {c : Chain I O} {x : I.Step} {s : Option c.St} {er : Err}
    (h : c.pstepAll x (s.getD c.noneSt) = .error er) : c.pstep x s = .error er := by
  rw [Chain.pstep]
  simp only [bind, Except.bind, h]

theorem pstep_chain_ok {I O : Sig} {c : Chain I O} {x : I.Step} {s : Option c.St} {o : Option O.Step} {s' : c.St}
    (h : c.pstepAll x (s.getD c.noneSt) = .ok (o, s')) : c.pstep x s = .ok (o, some s') := by
  rw [Chain.pstep]
  simp only [bind, Except.bind, h]; rfl

theorem chain_sim : ∀ (e : Exp Y T) (es : List (Exp Y T)), Good e → (∀ e' ∈ es, Good e') → ∀ {s vs} (x : Y),
    Exp.chainEnc e es s = some vs →
    (∀ er, (Exp.chain e es).pstepAll x s = .error er → Mod.seqSteps (e.mod :: es.map (·.mod)) x vs = .error er) ∧
    ∀ o s', (Exp.chain e es).pstepAll x s = .ok (o, s') →
      ∃ vs', Exp.chainEnc e es s' = some vs' ∧ Mod.seqSteps (e.mod :: es.map (·.mod)) x vs = .ok (o, vs')
  | e, [], he, _, s, vs, x, h => by
    obtain ⟨v, hv, rfl⟩ := Option.map_eq_some_iff.1 h
    have hh := he.sim x hv
    refine ⟨fun er hp => ?_, fun o s' hp => ?_⟩
    · simp only [List.map_nil, Mod.seqSteps, pop, hh.1 er hp]
    · obtain ⟨v', hv', hst⟩ := hh.2 o s' hp
      refine ⟨[v'], by simp only [Exp.chainEnc, hv', Option.map_some], ?_⟩
      cases o <;> simp only [List.map_nil, Mod.seqSteps, pop, hst]
  | e, e' :: es, he, hes, (s : Option e.co.St × (Exp.chain e' es).St), vs, x, h => by
    simp only [Exp.chainEnc] at h
    split at h
    · rename_i v vs1 hv hvs
      cases h
      have hh := he.sim x hv
      cases hp : e.co.pstep x s.1 with
      | error er =>
        have hc : (Exp.chain e (e' :: es)).pstepAll x s = .error er := pstepAll_error hp
        refine ⟨fun er' h' => ?_, fun o s' h' => (by cases hc.symm.trans h')⟩
        cases hc.symm.trans h'
        rw [Mod.seqSteps]
        simp only [pop, hh.1 er hp]
      | ok p =>
        obtain ⟨o, s1⟩ := p
        obtain ⟨v', hv', hst⟩ := hh.2 o s1 hp
        cases o with
        | none =>
          have hc : (Exp.chain e (e' :: es)).pstepAll x s = .ok (none, (s1, s.2)) := pstepAll_none hp
          refine ⟨fun er' h' => (by cases hc.symm.trans h'), fun o s' h' => ?_⟩
          cases hc.symm.trans h'
          refine ⟨v' :: vs1, by simp only [Exp.chainEnc, hv', hvs], ?_⟩
          rw [Mod.seqSteps]
          simp only [pop, hst]
        | some y =>
          have ih := chain_sim e' es (hes e' (by simp)) (fun e'' h'' => hes e'' (by simp [h''])) y hvs
          cases hq : (Exp.chain e' es).pstepAll y s.2 with
          | error er =>
            have hc : (Exp.chain e (e' :: es)).pstepAll x s = .error er := pstepAll_some_error hp hq
            refine ⟨fun er' h' => ?_, fun o s' h' => (by cases hc.symm.trans h')⟩
            cases hc.symm.trans h'
            rw [Mod.seqSteps]
            simp only [pop, hst, List.map_cons]
            rw [ih.1 er hq]
          | ok p2 =>
            obtain ⟨z, s2⟩ := p2
            obtain ⟨vs2, hvs2, hst2⟩ := ih.2 z s2 hq
            have hc : (Exp.chain e (e' :: es)).pstepAll x s = .ok (z, (s1, s2)) := pstepAll_some_ok hp hq
            refine ⟨fun er' h' => (by cases hc.symm.trans h'), fun o s' h' => ?_⟩
            cases hc.symm.trans h'
            refine ⟨v' :: vs2, by simp only [Exp.chainEnc, hv', hvs2], ?_⟩
            rw [Mod.seqSteps]
            simp only [pop, hst, List.map_cons]
            rw [hst2]
    · cases h

theorem chain_ready : ∀ (e : Exp Y T) (es : List (Exp Y T)), Good e → (∀ e' ∈ es, Good e') → ∀ {s s' y} {x : Y},
    (Exp.chain e es).pstepAll x s = .ok (some y, s') → (Exp.chainEnc e es s').isSome
  | e, [], he, _, s, s', y, x, h => by
    obtain ⟨v, hv⟩ := Option.isSome_iff_exists.1 (he.ready h)
    simp only [Exp.chainEnc, hv]; rfl
  | e, e' :: es, he, hes, (s : Option e.co.St × (Exp.chain e' es).St), s', y, x, h => by
    cases hp : e.co.pstep x s.1 with
    | error er =>
      have hc : (Exp.chain e (e' :: es)).pstepAll x s = .error er := pstepAll_error hp
      cases hc.symm.trans h
    | ok p =>
      obtain ⟨o, s1⟩ := p
      cases o with
      | none =>
        have hc : (Exp.chain e (e' :: es)).pstepAll x s = .ok (none, (s1, s.2)) := pstepAll_none hp
        cases hc.symm.trans h
      | some z =>
        cases hq : (Exp.chain e' es).pstepAll z s.2 with
        | error er =>
          have hc : (Exp.chain e (e' :: es)).pstepAll x s = .error er := pstepAll_some_error hp hq
          cases hc.symm.trans h
        | ok p2 =>
          obtain ⟨z2, s2⟩ := p2
          have hc : (Exp.chain e (e' :: es)).pstepAll x s = .ok (z2, (s1, s2)) := pstepAll_some_ok hp hq
          cases hc.symm.trans h
          obtain ⟨v, hv⟩ := Option.isSome_iff_exists.1 (he.ready hp)
          obtain ⟨vs, hvs⟩ := Option.isSome_iff_exists.1
            (chain_ready e' es (hes e' (by simp)) (fun e'' h'' => hes e'' (by simp [h''])) hq)
          simp only [Exp.chainEnc, hv, hvs]; rfl

theorem good_seq {e : Exp Y T} {es : List (Exp Y T)} (he : Good e) (hes : ∀ e' ∈ es, Good e') : Good (Exp.seq e es) where
  decl := .seq (declaredAll_map (es := e :: es) (by simpa using ⟨he, hes⟩))
  fits := by
    intro s v h
    obtain ⟨vs, hvs, rfl⟩ := Option.map_eq_some_iff.1 h
    exact .list (chain_fits e es he hes hvs)
  sim := by
    intro s v x h
    obtain ⟨vs, hvs, rfl⟩ := Option.map_eq_some_iff.1 h
    have hh := chain_sim e es he hes x hvs
    cases hq : (Exp.chain e es).pstepAll x (s.getD (Exp.chain e es).noneSt) with
    | error er =>
      have hc : (Exp.seq e es).co.pstep x s = .error er := pstep_chain_error hq
      refine ⟨fun er' hp => ?_, fun o s' hp => (by cases hc.symm.trans hp)⟩
      cases hc.symm.trans hp
      show Mod.step (.seq (e.mod :: es.map (·.mod))) x (.many vs) = _
      simp only [Mod.step, hh.1 _ hq]
    | ok p =>
      obtain ⟨o, s1⟩ := p
      have hc : (Exp.seq e es).co.pstep x s = .ok (o, some s1) := pstep_chain_ok hq
      refine ⟨fun er' hp => (by cases hc.symm.trans hp), fun o s' hp => ?_⟩
      cases hc.symm.trans hp
      obtain ⟨vs', hvs', hst⟩ := hh.2 _ _ hq
      refine ⟨.many vs', ?_, ?_⟩
      · show (Exp.chainEnc e es s1).map _ = _
        rw [hvs']; rfl
      · show Mod.step (.seq (e.mod :: es.map (·.mod))) x (.many vs) = _
        simp only [Mod.step, hst]
  ready := by
    intro x s y s' h
    cases hp : (Exp.chain e es).pstepAll x (s.getD (Exp.chain e es).noneSt) with
    | error er =>
      have hc : (Exp.seq e es).co.pstep x s = .error er := pstep_chain_error hp
      cases hc.symm.trans h
    | ok p =>
      obtain ⟨o, s1⟩ := p
      have hc : (Exp.seq e es).co.pstep x s = .ok (o, some s1) := pstep_chain_ok hp
      cases hc.symm.trans h
      obtain ⟨vs, hvs⟩ := Option.isSome_iff_exists.1 (chain_ready e es he hes hp)
      show ((Exp.chainEnc e es s1).map _).isSome
      rw [hvs]; rfl

/-! ### Parallel containers -/

theorem list_fits : ∀ (es : List (Exp Y T)), (∀ e ∈ es, Good e) → ∀ {s vs},
    Exp.listEnc es s = some vs → FitsAll vs (Mod.shapes (es.map (·.mod)))
  | [], _, s, vs, h => by cases h; exact .nil
  | e :: es, hes, s, vs, h => by
    simp only [Exp.listEnc] at h
    split at h
    · rename_i v vs' hv hvs
      cases h
      exact .cons ((hes e (by simp)).fits hv) (list_fits es (fun e'' h'' => hes e'' (by simp [h''])) hvs)
    · cases h

theorem par_error {m : CoMod (.stream Y) (.stream Y)} {ms : List (CoMod (.stream Y) (.stream Y))} {x : Y}
    {s : Option m.St × BroadcastReduce.St ms} {er : Err} (h : m.pstep x s.1 = .error er) :
    BroadcastReduce.pstepAll (m :: ms) x s = .error er := by
  rw [BroadcastReduce.pstepAll]
  simp only [bind, Except.bind, h]

theorem par_ok_error {m : CoMod (.stream Y) (.stream Y)} {ms : List (CoMod (.stream Y) (.stream Y))} {x : Y}
    {s : Option m.St × BroadcastReduce.St ms} {o : Option Y} {s1 : Option m.St} {er : Err} (h : m.pstep x s.1 = .ok (o, s1))
    (h' : BroadcastReduce.pstepAll ms x s.2 = .error er) : BroadcastReduce.pstepAll (m :: ms) x s = .error er := by
  rw [BroadcastReduce.pstepAll]
  simp only [bind, Except.bind, h, h']

theorem par_ok {m : CoMod (.stream Y) (.stream Y)} {ms : List (CoMod (.stream Y) (.stream Y))} {x : Y}
    {s : Option m.St × BroadcastReduce.St ms} {o : Option Y} {s1 : Option m.St} {os : List (Option Y)}
    {s2 : BroadcastReduce.St ms} (h : m.pstep x s.1 = .ok (o, s1)) (h' : BroadcastReduce.pstepAll ms x s.2 = .ok (os, s2)) :
    BroadcastReduce.pstepAll (m :: ms) x s = .ok (o :: os, (s1, s2)) := by
  rw [BroadcastReduce.pstepAll]
  simp only [bind, Except.bind, h, h']; rfl

theorem list_sim : ∀ (es : List (Exp Y T)), (∀ e ∈ es, Good e) → ∀ {s vs} (x : Y) (i : Nat), Exp.listEnc es s = some vs →
    (∀ er, BroadcastReduce.pstepAll (es.map (·.co)) x s = .error er →
      Mod.mapSteps (es.map (·.mod)) (fun _ => .ok x) i vs = .error er) ∧
    ∀ os s', BroadcastReduce.pstepAll (es.map (·.co)) x s = .ok (os, s') →
      ∃ vs', Exp.listEnc es s' = some vs' ∧ Mod.mapSteps (es.map (·.mod)) (fun _ => .ok x) i vs = .ok (os, vs')
  | [], _, s, vs, x, i, h => by
    cases h
    refine ⟨fun er h => (by cases h), fun os s' h => ?_⟩
    cases h
    exact ⟨[], rfl, by simp only [List.map_nil, Mod.mapSteps]⟩
  | e :: es, hes, (s : Option e.co.St × BroadcastReduce.St (es.map (·.co))), vs, x, i, h => by
    have he := hes e (by simp)
    simp only [Exp.listEnc] at h
    split at h
    · rename_i v vs1 hv hvs
      cases h
      have hh := he.sim x hv
      have ih := list_sim es (fun e'' h'' => hes e'' (by simp [h''])) x (i + 1) hvs
      cases hp : e.co.pstep x s.1 with
      | error er =>
        have hc : BroadcastReduce.pstepAll ((e :: es).map (·.co)) x s = .error er := par_error hp
        refine ⟨fun er' h' => ?_, fun o s' h' => (by cases hc.symm.trans h')⟩
        cases hc.symm.trans h'
        rw [List.map_cons, Mod.mapSteps]
        simp only [pop, hh.1 er hp]
      | ok p =>
        obtain ⟨o, s1⟩ := p
        obtain ⟨v', hv', hst⟩ := hh.2 o s1 hp
        cases hq : BroadcastReduce.pstepAll (es.map (·.co)) x s.2 with
        | error er =>
          have hc : BroadcastReduce.pstepAll ((e :: es).map (·.co)) x s = .error er := par_ok_error hp hq
          refine ⟨fun er' h' => ?_, fun o s' h' => (by cases hc.symm.trans h')⟩
          cases hc.symm.trans h'
          rw [List.map_cons, Mod.mapSteps]
          simp only [pop, hst]
          rw [ih.1 er hq]
        | ok p2 =>
          obtain ⟨os, s2⟩ := p2
          obtain ⟨vs2, hvs2, hst2⟩ := ih.2 os s2 hq
          have hc : BroadcastReduce.pstepAll ((e :: es).map (·.co)) x s = .ok (o :: os, (s1, s2)) := par_ok hp hq
          refine ⟨fun er' h' => (by cases hc.symm.trans h'), fun o s' h' => ?_⟩
          cases hc.symm.trans h'
          refine ⟨v' :: vs2, by simp only [Exp.listEnc, hv', hvs2], ?_⟩
          rw [List.map_cons, Mod.mapSteps]
          simp only [pop, hst]
          rw [hst2]
    · cases h

theorem list_ready : ∀ (es : List (Exp Y T)), (∀ e ∈ es, Good e) → ∀ {x : Y} {s os s'},
    BroadcastReduce.pstepAll (es.map (·.co)) x s = .ok (os, s') → (os.all Option.isSome) = true → (Exp.listEnc es s').isSome
  | [], _, x, s, os, s', h, _ => rfl
  | e :: es, hes, x, (s : Option e.co.St × BroadcastReduce.St (es.map (·.co))), os, s', h, ho => by
    cases hp : e.co.pstep x s.1 with
    | error er =>
      have hc : BroadcastReduce.pstepAll ((e :: es).map (·.co)) x s = .error er := par_error hp
      cases hc.symm.trans h
    | ok p =>
      obtain ⟨o, s1⟩ := p
      cases hq : BroadcastReduce.pstepAll (es.map (·.co)) x s.2 with
      | error er =>
        have hc : BroadcastReduce.pstepAll ((e :: es).map (·.co)) x s = .error er := par_ok_error hp hq
        cases hc.symm.trans h
      | ok p2 =>
        obtain ⟨os', s2⟩ := p2
        have hc : BroadcastReduce.pstepAll ((e :: es).map (·.co)) x s = .ok (o :: os', (s1, s2)) := par_ok hp hq
        cases hc.symm.trans h
        simp only [List.all_cons, Bool.and_eq_true] at ho
        obtain ⟨y, rfl⟩ := Option.isSome_iff_exists.1 ho.1
        obtain ⟨v, hv⟩ := Option.isSome_iff_exists.1 ((hes e (by simp)).ready hp)
        obtain ⟨vs, hvs⟩ := Option.isSome_iff_exists.1 (list_ready es (fun e'' h'' => hes e'' (by simp [h''])) hq ho.2)
        simp only [Exp.listEnc, hv, hvs]; rfl

theorem allSome_all {α : Type} : ∀ {os : List (Option α)}, os.all Option.isSome = true → allSome os = some (os.filterMap id)
  | [], _ => rfl
  | none :: _, h => by simp at h
  | some a :: os, h => by
    simp only [List.all_cons, Option.isSome_some, Bool.true_and] at h
    simp [allSome, allSome_all h]

theorem allSome_not_all {α : Type} : ∀ {os : List (Option α)}, ¬ os.all Option.isSome = true → allSome os = none
  | [], h => by simp at h
  | none :: _, _ => rfl
  | some a :: os, h => by
    simp only [List.all_cons, Option.isSome_some, Bool.true_and] at h
    simp [allSome, allSome_not_all h]

theorem reduce_error {r : Reducer Y Y} {ms : List (CoMod (.stream Y) (.stream Y))} {x : Y} {s : Option (BroadcastReduce.St ms)}
    {er : Err} (h : BroadcastReduce.pstepAll ms x (s.getD (BroadcastReduce.noneSt ms)) = .error er) :
    BroadcastReduce.pstep r ms x s = .error er := by
  simp only [BroadcastReduce.pstep, bind, Except.bind, h]

theorem reduce_ok {r : Reducer Y Y} {ms : List (CoMod (.stream Y) (.stream Y))} {x : Y} {s : Option (BroadcastReduce.St ms)}
    {os : List (Option Y)} {s' : BroadcastReduce.St ms}
    (h : BroadcastReduce.pstepAll ms x (s.getD (BroadcastReduce.noneSt ms)) = .ok (os, s')) :
    BroadcastReduce.pstep r ms x s = (nonempty r.frame os).map fun o => (o, some s') := by
  simp only [BroadcastReduce.pstep, bind, Except.bind, h]
  cases nonempty r.frame os <;> rfl

theorem good_reduce (r : Reducer Y Y) {es : List (Exp Y T)} (hes : ∀ e ∈ es, Good e) : Good (Exp.reduce r es) where
  decl := .reduce (declaredAll_map hes)
  fits := by
    intro s v h
    obtain ⟨vs, hvs, rfl⟩ := Option.map_eq_some_iff.1 h
    exact .list (list_fits es hes hvs)
  sim := by
    intro s v x h
    obtain ⟨vs, hvs, rfl⟩ := Option.map_eq_some_iff.1 h
    have hh := list_sim es hes x 0 hvs
    cases hq : BroadcastReduce.pstepAll (es.map (·.co)) x (s.getD (BroadcastReduce.noneSt _)) with
    | error er =>
      have hc : (Exp.reduce r es).co.pstep x s = .error er := reduce_error hq
      refine ⟨fun er' hp => ?_, fun o s' hp => (by cases hc.symm.trans hp)⟩
      cases hc.symm.trans hp
      show Mod.step (.reduce r.frame (es.map (·.mod))) x (.many vs) = _
      simp only [Mod.step, hh.1 _ hq]
    | ok p =>
      obtain ⟨os, s1⟩ := p
      obtain ⟨vs', hvs', hst⟩ := hh.2 _ _ hq
      have hc : (Exp.reduce r es).co.pstep x s = (nonempty r.frame os).map fun o => (o, some s1) := reduce_ok hq
      have henc : (Exp.reduce r es).enc (some s1) = some (.many vs') := by
        show (Exp.listEnc es s1).map _ = _
        rw [hvs']; rfl
      by_cases ho : os.all Option.isSome = true
      · simp only [nonempty, allSome_all ho] at hc
        cases hr : r.frame (os.filterMap id) with
        | error er =>
          rw [hr] at hc
          refine ⟨fun er' hp => ?_, fun o s' hp => (by cases hc.symm.trans hp)⟩
          cases hc.symm.trans hp
          show Mod.step (.reduce r.frame (es.map (·.mod))) x (.many vs) = _
          simp only [Mod.step, hst, ho, if_true, hr]
        | ok y =>
          rw [hr] at hc
          refine ⟨fun er' hp => (by cases hc.symm.trans hp), fun o s' hp => ?_⟩
          cases hc.symm.trans hp
          refine ⟨_, henc, ?_⟩
          show Mod.step (.reduce r.frame (es.map (·.mod))) x (.many vs) = _
          simp only [Mod.step, hst, ho, if_true, hr]
      · simp only [nonempty, allSome_not_all ho] at hc
        refine ⟨fun er' hp => (by cases hc.symm.trans hp), fun o s' hp => ?_⟩
        cases hc.symm.trans hp
        refine ⟨_, henc, ?_⟩
        show Mod.step (.reduce r.frame (es.map (·.mod))) x (.many vs) = _
        simp only [Mod.step, hst, ho, Bool.false_eq_true, if_false]
  ready := by
    intro x s y s' h
    cases hp : BroadcastReduce.pstepAll (es.map (·.co)) x (s.getD (BroadcastReduce.noneSt _)) with
    | error er =>
      have hc : (Exp.reduce r es).co.pstep x s = .error er := reduce_error hp
      cases hc.symm.trans h
    | ok p =>
      obtain ⟨os, s1⟩ := p
      have hc : (Exp.reduce r es).co.pstep x s = (nonempty r.frame os).map fun o => (o, some s1) := reduce_ok hp
      have hc := hc.symm.trans h
      by_cases ho : os.all Option.isSome = true
      · obtain ⟨vs, hvs⟩ := Option.isSome_iff_exists.1 (list_ready es hes hp ho)
        cases hn : nonempty r.frame os with
        | error er => rw [hn] at hc; cases hc
        | ok o =>
          rw [hn] at hc
          cases hc
          show ((Exp.listEnc es s1).map _).isSome
          rw [hvs]; rfl
      · simp only [nonempty, allSome_not_all ho] at hc
        cases hc

/-! ### Exportable networks -/

/-- Every nesting of `Sequential` and `BroadcastReduce` over delays, skips, convolutions, poolings, modules without state, and
modules whose state is a tuple of tensors that `dec` reads back as `enc` wrote it and whose step always returns a state. -/
inductive Spec.Exportable [AddCommMonoid Y] : Exp Y (Tensor Y) → Prop where
  | delay (c : Delay.Cfg Y) : Exportable (Exp.delay c)
  | skip (n : Nat) : Exportable (Exp.skip n)
  | conv (c : Conv.Cfg Y Y) : Exportable (Exp.conv c)
  | pool (c : Pool.Cfg Y Y) : Exportable (Exp.pool c)
  | map (f : Y → Y) : Exportable (Exp.map f)
  | leaf (m : CoMod (.stream Y) (.stream Y)) (inds : List Bool) (dec : List (Nested (Tensor Y)) → Option m.St)
      (enc : m.St → List (Tensor Y)) (he : ∀ s, (enc s).length = inds.length) (hd : ∀ s, dec ((enc s).map .one) = some s)
      (hs : ∀ x s o s', m.pstep x s = .ok (o, s') → s'.isSome) : Exportable (Exp.leaf m inds.length inds dec enc)
  | seq (e : Exp Y (Tensor Y)) (es : List (Exp Y (Tensor Y))) (he : Exportable e) (hes : ∀ e' ∈ es, Exportable e') :
      Exportable (Exp.seq e es)
  | reduce (r : Reducer Y Y) (es : List (Exp Y (Tensor Y))) (hes : ∀ e ∈ es, Exportable e) : Exportable (Exp.reduce r es)

theorem exportable_good [AddCommMonoid Y] {e : Exp Y (Tensor Y)} (h : Exportable e) : Good e := by
  induction h with
  | delay c => exact good_delay c
  | skip n => exact good_skip n
  | conv c => exact good_conv c
  | pool c => exact good_pool c
  | map f => exact good_map f
  | leaf m inds dec enc he hd hs => exact good_leaf rfl he hd hs
  | seq e es _ _ ihe ihes => exact good_seq ihe ihes
  | reduce r es _ ih => exact good_reduce r ih

theorem Good.wrapper {e : Exp Y T} (h : Good e) {s : Option e.co.St} {v : Nested T} (hv : e.enc s = some v) (x : Y) :
    (∀ er, e.co.pstep x s = .error er → wrapper e.mod x (flatten v) = .error er) ∧
    ∀ o s', e.co.pstep x s = .ok (o, s') →
      ∃ v', e.enc s' = some v' ∧ wrapper e.mod x (flatten v) = .ok (o, flatten v') := by
  have hh := h.sim x hv
  refine ⟨fun er hp => ?_, fun o s' hp => ?_⟩
  · simp only [Onnx.wrapper, shapeList_flatten (h.fits hv), hh.1 er hp]
  · obtain ⟨v', hv', hst⟩ := hh.2 o s' hp
    exact ⟨v', hv', by simp only [Onnx.wrapper, shapeList_flatten (h.fits hv), hst]⟩

/-- The exported model, given the tensors of a state of the module, computes what the module computes by `_forward_step` from
that state: the same outputs, the same exceptions, and the tensors of the module's next state. -/
theorem C82_streams [AddCommMonoid Y] (e : Exp Y (Tensor Y)) (he : Exportable e) (xs : List Y) (s : Option e.co.St)
    (v : Nested (Tensor Y)) (hv : e.enc s = some v) :
    (∀ er, threadSteps e.co s xs = .error er → loop (wrapper e.mod) xs (flatten v) = .error er) ∧
    ∀ os s', threadSteps e.co s xs = .ok (os, s') →
      ∃ v', e.enc s' = some v' ∧ loop (wrapper e.mod) xs (flatten v) = .ok (os, flatten v') := by
  have h := exportable_good he
  induction xs generalizing s v with
  | nil =>
    refine ⟨fun er hp => (by cases hp), fun os s' hp => ?_⟩
    cases hp
    exact ⟨v, hv, rfl⟩
  | cons x xs ih =>
    have hw := h.wrapper hv x
    cases hp : e.co.pstep x s with
    | error er =>
      have hc : threadSteps e.co s (x :: xs) = .error er := by simp only [threadSteps, hp, bind, Except.bind]
      refine ⟨fun er' h' => ?_, fun os s' h' => (by cases hc.symm.trans h')⟩
      cases hc.symm.trans h'
      simp only [loop, hw.1 er hp]
    | ok p =>
      obtain ⟨o, s1⟩ := p
      obtain ⟨v1, hv1, hst⟩ := hw.2 o s1 hp
      have ih := ih s1 v1 hv1
      cases hq : threadSteps e.co s1 xs with
      | error er =>
        have hc : threadSteps e.co s (x :: xs) = .error er := by simp only [threadSteps, hp, hq, bind, Except.bind]
        refine ⟨fun er' h' => ?_, fun os s' h' => (by cases hc.symm.trans h')⟩
        cases hc.symm.trans h'
        simp only [loop, hst, ih.1 er hq]
      | ok p2 =>
        obtain ⟨os, s2⟩ := p2
        have hc : threadSteps e.co s (x :: xs) = .ok (o :: os, s2) := by
          simp only [threadSteps, hp, hq, bind, Except.bind]; rfl
        refine ⟨fun er' h' => (by cases hc.symm.trans h'), fun os' s' h' => ?_⟩
        cases hc.symm.trans h'
        obtain ⟨v2, hv2, hst2⟩ := ih.2 os s2 hq
        exact ⟨v2, hv2, by simp only [loop, hst, hst2]⟩

/-- A step that gives an output leaves all the declared state tensors behind, from whatever state: what an exported model is to
be fed with next.  There are as many as the exported model has state inputs, and one flag for each of them. -/
theorem C82_ready [AddCommMonoid Y] (e : Exp Y (Tensor Y)) (he : Exportable e) (x y : Y) (s s' : Option e.co.St)
    (h : e.co.pstep x s = .ok (some y, s')) :
    ∃ v, e.enc s' = some v ∧ (flatten v).length = (inputNames e.mod.shape).length ∧
      (flatten e.mod.inds).length = (inputNames e.mod.shape).length := by
  have hg := exportable_good he
  obtain ⟨v, hv⟩ := Option.isSome_iff_exists.1 (hg.ready h)
  refine ⟨v, hv, ?_, ?_⟩
  · simp [inputNames, fits_length (hg.fits hv)]
  · simp [inputNames, fits_length (inds_fits _ hg.decl)]

theorem thread_prefix {m : CoMod (.stream Y) (.stream Y)} {φ : List Y → List Y} (H : PImplements m φ) (xs zs : List Y)
    {os : List (Option Y)} {s : Option m.St} (h : threadSteps m none xs = .ok (os, s)) :
    ∃ os' s', threadSteps m s zs = .ok (os', s') ∧ os'.length = zs.length ∧
      ∀ t < zs.length, φ (xs ++ zs.take (t + 1)) = φ (xs ++ zs.take t) ++ ((os'[t]?).join).toList := by
  obtain ⟨P, hP, hstep⟩ := H
  have pre : ∀ (xs h : List Y) (s : Option m.St) (os : List (Option Y)) (s' : Option m.St), P h s →
      threadSteps m s xs = .ok (os, s') → P (h ++ xs) s' := by
    intro xs
    induction xs with
    | nil => intro h s os s' hp ht; cases ht; simpa using hp
    | cons x xs ih =>
      intro h s os s' hp ht
      obtain ⟨o, s1, h1, _, h3⟩ := hstep x hp
      simp only [threadSteps, h1, bind, Except.bind] at ht
      cases hq : threadSteps m s1 xs with
      | error er => rw [hq] at ht; cases ht
      | ok p =>
        rw [hq] at ht
        cases ht
        simpa using ih _ _ _ _ h3 hq
  have key : ∀ (zs h : List Y) (s : Option m.St), P h s → ∃ os s', threadSteps m s zs = .ok (os, s') ∧
      os.length = zs.length ∧ ∀ t < zs.length,
        φ (h ++ zs.take (t + 1)) = φ (h ++ zs.take t) ++ ((os[t]?).join).toList := by
    intro zs
    induction zs with
    | nil => intro h s _; exact ⟨[], s, rfl, rfl, by simp⟩
    | cons x xs ih =>
      intro h s hs
      obtain ⟨o, s1, h1, h2, h3⟩ := hstep x hs
      obtain ⟨os, s2, k1, k2, k4⟩ := ih _ _ h3
      refine ⟨o :: os, s2, ?_, by simp [k2], ?_⟩
      · simp [threadSteps, h1, k1, bind, Except.bind, pure, Except.pure]
      · intro t ht
        cases t with
        | zero => simpa using h2
        | succ t => simpa using k4 t (by simpa using ht)
  exact key zs xs s (by simpa using pre xs [] none os s hP h)

/-- A network with the stream function `φ` is warmed up on `xs` by `_forward_step`, until it gives an output, and the exported
model continues on `zs`: it raises nothing, and each frame gives the output that belongs to the whole stream. -/
theorem C82_continues [AddCommMonoid Y] (k : CoInf.Spec.Cls) (φ : List Y → List Y) (e : Exp Y (Tensor Y)) (he : Exportable e)
    (hn : CoInf.Spec.Net k e.co φ) (xs zs : List Y) (x : Y) (os : List (Option Y)) (y : Y) (s0 s : Option e.co.St)
    (hw : threadSteps e.co none xs = .ok (os, s0)) (hy : e.co.pstep x s0 = .ok (some y, s)) :
    ∃ v os' v', e.enc s = some v ∧ loop (wrapper e.mod) zs (flatten v) = .ok (os', v') ∧ os'.length = zs.length ∧
      ∀ t < zs.length, φ (xs ++ [x] ++ zs.take (t + 1)) = φ (xs ++ [x] ++ zs.take t) ++ ((os'[t]?).join).toList := by
  obtain ⟨v, hv⟩ := Option.isSome_iff_exists.1 ((exportable_good he).ready hy)
  have happ : ∀ (xs : List Y) (s s0 : Option e.co.St) (os : List (Option Y)), threadSteps e.co s xs = .ok (os, s0) →
      ∀ {y s'}, e.co.pstep x s0 = .ok (y, s') → threadSteps e.co s (xs ++ [x]) = .ok (os ++ [y], s') := by
    intro xs
    induction xs with
    | nil => intro s s0 os h y s' h'; cases h; simp [threadSteps, h', bind, Except.bind, pure, Except.pure]
    | cons a xs ih =>
      intro s s0 os h y s' h'
      simp only [threadSteps, bind, Except.bind] at h
      cases hp : e.co.pstep a s with
      | error er => rw [hp] at h; cases h
      | ok p =>
        rw [hp] at h
        simp only at h
        cases hq : threadSteps e.co p.2 xs with
        | error er => rw [hq] at h; cases h
        | ok p2 =>
          rw [hq] at h
          cases h
          have := ih _ _ _ hq h'
          simp [threadSteps, hp, this, bind, Except.bind, pure, Except.pure]
  obtain ⟨os', s', h1, h2, h3⟩ := thread_prefix (CoInf.net_facts hn).pimpl (xs ++ [x]) zs (happ xs none s0 os hw hy)
  obtain ⟨v', _, h5⟩ := (C82_streams e he zs s v hv).2 os' s' h1
  exact ⟨v, os', flatten v', hv, h5, h2, h3⟩

/-- Attention as a member of a container is stepped on its state.  Exported on its own it is not: the wrapper passes the states
as second positional argument, which is `key`, so that every exported step raises. -/
theorem C82_attention_refuted {S : Type} (f : Y → Y → Y → Option S → Except Err (Option Y × Option S))
    (dec : List (Nested T) → Option S) (enc : S → List T) (x : Y) (s : Nested T) :
    attnCall f dec enc (containerArgs x s) = ofPstep (fun x s => f x x x s) dec enc x s ∧
      attnCall f dec enc (wrapperArgs x s) = .error .attribute := by
  refine ⟨?_, rfl⟩
  cases s <;> rfl

/-! ### Examples -/

/-- A residual convolution, a function, a skip: members without output at first. -/
def exExport : Exp Int (Tensor Int) :=
  Exp.seq (Exp.reduce (foldReducer (· + ·)) [Exp.conv ⟨3, 1, 0, .zeros, .zeros, fun j x => (j + 1 : Int) * x, some 5⟩,
    Exp.delay ⟨2, fun _ => 0, .off⟩]) [Exp.map (fun x => 2 * x), Exp.skip 1]

theorem exExport_ok : Exportable exExport :=
  .seq _ _ (.reduce _ _ (by simp only [List.mem_cons, List.not_mem_nil, or_false, forall_eq_or_imp, forall_eq]
                            exact ⟨.conv _, .delay _⟩))
    (by simp only [List.mem_cons, List.not_mem_nil, or_false, forall_eq_or_imp, forall_eq]
        exact ⟨.map _, .skip _⟩)

/-- Warm-up on four frames, of which the last one gives an output. -/
example : ∃ s, threadSteps exExport.co none [1, 2, 3, 4] = .ok ([none, none, none, some 54], s) ∧ (exExport.enc s).isSome :=
  ⟨_, rfl, rfl⟩

/-- A convolution of kernel 2, a function, a skip. -/
def exExport2 : Exp Int (Tensor Int) :=
  Exp.seq (Exp.conv ⟨2, 1, 0, .zeros, .zeros, fun j x => (j + 1 : Int) * x, none⟩) [Exp.map (fun x => 2 * x), Exp.skip 1]

theorem exExport2_ok : Exportable exExport2 :=
  .seq _ _ (.conv _) (by simp only [List.mem_cons, List.not_mem_nil, or_false, forall_eq_or_imp, forall_eq]
                         exact ⟨.map _, .skip _⟩)

example : ∃ φ os s0 s y, CoInf.Spec.Net ⟨false, 0⟩ exExport2.co φ ∧ threadSteps exExport2.co none [1, 2] = .ok (os, s0) ∧
    exExport2.co.pstep (3 : Int) s0 = .ok (some y, s) :=
  ⟨_, _, _, _, _, .cons (.conv _ ⟨by decide, by decide, by decide, by decide, by intro j; simp, by decide, by decide⟩)
    (.cons (.pointwise _) (.single (.skip 1 (by decide) (by decide)))), rfl, rfl⟩

end CoInf.Onnx
