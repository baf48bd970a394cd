/-
Property C76: in-place members.
-/
import Verif.Model.InPlace
import Verif.Props.Residual

set_option autoImplicit false

namespace CoInf
open InPlace

namespace InPlace
variable {X : Type}

/-- The output of a call can be the tensor that was passed. -/
def Net.passes (m : Mode) : Net X → Bool
  | .module _ => false
  | .inplace _ => true
  | .delay d _ => d = 0 ∨ m = .forward
  | .seq a b => a.passes m && b.passes m
  | .reduce _ _ _ => false

/-- A call can write into the tensor that was passed. -/
def Net.writes (m : Mode) : Net X → Bool
  | .module _ => false
  | .inplace _ => true
  | .delay _ _ => false
  | .seq a b => a.writes m || (a.passes m && b.writes m)
  | .reduce _ a b => a.writes m || b.writes m

/-- In every `BroadcastReduce`, the first member does not write into the common input, and if it hands it on as its
output, neither does the second. -/
def Net.safe (m : Mode) : Net X → Bool
  | .module _ => true
  | .inplace _ => true
  | .delay _ _ => true
  | .seq a b => a.safe m && b.safe m
  | .reduce _ a b => a.safe m && b.safe m && !a.writes m && !(a.passes m && b.writes m)

/-! ### The methods of containers -/

theorem run_seq (a b : Net X) (m : Mode) (i : (Net.seq a b).pure.Inst) (x : m.Tensor X) :
    run (Net.seq a b).pure m i x =
      match run a.pure m i.1 x with
      | .error e => .error e
      | .ok (none, i1) => .ok (none, (i1, i.2))
      | .ok (some y, i1) =>
        match run b.pure m i.2 y with
        | .error e => .error e
        | .ok (o, i2) => .ok (o, (i1, i2)) := by
  cases m with
  | forward =>
    show Except.map _ ((Chain.cons a.pure (.single b.pure)).fwd i x) = _
    show Except.map _ (a.pure.fwd i.1 x >>= fun r => b.pure.fwd i.2 r.1 >>= fun s => Except.ok (s.1, (r.2, s.2))) = _
    simp only [run]
    cases a.pure.fwd i.1 x with
    | error e => rfl
    | ok r =>
      show Except.map _ (b.pure.fwd i.2 r.1 >>= _) = _
      simp only [Except.map]
      cases b.pure.fwd i.2 r.1 <;> rfl
  | step u =>
    show (Chain.cons a.pure (.single b.pure)).step i u x = _
    simp only [run, Chain.step]
    cases a.pure.step i.1 u x with
    | error e => rfl
    | ok r =>
      obtain ⟨o, i1⟩ := r
      cases o with
      | none => rfl
      | some y =>
        show (b.pure.step i.2 u y >>= _) = _
        simp only
        cases b.pure.step i.2 u y <;> rfl
  | steps p u =>
    show (Chain.cons a.pure (.single b.pure)).steps i p u x = _
    simp only [run, Chain.steps]
    cases a.pure.steps i.1 p u x with
    | error e => rfl
    | ok r =>
      obtain ⟨o, i1⟩ := r
      cases o with
      | none => rfl
      | some y =>
        show (b.pure.steps i.2 p u y >>= _) = _
        simp only
        cases b.pure.steps i.2 p u y <;> rfl

theorem run_reduce (op : X → X → X) (a b : Net X) (m : Mode) (i : (Net.reduce op a b).pure.Inst) (x : m.Tensor X) :
    run (Net.reduce op a b).pure m i x =
      match run a.pure m i.1 x with
      | .error e => .error e
      | .ok (o1, i1) =>
        match run b.pure m i.2.1 x with
        | .error e => .error e
        | .ok (o2, i2) =>
          match o1, o2 with
          | some v1, some v2 =>
            match InPlace.reduce op m v1 v2 with
            | .error e => .error e
            | .ok z => .ok (some z, (i1, i2, ()))
          | _, _ => .ok (none, (i1, i2, ())) := by
  cases m with
  | forward =>
    show Except.map _ (BroadcastReduce.fwd (foldReducer op) [a.pure, b.pure] i x) = _
    simp only [run, BroadcastReduce.fwd, BroadcastReduce.fwdAll]
    cases a.pure.fwd i.1 x with
    | error e => rfl
    | ok r =>
      simp only [Except.map]
      cases b.pure.fwd i.2.1 x with
      | error e => rfl
      | ok s =>
        show Except.map _ ((foldReducer op).clip [r.1, s.1] >>= fun o => Except.ok (o, (r.2, s.2, ()))) = _
        simp only [InPlace.reduce]
        cases (foldReducer op).clip [r.1, s.1] <;> rfl
  | step u =>
    show BroadcastReduce.step (foldReducer op) [a.pure, b.pure] i u x = _
    simp only [run, BroadcastReduce.step, BroadcastReduce.stepAll]
    cases a.pure.step i.1 u x with
    | error e => rfl
    | ok r =>
      obtain ⟨o1, i1⟩ := r
      cases b.pure.step i.2.1 u x with
      | error e => rfl
      | ok s =>
        obtain ⟨o2, i2⟩ := s
        cases o1 with
        | none => rfl
        | some v1 =>
          cases o2 with
          | none => rfl
          | some v2 => rfl
  | steps p u =>
    show BroadcastReduce.steps (foldReducer op) [a.pure, b.pure] i p u x = _
    simp only [run, BroadcastReduce.steps, BroadcastReduce.stepsAll]
    cases a.pure.steps i.1 p u x with
    | error e => rfl
    | ok r =>
      obtain ⟨o1, i1⟩ := r
      cases b.pure.steps i.2.1 p u x with
      | error e => rfl
      | ok s =>
        obtain ⟨o2, i2⟩ := s
        cases o1 with
        | none => rfl
        | some v1 =>
          cases o2 with
          | none => rfl
          | some v2 =>
            show ((Except.map some ((foldReducer op).clip [v1, v2])) >>= fun o => Except.ok (o, (i1, i2, ()))) = _
            simp only [InPlace.reduce]
            cases (foldReducer op).clip [v1, v2] <;> rfl

/-! ### Safe networks -/

/-- What `call` does to the memory if it does what `run` says. -/
def Agrees {V I : Type} (r : Except Err (Option V × I)) (s : Except Err (Option Nat × I × List V)) (h : List V) (x : Nat)
    (passes writes : Bool) : Prop :=
  match r with
  | .error e => s = .error e
  | .ok (o, i') => ∃ o' h', s = .ok (o', i', h') ∧ h.length ≤ h'.length ∧
      (∀ k < h.length, k ≠ x → h'[k]? = h[k]?) ∧ (writes = false → h'[x]? = h[x]?) ∧
      match o with
      | none => o' = none
      | some y => ∃ q, o' = some q ∧ h'[q]? = some y ∧ ((q = x ∧ passes = true) ∨ h.length ≤ q)

theorem agrees_fresh {V I : Type} (r : Except Err (Option V × I)) (h : List V) (x : Nat) (hx : x < h.length)
    (p w : Bool) : Agrees r (fresh r h) h x p w := by
  match r with
  | .error e => rfl
  | .ok (none, i) => exact ⟨none, h, rfl, le_refl _, fun _ _ _ => rfl, fun _ => rfl, rfl⟩
  | .ok (some y, i) =>
    refine ⟨some h.length, h ++ [y], rfl, by simp, fun k hk _ => List.getElem?_append_left hk,
      fun _ => List.getElem?_append_left hx, h.length, rfl, by simp, .inr (le_refl _)⟩

theorem call_agrees (m : Mode) : ∀ (n : Net X), n.safe m = true → ∀ (i : n.pure.Inst) (x : Nat) (h : List (m.Tensor X))
    (v : m.Tensor X), h[x]? = some v → Agrees (run n.pure m i v) (call n m i x h) h x (n.passes m) (n.writes m)
  | .module M, _, i, x, h, v, hv => by
    have hx : x < h.length := (List.getElem?_eq_some_iff.mp hv).1
    simp only [call, hv]
    exact agrees_fresh _ _ _ hx _ _
  | .inplace f, _, i, x, h, v, hv => by
    have hx : x < h.length := (List.getElem?_eq_some_iff.mp hv).1
    simp only [call, hv]
    have hr : run (Pointwise.mod f) m i v = .ok (some (onTensor f m v), i) := by cases m <;> rfl
    show Agrees (run (Pointwise.mod f) m i v) _ _ _ _ _
    rw [hr]
    refine ⟨some x, _, rfl, by simp, fun k _ hk => ?_, fun hw => (by cases hw), x, rfl, ?_, .inl ⟨rfl, rfl⟩⟩
    · rw [List.getElem?_set_ne (Ne.symm hk)]
    · rw [List.getElem?_set_self hx]
  | .delay d fill, _, i, x, h, v, hv => by
    have hx : x < h.length := (List.getElem?_eq_some_iff.mp hv).1
    by_cases hd : d = 0 ∨ m = .forward
    · simp only [call, if_pos hd]
      have hr : run (Delay.mod { d := d, fill := fill }) m i v = .ok (some v, i) := by
        rcases hd with hd | hd
        · subst hd
          cases m <;> simp [run, Delay.forward, Except.map]
        · subst hd
          simp [run, Delay.forward, Except.map]
      show Agrees (run (Delay.mod _) m i v) _ _ _ _ _
      rw [hr]
      exact ⟨some x, h, rfl, le_refl _, fun _ _ _ => rfl, fun _ => rfl, x, rfl, hv, .inl ⟨rfl, by simp [Net.passes, hd]⟩⟩
    · simp only [call, if_neg hd, hv]
      exact agrees_fresh _ _ _ hx _ _
  | .seq a b, hs, i, x, h, v, hv => by
    simp only [Net.safe, Bool.and_eq_true] at hs
    have ha := call_agrees m a hs.1 i.1 x h v hv
    rw [run_seq]
    unfold Agrees at ha
    cases hra : run a.pure m i.1 v with
    | error e =>
      rw [hra] at ha
      simp only at ha
      simp only [call, ha]
      rfl
    | ok r =>
      obtain ⟨o, i1⟩ := r
      rw [hra] at ha
      obtain ⟨o', h1, e1, l1, f1, w1, out⟩ := ha
      cases o with
      | none =>
        simp only at out
        subst out
        simp only [call, e1]
        refine ⟨none, h1, rfl, l1, f1, fun hw => w1 ?_, rfl⟩
        simp only [Net.writes, Bool.or_eq_false_iff] at hw
        exact hw.1
      | some y =>
        obtain ⟨q, rfl, hq, alt⟩ := out
        have hb := call_agrees m b hs.2 i.2 q h1 y hq
        simp only [call, e1]
        unfold Agrees at hb
        cases hrb : run b.pure m i.2 y with
        | error e =>
          rw [hrb] at hb
          simp only at hb
          rw [hb]
          rfl
        | ok r =>
          obtain ⟨o2, i2⟩ := r
          rw [hrb] at hb
          obtain ⟨o2', h2, e2, l2, f2, w2, out2⟩ := hb
          rw [e2]
          have hx : x < h.length := (List.getElem?_eq_some_iff.mp hv).1
          refine ⟨o2', h2, rfl, le_trans l1 l2, fun k hk hkx => ?_, fun hw => ?_, ?_⟩
          · have hkq : k ≠ q := by
              rcases alt with ⟨rfl, _⟩ | hle
              · exact hkx
              · omega
            rw [f2 k (by omega) hkq, f1 k hk hkx]
          · simp only [Net.writes, Bool.or_eq_false_iff, Bool.and_eq_false_iff] at hw
            rcases alt with ⟨rfl, hp⟩ | hle
            · rw [w2 (by rcases hw.2 with h | h; exact absurd hp (by rw [h]; decide); exact h), w1 hw.1]
            · rw [f2 x (by omega) (by omega), w1 hw.1]
          · cases o2 with
            | none => exact out2
            | some z =>
              obtain ⟨q2, rfl, hq2, alt2⟩ := out2
              refine ⟨q2, rfl, hq2, ?_⟩
              rcases alt2 with ⟨rfl, hp2⟩ | hle2
              · rcases alt with ⟨rfl, hp⟩ | hle
                · exact .inl ⟨rfl, by simp [Net.passes, hp, hp2]⟩
                · exact .inr hle
              · exact .inr (by omega)
  | .reduce op a b, hs, i, x, h, v, hv => by
    simp only [Net.safe, Bool.and_eq_true, Bool.not_eq_true', Bool.and_eq_false_iff] at hs
    obtain ⟨⟨⟨hsa, hsb⟩, hwa⟩, hpw⟩ := hs
    have hx : x < h.length := (List.getElem?_eq_some_iff.mp hv).1
    have ha := call_agrees m a hsa i.1 x h v hv
    rw [run_reduce]
    unfold Agrees at ha
    cases hra : run a.pure m i.1 v with
    | error e =>
      rw [hra] at ha
      simp only at ha
      simp only [call, ha]
      rfl
    | ok r =>
      obtain ⟨o1, i1⟩ := r
      rw [hra] at ha
      obtain ⟨o1', h1, e1, l1, f1, w1, out1⟩ := ha
      have hb := call_agrees m b hsb i.2.1 x h1 v (by rw [w1 hwa]; exact hv)
      simp only [call, e1]
      unfold Agrees at hb
      cases hrb : run b.pure m i.2.1 v with
      | error e =>
        rw [hrb] at hb
        simp only at hb
        rw [hb]
        rfl
      | ok r =>
        obtain ⟨o2, i2⟩ := r
        rw [hrb] at hb
        obtain ⟨o2', h2, e2, l2, f2, w2, out2⟩ := hb
        rw [e2]
        have hf : ∀ k < h.length, k ≠ x → h2[k]? = h[k]? := fun k hk hkx => by rw [f2 k (by omega) hkx, f1 k hk hkx]
        have hw : (Net.reduce op a b).writes m = false → h2[x]? = h[x]? := by
          intro hw
          simp only [Net.writes, Bool.or_eq_false_iff] at hw
          rw [w2 hw.2, w1 hw.1]
        cases o1 with
        | none =>
          simp only at out1
          subst out1
          exact ⟨none, h2, rfl, le_trans l1 l2, hf, hw, rfl⟩
        | some v1 =>
          obtain ⟨q1, rfl, hq1, alt1⟩ := out1
          cases o2 with
          | none =>
            simp only at out2
            subst out2
            exact ⟨none, h2, rfl, le_trans l1 l2, hf, hw, rfl⟩
          | some v2 =>
            obtain ⟨q2, rfl, hq2, alt2⟩ := out2
            have hq1' : h2[q1]? = some v1 := by
              have hlt : q1 < h1.length := (List.getElem?_eq_some_iff.mp hq1).1
              by_cases hqx : q1 = x
              · have hp : a.passes m = true := by
                  rcases alt1 with ⟨_, hp⟩ | hle
                  · exact hp
                  · omega
                have : b.writes m = false := hpw.resolve_left (by rw [hp]; decide)
                rw [hqx, w2 this, ← hqx, hq1]
              · rw [f2 q1 hlt hqx, hq1]
            simp only [hq1', hq2]
            cases hz : InPlace.reduce op m v1 v2 with
            | error e => rfl
            | ok z =>
              refine ⟨some h2.length, h2 ++ [z], rfl, by simp; omega, fun k hk hkx => ?_, fun hw' => ?_, h2.length, rfl,
                by simp, .inr (le_trans l1 l2)⟩
              · rw [List.getElem?_append_left (by omega), hf k hk hkx]
              · rw [List.getElem?_append_left (by omega), hw hw']

theorem read_agrees {V I : Type} {r : Except Err (Option V × I)} {s : Except Err (Option Nat × I × List V)} {h : List V}
    {x : Nat} {p w : Bool} (hA : Agrees r s h x p w) : read s = r := by
  unfold Agrees at hA
  match r, hA with
  | .error e, hA => subst hA; rfl
  | .ok (none, i'), ⟨o', h', e1, _, _, _, ho⟩ =>
    subst e1
    simp only at ho
    subst ho
    rfl
  | .ok (some y, i'), ⟨o', h', e1, _, _, _, q, hq, hy, _⟩ =>
    subst e1 hq
    simp only [read, hy]

/-- The mode of a call (`clean_state` counts as none). -/
def callMode : Spec.Call (.stream X) → Option Mode
  | .step u _ => some (.step u)
  | .steps p u _ => some (.steps p u)
  | .clean => none
  | .fwd _ => some .forward

theorem exec_safe (n : Net X) (i : n.pure.Inst) (c : Spec.Call (.stream X))
    (hs : ∀ m, callMode c = some m → n.safe m = true) : exec n i c = Spec.call n.pure i c := by
  cases c with
  | step u x =>
    simp only [exec, Spec.call, read_agrees (call_agrees _ n (hs _ rfl) i 0 [x] x rfl)]
    rfl
  | steps p u xs =>
    simp only [exec, Spec.call, read_agrees (call_agrees _ n (hs _ rfl) i 0 [xs] xs rfl)]
    rfl
  | clean => rfl
  | fwd xs =>
    simp only [exec, Spec.call, read_agrees (call_agrees _ n (hs _ rfl) i 0 [xs] xs rfl)]
    simp only [run]
    cases n.pure.fwd i xs <;> rfl

theorem passes_mono (m : Mode) : ∀ n : Net X, n.passes m = true → n.passes .forward = true
  | .module _, h => h
  | .inplace _, h => h
  | .delay _ _, _ => by simp [Net.passes]
  | .seq a b, h => by
    simp only [Net.passes, Bool.and_eq_true] at h ⊢
    exact ⟨passes_mono m a h.1, passes_mono m b h.2⟩
  | .reduce _ _ _, h => h

theorem writes_mono (m : Mode) : ∀ n : Net X, n.writes m = true → n.writes .forward = true
  | .module _, h => h
  | .inplace _, h => h
  | .delay _ _, h => h
  | .seq a b, h => by
    simp only [Net.writes, Bool.or_eq_true, Bool.and_eq_true] at h ⊢
    rcases h with h | ⟨h1, h2⟩
    · exact .inl (writes_mono m a h)
    · exact .inr ⟨passes_mono m a h1, writes_mono m b h2⟩
  | .reduce _ a b, h => by
    simp only [Net.writes, Bool.or_eq_true] at h ⊢
    exact h.imp (writes_mono m a) (writes_mono m b)

theorem safe_mono (m : Mode) : ∀ n : Net X, n.safe .forward = true → n.safe m = true
  | .module _, _ => rfl
  | .inplace _, _ => rfl
  | .delay _ _, _ => rfl
  | .seq a b, h => by
    simp only [Net.safe, Bool.and_eq_true] at h ⊢
    exact ⟨safe_mono m a h.1, safe_mono m b h.2⟩
  | .reduce _ a b, h => by
    simp only [Net.safe, Bool.and_eq_true, Bool.not_eq_true', Bool.and_eq_false_iff] at h ⊢
    obtain ⟨⟨⟨h1, h2⟩, h3⟩, h4⟩ := h
    have down : ∀ {u v : Bool}, (u = true → v = true) → v = false → u = false := by
      intro u v huv hv
      cases u
      · rfl
      · rw [huv rfl] at hv
        cases hv
    exact ⟨⟨⟨safe_mono m a h1, safe_mono m b h2⟩, down (writes_mono m a) h3⟩,
      h4.imp (down (passes_mono m a)) (down (writes_mono m b))⟩

theorem safe_streaming (n : Net X) (u p u' : Bool) : n.passes (.step u) = n.passes (.steps p u') ∧
    n.writes (.step u) = n.writes (.steps p u') ∧ n.safe (.step u) = n.safe (.steps p u') := by
  induction n with
  | module _ => exact ⟨rfl, rfl, rfl⟩
  | inplace _ => exact ⟨rfl, rfl, rfl⟩
  | delay d _ => exact ⟨by simp [Net.passes], rfl, rfl⟩
  | seq a b iha ihb =>
    simp only [Net.passes, Net.writes, Net.safe, iha, ihb, and_self]
  | reduce op a b iha ihb =>
    simp only [Net.passes, Net.writes, Net.safe, iha, ihb, and_self]

end InPlace

/-- **C76**, scripts of calls.  If no container hands a tensor to a member that writes into it while another member still
needs it, in-place members change nothing: whatever is called, in whatever order, the caller reads what the network of
pure functions computes, exceptions included. -/
theorem C76_session_partial {X : Type} (n : Net X) (cs : List (Spec.Call (.stream X)))
    (hs : ∀ c ∈ cs, ∀ m, callMode c = some m → n.safe m = true) (i : n.pure.Inst) :
    session n i cs = Spec.calls n.pure i cs := by
  induction cs generalizing i with
  | nil => rfl
  | cons c cs ih =>
    simp only [session, Spec.calls, exec_safe n i c (hs c List.mem_cons_self)]
    have ih' := ih (fun c hc => hs c (List.mem_cons_of_mem _ hc))
    cases Spec.call n.pure i c with
    | error e => rfl
    | ok r => simp only [ih']

/-- **C76**: it is enough to look at `forward`; a network that is safe there is safe in every mode. -/
theorem C76_safe_partial {X : Type} (n : Net X) (hs : n.safe .forward = true) (cs : List (Spec.Call (.stream X)))
    (i : n.pure.Inst) : session n i cs = Spec.calls n.pure i cs :=
  C76_session_partial n cs (fun _ _ m _ => safe_mono m n hs) i

/-- **C76**, the other tensors of the caller: a call never writes into them, and not into its input either if no member
that sees the input itself is in-place. -/
theorem C76_frame_partial {X : Type} (n : Net X) (m : Mode) (hs : n.safe m = true) (i i' : n.pure.Inst) (x : Nat)
    (h h' : List (m.Tensor X)) (o : Option Nat) (hx : x < h.length) (hc : call n m i x h = .ok (o, i', h')) :
    (∀ k < h.length, k ≠ x → h'[k]? = h[k]?) ∧ (n.writes m = false → h'[x]? = h[x]?) ∧
      (n.passes m = false → ∀ q, o = some q → h.length ≤ q) := by
  have hA := call_agrees m n hs i x h h[x] (List.getElem?_eq_getElem hx)
  rw [hc] at hA
  unfold Agrees at hA
  split at hA
  · cases hA
  · obtain ⟨o', h1, e1, _, f1, w1, out⟩ := hA
    cases e1
    refine ⟨f1, w1, fun hp q hq => ?_⟩
    subst hq
    split at out
    · cases out
    · obtain ⟨q', hq', _, alt⟩ := out
      cases hq'
      rcases alt with ⟨_, hp'⟩ | hle
      · rw [hp] at hp'
        cases hp'
      · exact hle

/-- `co.Residual(co.Sequential(nn.ReLU(inplace=True), M))` with a delay of `d` (container.py:957-978: the delay comes
first). -/
def InPlace.residual {X : Type} (op : X → X → X) (d : Nat) (fill : X → X) (f : X → X) (M : CoMod (.stream X) (.stream X)) :
    Net X := .reduce op (.delay d fill) (.seq (.inplace f) (.module M))

/-- **C76**, streaming through such a residual is right as soon as there is a delay. -/
theorem C76_residual_streaming {X : Type} (op : X → X → X) (d : Nat) (hd : 0 < d) (fill f : X → X)
    (M : CoMod (.stream X) (.stream X)) (cs : List (Spec.Call (.stream X)))
    (hs : ∀ c ∈ cs, callMode c ≠ some .forward) (i : (residual op d fill f M).pure.Inst) :
    session (residual op d fill f M) i cs = Spec.calls (residual op d fill f M).pure i cs := by
  refine C76_session_partial _ cs (fun c hc m hm => ?_) i
  have hne : m ≠ .forward := fun h => hs c hc (h ▸ hm)
  simp [residual, Net.safe, Net.writes, Net.passes, hne]
  omega

/-- **C76 refuted**: `forward` of the same residual adds the *overwritten* input.  Its value is `op (f x) (M (f x))` frame
by frame, not `op x (M (f x))`, so that with an operation that can be undone (a sum) it is wrong for every clip that `f`
changes. -/
theorem C76_residual_refuted {X : Type} (op : X → X → X) (hop : ∀ a b c, op a c = op b c → a = b) (d : Nat) (fill f : X → X)
    (M : CoMod (.stream X) (.stream X)) (i : (residual op d fill f M).pure.Inst) (xs ys : List X) (j : M.Inst)
    (hM : M.fwd i.2.1.2 (xs.map f) = .ok (ys, j)) (hl : ys.length = xs.length) :
    exec (residual op d fill f M) i (.fwd xs) = .ok (.whole (List.zipWith op (xs.map f) ys), (i.1, (i.2.1.1, j), ())) ∧
    Spec.call (residual op d fill f M).pure i (.fwd xs) = .ok (.whole (List.zipWith op xs ys), (i.1, (i.2.1.1, j), ())) ∧
    (xs.map f ≠ xs → List.zipWith op (xs.map f) ys ≠ List.zipWith op xs ys) := by
  refine ⟨?_, ?_, ?_⟩
  · simp [exec, residual, call, onTensor, run, hM, Except.map, fresh, InPlace.reduce, foldReducer, bcast2, hl, InPlace.read]
  · have hr := run_reduce op (.delay d fill) (.seq (.inplace f) (.module M)) .forward i xs
    rw [run_seq] at hr
    have h1 : run (Net.delay d fill).pure .forward i.1 xs = .ok (some xs, i.1) := by
      simp [run, Except.map, Delay.forward]
    have h2 : run (Net.inplace f).pure .forward i.2.1.1 xs = .ok (some (xs.map f), i.2.1.1) := rfl
    have h3 : run (Net.module M).pure .forward i.2.1.2 (xs.map f) = .ok (some ys, j) := by
      simp [run, hM, Except.map]
    rw [h1, h2] at hr
    simp only [h3] at hr
    have h4 : InPlace.reduce op .forward xs ys = .ok (List.zipWith op xs ys) := by
      simp [InPlace.reduce, foldReducer, bcast2, hl]
    simp only [h4] at hr
    show Except.map _ _ = _
    have h5 : run (residual op d fill f M).pure .forward i xs = .ok (some (List.zipWith op xs ys), (i.1, (i.2.1.1, j), ())) := hr
    simp only [run] at h5
    cases hf : (residual op d fill f M).pure.fwd i xs with
    | error e => rw [hf] at h5; cases h5
    | ok r =>
      rw [hf] at h5
      obtain ⟨y, i'⟩ := r
      cases h5
      rfl
  · intro hne heq
    apply hne
    apply List.ext_getElem (by simp)
    intro k h1 h2
    have hk := congrArg (fun l => l[k]?) heq
    simp only [List.getElem?_zipWith, List.getElem?_eq_getElem h1, List.getElem?_eq_getElem h2,
      List.getElem?_eq_getElem (show k < ys.length by omega)] at hk
    exact hop _ _ _ (Option.some.inj hk)

/-- The same residual written in the order of the docstring (container.py:932-934), `BroadcastReduce(module, Delay(d))`. -/
def InPlace.residual' {X : Type} (op : X → X → X) (d : Nat) (fill : X → X) (f : X → X) (M : CoMod (.stream X) (.stream X)) :
    Net X := .reduce op (.seq (.inplace f) (.module M)) (.delay d fill)

/-- **C76 refuted**, the other order: in every mode the delay is handed what the in-place member has left in the tensor.
Each call gives what `Sequential(f, BroadcastReduce(M, Delay(d)))` gives, a network without a connection around `f`. -/
theorem C76_order_refuted {X : Type} (op : X → X → X) (d : Nat) (fill f : X → X) (M : CoMod (.stream X) (.stream X))
    (m : Mode) (i : (residual' op d fill f M).pure.Inst) (v : m.Tensor X) :
    InPlace.read (call (residual' op d fill f M) m i 0 [v]) =
      (run (Net.seq (.inplace f) (.reduce op (.module M) (.delay d fill))).pure m (i.1.1, (i.1.2, i.2.1, ())) v).map
        fun r => (r.1, ((r.2.1, r.2.2.1), r.2.2.2.1, ())) := by
  have hA := read_agrees (call_agrees m (.seq (.inplace f) (.reduce op (.module M) (.delay d fill))) rfl
    (i.1.1, (i.1.2, i.2.1, ())) 0 [v] v rfl)
  rw [← hA]
  simp only [residual', call, List.getElem?_cons_zero, List.set_cons_zero]
  cases run M m i.1.2 (onTensor f m v) with
  | error e => rfl
  | ok r =>
    obtain ⟨o1, i1⟩ := r
    cases o1 with
    | none =>
      simp only [fresh]
      by_cases hd : d = 0 ∨ m = .forward
      · simp only [if_pos hd]
        rfl
      · simp only [if_neg hd, List.getElem?_cons_zero]
        cases run (Delay.mod { d := d, fill := fill }) m i.2.1 (onTensor f m v) with
        | error e => rfl
        | ok r =>
          obtain ⟨o2, i2⟩ := r
          cases o2 <;> rfl
    | some y1 =>
      simp only [fresh, List.length_singleton, List.singleton_append]
      by_cases hd : d = 0 ∨ m = .forward
      · simp only [if_pos hd, List.getElem?_cons_zero, List.getElem?_cons_succ]
        cases InPlace.reduce op m y1 (onTensor f m v) <;> rfl
      · simp only [if_neg hd, List.getElem?_cons_zero]
        cases run (Delay.mod { d := d, fill := fill }) m i.2.1 (onTensor f m v) with
        | error e => rfl
        | ok r =>
          obtain ⟨o2, i2⟩ := r
          cases o2 with
          | none => rfl
          | some y2 =>
            simp only [fresh, List.length_cons, List.length_nil, List.cons_append, List.nil_append, List.getElem?_cons_zero,
              List.getElem?_cons_succ]
            cases InPlace.reduce op m y1 y2 <;> rfl

/-- A rectifier. -/
def InPlace.relu (x : Int) : Int := max x 0

/-- A convolution that sums three frames. -/
def InPlace.exRelu : Net Int := residual (· + ·) 1 (fun _ => 0) relu (Conv.mod (exSum 3 1 1))

/-- The hypotheses of `C76_residual_refuted` are met by a clip with a negative frame. -/
example : ∃ ys j, (Conv.mod (exSum 3 1 1)).fwd (Conv.mod (exSum 3 1 1)).init ([-5, 1, 2].map relu) = .ok (ys, j) ∧
    ys.length = 3 ∧ [-5, 1, 2].map relu ≠ [-5, 1, 2] := ⟨_, _, rfl, rfl, by decide⟩

/-- `forward` adds the rectified frame (0 + 1 = 1), `forward_steps` the frame itself (-5 + 1 = -4). -/
example : (session exRelu exRelu.pure.init [.fwd [-5, 1, 2]]).1 = [.whole [1, 4, 5]] ∧
    (session exRelu exRelu.pure.init [.steps true true [-5, 1, 2]]).1 = [.clip (some [-4, 4, 5])] ∧
    (Spec.calls exRelu.pure exRelu.pure.init [.fwd [-5, 1, 2]]).1 = [.whole [-4, 4, 5]] := ⟨rfl, rfl, rfl⟩

/-- A network with in-place members that is safe: convolutions before the rectifiers, and a residual connection around
them. -/
def InPlace.exSafe : Net Int :=
  .reduce (· + ·) (.delay 1 fun _ => 0) (.seq (.module (Conv.mod (exSum 3 1 1))) (.inplace relu))

example : exSafe.safe .forward = true ∧ exSafe.writes .forward = false := by decide

example : (session exSafe exSafe.pure.init [.fwd [-5, 1, 2], .steps true true [-5, 1, 2]]).1 =
    [.whole [-5, 1, 5], .clip (some [-5, 1, 5])] := rfl

/-- With the members in the other order the frame is lost in `forward_step`, too. -/
example : (session (residual' (· + ·) 1 (fun _ => 0) relu (Conv.mod (exSum 3 1 1)))
      (residual' (· + ·) 1 (fun _ => 0) relu (Conv.mod (exSum 3 1 1))).pure.init
      [.step true (-5), .step true 1, .step true 2]).1 = [.frame none, .frame (some 1), .frame (some 4)] := rfl

end CoInf
