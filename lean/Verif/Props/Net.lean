/-
Properties C08-C15, C25, C26, C45 for every network: all nestings of `Sequential` and `BroadcastReduce`
over convolutions, poolings, delays, skips and frame-wise modules (`Spec.Net`).
-/
import Verif.Lemmas.Observe
import Verif.Lemmas.Tame
import Verif.Props.Leaf

set_option autoImplicit false

namespace CoInf
open Spec
variable {X Y Z : Type}

/-! ### An example network

`Sequential(Conv(K=3, P=1), x ↦ 2x, Residual-like BroadcastReduce(Conv(K=3, P=1), Delay(1)))` over the
integers. -/

/-- A convolution with kernel `(1, 10, 100)`, stride one, padding one. -/
def exConvS1 : Conv.Cfg Int Int := { exConv .zeros with S := 1 }

/-- The parallel part: convolution plus the delayed input. -/
def exSkipCon : CoMod (.stream Int) (.stream Int) :=
  BroadcastReduce.mod (foldReducer (· + ·))
    (List.ofFn fun j : Fin 2 => if j = 0 then Conv.mod exConvS1 else Delay.mod { d := 1, fill := fun _ => 0 })

/-- The whole network. -/
def exNet : CoMod (.stream Int) (.stream Int) :=
  Sequential.mod (.cons (Conv.mod exConvS1) (.cons (Pointwise.mod (2 * ·)) (.single exSkipCon)))

theorem exConvS1_ok (k : Cls) : ConvOk exConvS1 k where
  K_pos := by decide
  S_pos := by decide
  P_lt := by decide
  K1 := by decide
  linear := by intro j; show 10 ^ j * (0 : Int) = 0; simp
  mode := fun _ => rfl
  unit := fun _ => rfl

theorem exSkipCon_net (k : Cls) : ∃ φ, Net k exSkipCon φ := by
  refine ⟨_, Net.reduce (k := k) (n := 2) (foldReducer (· + ·)) (foldFrame (· + ·) 0)
    (fun j : Fin 2 => if j = 0 then Conv.mod exConvS1 else Delay.mod { d := 1, fill := fun _ => 0 })
    (fun j => if j = 0 then streamOut 3 1 1 (fun _ => 0) (corr exConvS1.w exConvS1.bias) else delayed 1 0)
    (by decide) ?_ (reduceOk_of (by decide) (foldReducer_lawful _ _ _ (by decide)) (foldReducer_sound _)) ?_ ?_ ?_⟩
  · intro j
    match j with
    | 0 => exact Net.conv exConvS1 (exConvS1_ok k)
    | 1 =>
      have h := Net.delay (k := k) { d := 1, fill := fun _ => (0 : Int) } (fun _ => rfl)
      have e : delayLead { d := 1, fill := fun _ => (0 : Int) } = 0 := rfl
      rw [e] at h
      exact h
  · have h0 : ∀ xs : List Int, (streamOut 3 1 1 (fun _ => 0) (corr exConvS1.w exConvS1.bias) xs).length =
        xs.length - 1 := by
      intro xs
      have := sched_window (P := 1) (K := 3) (S := 1) (by decide) (fun _ : Int => 0)
        (corr exConvS1.w exConvS1.bias) xs
      rw [this]
      split <;> omega
    have h1 : ∀ xs : List Int, (delayed 1 0 xs).length = xs.length - 1 := by
      intro xs; simp [delayed]
    intro i j xs
    match i, j with
    | 0, 0 => rfl
    | 0, 1 => exact (h0 xs).trans (h1 xs).symm
    | 1, 0 => exact (h1 xs).trans (h0 xs).symm
    | 1, 1 => rfl
  · intro _ i j
    match i, j with
    | 0, 0 => exact ⟨rfl, rfl⟩
    | 0, 1 => exact ⟨rfl, rfl⟩
    | 1, 0 => exact ⟨rfl, rfl⟩
    | 1, 1 => exact ⟨rfl, rfl⟩
  · have h0 : ∀ {xs ys a}, (Conv.mod exConvS1).fwd (Conv.mod exConvS1).init xs = .ok (ys, a) →
        ys.length = xs.length := by
      intro xs ys a h
      cases hf : Conv.forward exConvS1 xs with
      | error e =>
        have h : (Conv.forward exConvS1 xs).map _ = .ok (ys, a) := h
        rw [hf] at h; cases h
      | ok zs =>
        have h : (Conv.forward exConvS1 xs).map _ = .ok (ys, a) := h
        rw [hf] at h; cases h
        obtain ⟨hx, e⟩ := Conv.forward_eq exConvS1 rfl hf
        rw [e, clipOut_length _ _ _ _ _ hx]
        have hpos := List.length_pos_of_ne_nil hx
        show windowCount 3 1 (xs.length + 2 * 1) = _
        unfold windowCount
        rw [if_neg (by omega)]
        omega
    have hlen : ∀ (j : Fin 2) {xs ys a}, (if j = 0 then Conv.mod exConvS1
        else Delay.mod { d := 1, fill := fun _ => (0 : Int) }).fwd (if j = 0 then Conv.mod exConvS1
        else Delay.mod { d := 1, fill := fun _ => (0 : Int) }).init xs = .ok (ys, a) → ys.length = xs.length := by
      intro j xs ys a h
      match j with
      | 0 => exact h0 h
      | 1 => cases h; rfl
    intro _ i j xs ys ys' a b hi hj
    rw [hlen i hi, hlen j hj]

theorem exNet_net (k : Cls) : ∃ φ, Net k exNet φ := by
  obtain ⟨φ, h⟩ := exSkipCon_net k
  exact ⟨_, Net.cons (Net.conv exConvS1 (exConvS1_ok _)) (Net.cons (Net.pointwise _) (Net.single h))⟩

/-! ### C08 -/

/-- **C08.** From any state of any network, cutting the same frames into `forward_step` and `forward_steps`
calls in two different ways gives the same frames, and leaves two objects that no later sequence of calls
can tell apart. -/
theorem C08_chunking_independence {k : Cls} {m : CoMod (.stream X) (.stream Y)} {φ : List X → List Y}
    (hn : Net k m φ) {h : List X} {i i' : m.Inst} (hi : Reach m h i) (hi' : Reach m h i')
    (ops ops' : List (Op X)) (hf : ∀ op ∈ ops, op.feeds) (hf' : ∀ op ∈ ops', op.feeds)
    (heq : framesOf ops = framesOf ops') :
    ∃ rs rs' j j', run m i ops = .ok (rs, j) ∧ run m i' ops' = .ok (rs', j') ∧
      outsOf rs = outsOf rs' ∧ Same m j j' := by
  have H := (net_facts hn).impl
  obtain ⟨rs, j, h1, h2, h3⟩ := H.feed ops hi hf
  obtain ⟨rs', j', h1', h2', h3'⟩ := H.feed ops' hi' hf'
  refine ⟨rs, rs', j, j', h1, h1', ?_, ?_⟩
  · rw [heq, h3'] at h3
    exact (List.append_cancel_left h3).symm
  · rw [← heq] at h2'
    exact H.same h2 h2'

example : ∃ rs rs' j j', run exNet exNet.init [.step true 1, .steps true [2, 3], .step true 4] = .ok (rs, j) ∧
    run exNet exNet.init [.steps true [1, 2, 3, 4]] = .ok (rs', j') ∧ outsOf rs = outsOf rs' ∧ Same exNet j j' := by
  obtain ⟨φ, hn⟩ := exNet_net ⟨true, 2⟩
  exact C08_chunking_independence hn .init .init [.step true 1, .steps true [2, 3], .step true 4]
    [.steps true [1, 2, 3, 4]] (by simp [Op.feeds]) (by simp [Op.feeds]) rfl

/-! ### C09 -/

/-- **C09.** On every object of every network (reachable or not), a call with `update_state=False` returns
what the call with `update_state=True` would return (also the same exception) and the object is unchanged. -/
theorem C09_probe {k : Cls} {m : CoMod (.stream X) (.stream Y)} {φ : List X → List Y} (hn : Net k m φ)
    (i : m.Inst) :
    (∀ x, m.step i false x = (m.step i true x).map fun p => (p.1, i)) ∧
    (∀ xs, m.steps i false false xs = (m.steps i false true xs).map fun p => (p.1, i)) := by
  have T := net_tame hn
  constructor
  · intro x
    have e := T.step_same i x
    cases h : m.step i false x with
    | error e1 => rw [map_fst_err e h]; rfl
    | ok p =>
      obtain ⟨j, h'⟩ := map_fst_ok e (show m.step i false x = .ok (p.1, p.2) from h)
      rw [h', ← T.step_false (show m.step i false x = .ok (p.1, p.2) from h)]; rfl
  · intro x
    have e := T.steps_same i x
    cases h : m.steps i false false x with
    | error e1 => rw [map_fst_err e h]; rfl
    | ok p =>
      obtain ⟨j, h'⟩ := map_fst_ok e (show m.steps i false false x = .ok (p.1, p.2) from h)
      rw [h', ← T.steps_false (show m.steps i false false x = .ok (p.1, p.2) from h)]; rfl

example (i : exNet.Inst) (x : Int) : exNet.step i false x = (exNet.step i true x).map fun p => (p.1, i) :=
  let ⟨_, hn⟩ := exNet_net ⟨true, 2⟩
  (C09_probe hn i).1 x

/-! ### C10 -/

/-- **C10.** After `clean_state` on any object of any network every script of calls (with any flags,
including end padding) shows what it shows on a newly constructed module. -/
theorem C10_clean_state {k : Cls} {m : CoMod (.stream X) (.stream Y)} {φ : List X → List Y} (hn : Net k m φ)
    (i : m.Inst) (cs : List (Call (.stream X))) : calls m (m.clean i) cs = calls m m.init cs := by
  rw [(net_tame hn).clean]

example (i : exNet.Inst) (cs) : calls exNet (exNet.clean i) cs = calls exNet exNet.init cs :=
  let ⟨_, hn⟩ := exNet_net ⟨true, 2⟩
  C10_clean_state hn i cs

/-! ### C25 -/

/-- **C25.** `forward` does not change any object of any network; its result does not depend on the object;
hence deleting all `forward` calls that return from a script changes nothing else. -/
theorem C25_forward_pure {k : Cls} {m : CoMod (.stream X) (.stream Y)} {φ : List X → List Y} (hn : Net k m φ)
    (i : m.Inst) :
    (∀ xs, m.fwd i xs = (m.fwd m.init xs).map fun p => (p.1, i)) ∧
    (∀ cs cs' xs ys, m.fwd m.init xs = .ok ys →
      (calls m i (cs ++ .fwd xs :: cs')).2 = (calls m i (cs ++ cs')).2 ∧
      ∃ rs rs', (calls m i (cs ++ cs')).1 = rs ++ rs' ∧
        ((calls m i (cs ++ .fwd xs :: cs')).1 = rs ++ rs' ∨
         (calls m i (cs ++ .fwd xs :: cs')).1 = rs ++ .whole ys.1 :: rs')) := by
  have T := net_tame hn
  have fwd_eq : ∀ (i : m.Inst) xs, m.fwd i xs = (m.fwd m.init xs).map fun p => (p.1, i) := by
    intro i xs
    have e := T.fwd_indep i xs
    cases h : m.fwd i xs with
    | error e1 => rw [map_fst_err e h]; rfl
    | ok p =>
      obtain ⟨j, h'⟩ := map_fst_ok e (show m.fwd i xs = .ok (p.1, p.2) from h)
      rw [h', ← T.fwd_state (show m.fwd i xs = .ok (p.1, p.2) from h)]; rfl
  refine ⟨fwd_eq i, fun cs => ?_⟩
  induction cs generalizing i with
  | nil =>
    intro cs' xs ys hy
    have hc : call m i (.fwd xs) = .ok (.whole ys.1, i) := by
      show (m.fwd i xs).map _ = _
      rw [fwd_eq, hy]; rfl
    have e : calls m i ([] ++ .fwd xs :: cs') = (.whole ys.1 :: (calls m i cs').1, (calls m i cs').2) := by
      rw [List.nil_append, calls, hc]
    rw [e]
    exact ⟨rfl, [], (calls m i cs').1, rfl, .inr rfl⟩
  | cons c cs ih =>
    intro cs' xs ys hy
    cases hc : call m i c with
    | error e =>
      have e1 : ∀ l, calls m i (c :: l) = ([.raised e], none) := by intro l; rw [calls, hc]
      rw [List.cons_append, List.cons_append, e1, e1]
      exact ⟨rfl, [.raised e], [], rfl, .inl rfl⟩
    | ok p =>
      have e1 : ∀ l, calls m i (c :: l) = (p.1 :: (calls m p.2 l).1, (calls m p.2 l).2) := by
        intro l; rw [calls, hc]
      rw [List.cons_append, List.cons_append, e1, e1]
      obtain ⟨h1, rs, rs', h2, h3⟩ := ih p.2 cs' xs ys hy
      refine ⟨h1, p.1 :: rs, rs', by rw [h2]; rfl, ?_⟩
      rcases h3 with h3 | h3
      · left; rw [h3]; rfl
      · right; rw [h3]; rfl

example (i : exNet.Inst) (xs) : exNet.fwd i xs = (exNet.fwd exNet.init xs).map fun p => (p.1, i) :=
  let ⟨_, hn⟩ := exNet_net ⟨true, 2⟩
  (C25_forward_pure hn i).1 xs

/-! ### C11 -/

/-- **C11.** From a clean state of any network whose members report their geometry, the `t`-th
`forward_step` returns a tensor iff `t ≥ delay` and `(t - delay) mod stride = 0`, for the reported `delay`
and `stride`. -/
theorem C11_emission_schedule {k : Cls} (hk : k.geo = true) {m : CoMod (.stream X) (.stream Y)}
    {φ : List X → List Y} (hn : Net k m φ) {i : m.Inst} (hi : Reach m [] i) (xs : List X) :
    ∃ os i', callSteps m i xs = .ok (os, i') ∧ os.length = xs.length ∧
      ∀ (t : Nat) (o : Option Y), os[t]? = some o → (o.isSome ↔ m.delay ≤ (t : Int) ∧ ((t : Int) - m.delay) % m.stride = 0) := by
  have F := net_facts hn
  have G := F.geom hk
  obtain ⟨os, i', h1, h2, _, h4⟩ := Spec.SimRel.callSteps_eq F.impl.reach xs hi
  refine ⟨os, i', h1, h2, fun t o ho => ?_⟩
  have ht : t < xs.length := by
    rw [← h2]
    by_contra hc
    rw [List.getElem?_eq_none (by omega)] at ho; cases ho
  have h5 := h4 t ht
  rw [ho] at h5
  have hx : xs.take (t + 1) = xs.take t ++ [xs[t]] := by simp
  rw [List.nil_append, List.nil_append, hx] at h5
  have h6 := G.geo.sched.emits_iff (xs.take t) xs[t] (o := o) h5
  rw [h6, List.length_take, Nat.min_eq_left (by omega)]
  have hP := G.geo.hP
  have hd : m.delay = ((m.rf - 1 - m.padding : Nat) : Int) := by rw [G.delay]; omega
  rw [hd]
  unfold emits
  constructor
  · rintro ⟨a, b⟩
    refine ⟨by omega, ?_⟩
    have : ((t : Int) - ((m.rf - 1 - m.padding : Nat) : Int)) = ((t - (m.rf - 1 - m.padding) : Nat) : Int) := by omega
    rw [this]
    exact_mod_cast b
  · rintro ⟨a, b⟩
    refine ⟨by omega, ?_⟩
    have : ((t : Int) - ((m.rf - 1 - m.padding : Nat) : Int)) = ((t - (m.rf - 1 - m.padding) : Nat) : Int) := by omega
    rw [this] at b
    exact_mod_cast b

example : exNet.delay = 2 ∧ exNet.stride = 1 ∧ exNet.rf = 5 ∧ exNet.padding = 2 := by decide

/-! ### C13 -/

/-- **C13.** Stream two clips (of any lengths) into clean objects of a network.  If they agree on the frames
`j*stride - padding, ..., j*stride - padding + receptive_field - 1` (reported values; indices before the
start do not matter) then the `j`-th outputs agree, if both exist. -/
theorem C13_receptive_field {k : Cls} (hk : k.geo = true) {m : CoMod (.stream X) (.stream Y)}
    {φ : List X → List Y} (hn : Net k m φ) {i i' : m.Inst} (hi : Reach m [] i) (hi' : Reach m [] i')
    {xs xs' : List X} {os os' : List (Option Y)} {j j' : m.Inst} (h : callSteps m i xs = .ok (os, j))
    (h' : callSteps m i' xs' = .ok (os', j')) (n : Nat) {y y' : Y} (hy : (tensors os)[n]? = some y)
    (hy' : (tensors os')[n]? = some y')
    (hw : ∀ a : Nat, (n * m.stride : Int) - m.padding ≤ a → (a : Int) < n * m.stride - m.padding + m.rf →
      xs[a]? = xs'[a]?) : y = y' := by
  have F := net_facts hn
  have G := F.geom hk
  have key : ∀ {i : m.Inst} {xs : List X} {os : List (Option Y)} {j : m.Inst}, Reach m [] i →
      callSteps m i xs = .ok (os, j) → tensors os = φ xs := by
    intro i xs os j hi h
    obtain ⟨os0, i0, h1, h2, h3⟩ := F.impl.streamsAs i hi xs
    rw [h] at h1; cases h1
    have := h3 xs.length
    rwa [List.take_of_length_le (by omega), List.take_of_length_le (by omega)] at this
  rw [key hi h] at hy
  rw [key hi' h'] at hy'
  have hl : n < (φ xs).length := by
    by_contra hc; rw [List.getElem?_eq_none (by omega)] at hy; cases hy
  have hl' : n < (φ xs').length := by
    by_contra hc; rw [List.getElem?_eq_none (by omega)] at hy'; cases hy'
  have := G.geo.loc xs xs' n hl hl' (fun a h1 h2 => hw a (by
    have : ((n * m.stride : Nat) : Int) ≤ a + m.padding := by exact_mod_cast h1
    push_cast at this; omega) (by
    have : ((a : Int) + m.padding) < ((n * m.stride : Nat) : Int) + m.rf := by exact_mod_cast h2
    push_cast at this; omega))
  rw [hy, hy'] at this
  exact Option.some.inj this

/-- Same outputs at index 0 although the streams differ from frame 3 on: `rf = 5`, `padding = 2`. -/
example : ∃ os os' j j' y, callSteps exNet exNet.init [1, 2, 3, 4] = .ok (os, j) ∧
    callSteps exNet exNet.init [1, 2, 3, 9] = .ok (os', j') ∧ (tensors os)[0]? = some y ∧
    (tensors os')[0]? = some y ∧ (tensors os)[1]? ≠ (tensors os')[1]? :=
  ⟨_, _, _, _, _, rfl, rfl, rfl, rfl, by decide⟩

/-! ### C14 -/

/-- **C14**, first part: a `Sequential` streams the composition of what its members stream.  This holds
for arbitrary members, not only those of `Net`. -/
theorem C14_sequential_composes {m : CoMod (.stream X) (.stream Y)} {c : Chain (.stream Y) (.stream Z)}
    {φ : List X → List Y} {ψ : List Y → List Z} (h1 : Implements m φ)
    (h2 : Implements (Sequential.mod c) ψ) : StreamsAs (Sequential.mod (.cons m c)) (ψ ∘ φ) :=
  Implements.streamsAs ⟨_, Sequential.simRel_cons h1.reach h2.reach⟩

/-- **C14**, second part: on a clean network (`k.pad ≥ 1`: streaming and `forward` use the same padding)
`forward_steps(x, pad_end=True)` returns what `forward(x)` returns, for both values of `update_state`. -/
theorem C14_padEnd_eq_forward {k : Cls} (hk : 1 ≤ k.pad) {m : CoMod (.stream X) (.stream Y)}
    {φ : List X → List Y} (hn : Net k m φ) {i : m.Inst} (hi : Reach m [] i) (u : Bool) {xs : List X}
    {ys : List Y} (hx : xs ≠ []) (hf : ∃ j, m.fwd i xs = .ok (ys, j)) :
    ∃ i', m.steps i true u xs = .ok (optList ys, i') := by
  obtain ⟨j, hf⟩ := hf
  have F := net_facts hn
  have e := F.impl.reach.fwd_indep xs hi
  obtain ⟨j', hf'⟩ := map_fst_ok e hf
  exact (F.padClean hk).eq u hi hx hf'

example : ∃ i', exNet.steps exNet.init true false [1, 2, 3, 4, 5] =
    .ok (some [70381, 95457, 120321, 25185, 2449], i') :=
  let ⟨_, hn⟩ := exNet_net ⟨true, 1⟩
  C14_padEnd_eq_forward (xs := [1, 2, 3, 4, 5]) (by decide) hn .init false (by decide) ⟨_, rfl⟩

end CoInf
