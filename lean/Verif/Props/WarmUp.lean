/-
C42 (warm_up) and C55 (outputs depend on the content of their window, not on its position).
-/
import Verif.Props.Net
import Verif.Props.Corner
import Verif.Model.WarmUp

set_option autoImplicit false

namespace CoInf
open Spec

variable {X Y : Type}

theorem warmUp_reach {k : Cls} {m : CoMod (.stream X) (.stream Y)} {φ : List X → List Y} (hn : Net k m φ)
    (hd : 0 < m.delay) {h : List X} {i : m.Inst} (hi : Reach m h i) (pad : X) :
    ∃ i', warmUp m i pad = .ok i' ∧ Reach m (h ++ List.replicate m.delay.toNat pad) i' := by
  have hne : List.replicate m.delay.toNat pad ≠ [] := by
    intro e
    have := congrArg List.length e
    simp at this
    omega
  obtain ⟨ys, i', h1, _, _⟩ := (net_facts hn).impl.reach.steps true _ hne hi
  refine ⟨i', ?_, ?_⟩
  · simp only [warmUp]
    rw [if_neg (by omega), h1]
  · simpa using Reach.steps true _ hne hi h1

/-- **C42.** Any network whose members report their geometry, with a positive delay: after `clean_state` and `warm_up` (with
whatever padding frame), every `stride`-th `forward_step` returns a tensor, the first one included. -/
theorem C42_warm_up_partial {k : Cls} (hk : k.geo = true) {m : CoMod (.stream X) (.stream Y)} {φ : List X → List Y}
    (hn : Net k m φ) (hd : 0 < m.delay) {i : m.Inst} (hi : Reach m [] i) (pad : X) (xs : List X) :
    ∃ i1 os i2, warmUp m i pad = .ok i1 ∧ callSteps m i1 xs = .ok (os, i2) ∧ os.length = xs.length ∧
      ∀ (t : Nat) (o : Option Y), os[t]? = some o → (o.isSome ↔ t % m.stride = 0) := by
  obtain ⟨i1, h1, h2⟩ := warmUp_reach hn hd hi pad
  have F := net_facts hn
  have G := F.geom hk
  obtain ⟨os, i2, h3, h4, _, h5⟩ := Spec.SimRel.callSteps_eq F.impl.reach xs h2
  refine ⟨i1, os, i2, h1, h3, h4, fun t o ho => ?_⟩
  have ht : t < xs.length := by
    rw [← h4]
    by_contra hc
    rw [List.getElem?_eq_none (by omega)] at ho; cases ho
  have h6 := h5 t ht
  rw [ho] at h6
  have hx : xs.take (t + 1) = xs.take t ++ [xs[t]] := by simp
  rw [hx, ← List.append_assoc] at h6
  have h7 := G.geo.sched.emits_iff _ xs[t] (o := o) h6
  rw [h7]
  have hP := G.geo.hP
  have hdel : m.delay.toNat = m.rf - 1 - m.padding := by have := G.delay; omega
  unfold emits
  simp only [List.nil_append, List.length_append, List.length_replicate, List.length_take, Nat.min_eq_left (Nat.le_of_lt ht), hdel]
  rw [Nat.add_sub_cancel_left]
  constructor
  · exact fun h => h.2
  · exact fun h => ⟨by omega, h⟩

/-- The output of a step is a function of the last `rf` frames. -/
theorem step_window {φ : List X → List Y} {rf S P : Nat} (G : HasGeo φ rf S P) {g g' : List X} {x x' : X} {y y' : Y}
    (h : φ (g ++ [x]) = φ g ++ [y]) (h' : φ (g' ++ [x']) = φ g' ++ [y']) (hl : rf ≤ (g ++ [x]).length)
    (hl' : rf ≤ (g' ++ [x']).length)
    (hw : (g ++ [x]).drop ((g ++ [x]).length - rf) = (g' ++ [x']).drop ((g' ++ [x']).length - rf)) : y = y' := by
  have idx : ∀ {g : List X} {x : X} {y : Y}, φ (g ++ [x]) = φ g ++ [y] → rf ≤ (g ++ [x]).length →
      (φ g).length * S - P = (g ++ [x]).length - rf ∧ P ≤ (φ g).length * S := by
    intro g x y h hl
    have hP := G.hP
    have he := (G.sched.emits_iff g x (o := some y) h).1 rfl
    obtain ⟨h1, h2⟩ := he
    have hlen := G.sched g
    simp only [List.length_append, List.length_singleton] at hl ⊢
    have key : (φ g).length * S = g.length - (rf - 1 - P) := by
      rw [hlen]
      split
      · rename_i hle
        have : g.length - (rf - 1 - P) = 0 := by omega
        rw [this]; simp
      · rename_i hgt
        have hdm := Nat.div_add_mod (g.length - (rf - 1 - P)) S
        rw [h2, Nat.add_zero] at hdm
        generalize hq : (g.length - (rf - 1 - P)) / S = q at hdm
        have hqpos : 0 < q := by
          rcases Nat.eq_zero_or_pos q with h0 | h0
          · rw [h0] at hdm; simp at hdm; omega
          · exact h0
        have : (g.length - 1 - (rf - 1 - P)) / S = q - 1 := by
          have e : g.length - 1 - (rf - 1 - P) = S * (q - 1) + (S - 1) := by
            have hS := G.hS
            have : S * q = S * (q - 1) + S := by
              conv => lhs; rw [show q = (q - 1) + 1 by omega, Nat.mul_add, Nat.mul_one]
            omega
          rw [e, Nat.mul_add_div (by have := G.hS; omega), Nat.div_eq_of_lt (by have := G.hS; omega), Nat.add_zero]
        rw [this, Nat.sub_add_cancel hqpos, Nat.mul_comm, hdm]
    constructor <;> omega
  obtain ⟨a1, b1⟩ := idx h hl
  obtain ⟨a2, b2⟩ := idx h' hl'
  have := G.inv (g ++ [x]) (g' ++ [x']) (φ g).length (φ g').length (by rw [h]; simp) (by rw [h']; simp) b1 b2 (by
    intro k hk
    rw [a1, a2]
    have := congrArg (fun l => l[k]?) hw
    simpa [List.getElem?_drop] using this)
  rw [h, h'] at this
  simpa using this

/-- **C55.** Take two objects of a network after any two histories of calls.  If `forward_step` returns a tensor in both and
the last `receptive_field` frames that they have been fed are the same, then the tensors are the same: neither the
position in the stream, nor earlier frames, nor the kind of calls that fed the frames matter. -/
theorem C55_window {k : Cls} (hk : k.geo = true) {m : CoMod (.stream X) (.stream Y)} {φ : List X → List Y}
    (hn : Net k m φ) {g g' : List X} {i i' j j' : m.Inst} (hi : Reach m g i) (hi' : Reach m g' i') {x x' : X} {y y' : Y}
    {u u' : Bool} (h : m.step i u x = .ok (some y, j)) (h' : m.step i' u' x' = .ok (some y', j'))
    (hl : m.rf ≤ (g ++ [x]).length) (hl' : m.rf ≤ (g' ++ [x']).length)
    (hw : (g ++ [x]).drop ((g ++ [x]).length - m.rf) = (g' ++ [x']).drop ((g' ++ [x']).length - m.rf)) : y = y' := by
  have F := net_facts hn
  obtain ⟨o1, j1, h1, h2, _⟩ := F.impl.reach.step u x hi
  obtain ⟨o2, j2, h3, h4, _⟩ := F.impl.reach.step u' x' hi'
  rw [h] at h1
  rw [h'] at h3
  cases h1
  cases h3
  exact step_window (F.geom hk).geo h2 h4 hl hl' hw

/-- **C42.** Once the warmed-up module has been fed `receptive_field` frames, its outputs are those that a module without
warm-up returns for the same last frames. -/
theorem C42_exact {k : Cls} (hk : k.geo = true) {m : CoMod (.stream X) (.stream Y)} {φ : List X → List Y}
    (hn : Net k m φ) (hd : 0 < m.delay) {i i' : m.Inst} (hi : Reach m [] i) (hi' : Reach m [] i') (pad : X) {xs : List X}
    {i1 i2 j : m.Inst} {os os' : List (Option Y)} (h1 : warmUp m i pad = .ok i1) (h2 : callSteps m i1 xs = .ok (os, i2))
    (h3 : callSteps m i' xs = .ok (os', j)) {t : Nat} {y y' : Y} (ht : m.rf ≤ t + 1) (hy : os[t]? = some (some y))
    (hy' : os'[t]? = some (some y')) : y = y' := by
  have F := net_facts hn
  obtain ⟨i1', e1, r1⟩ := warmUp_reach hn hd hi pad
  rw [h1] at e1
  cases e1
  obtain ⟨os1, j1, e2, l1, _, p1⟩ := Spec.SimRel.callSteps_eq F.impl.reach xs r1
  rw [h2] at e2
  cases e2
  obtain ⟨os2, j2, e3, l2, _, p2⟩ := Spec.SimRel.callSteps_eq F.impl.reach xs hi'
  rw [h3] at e3
  cases e3
  have hlt : t < xs.length := by
    rw [← l1]
    by_contra hc
    rw [List.getElem?_eq_none (by omega)] at hy; cases hy
  have q1 := p1 t hlt
  have q2 := p2 t hlt
  rw [hy] at q1
  rw [hy'] at q2
  have hx : xs.take (t + 1) = xs.take t ++ [xs[t]] := by simp
  rw [hx, ← List.append_assoc] at q1 q2
  refine step_window (F.geom hk).geo q1 q2 ?_ ?_ ?_
  · simp [Nat.min_eq_left (Nat.le_of_lt hlt)]; omega
  · simp [Nat.min_eq_left (Nat.le_of_lt hlt)]; omega
  · simp only [List.nil_append, List.append_assoc]
    rw [← hx]
    have hlen : (xs.take (t + 1)).length = t + 1 := by simp; omega
    rw [List.length_append, hlen, List.drop_append, List.drop_of_length_le (by omega), List.nil_append]
    congr 1; omega

/-- A module with delay 2 (see `Props.Net`): after warming up it answers at once; the first two answers depend on the
warm-up frames, the fifth and later ones do not. -/
example : ∃ i1 os i2 os' j, warmUp exNet exNet.init 0 = .ok i1 ∧
    callSteps exNet i1 [1, 2, 3, 4, 5, 6] = .ok (os, i2) ∧ callSteps exNet exNet.init [1, 2, 3, 4, 5, 6] = .ok (os', j) ∧
    os.all Option.isSome ∧ os'[0]? = some none ∧ os[4]? = os'[4]? ∧ os[5]? = os'[5]? :=
  ⟨_, _, _, _, _, rfl, rfl, rfl, rfl, rfl, rfl, rfl⟩

/-- **C42**, delay 0: convolutions and poolings whose padding makes up for their kernel. -/
theorem C42_no_delay {X Y : Type} [Zero X] [AddCommMonoid Y] (pad x : X) :
    (∀ (c : Conv.Cfg X Y), ConvOk c ⟨true, 0⟩ → c.P + 1 = c.K → ∀ {i}, Reach (Conv.mod c) [] i →
      ∃ i1 y i2, warmUp (Conv.mod c) i pad = .ok i1 ∧ (Conv.mod c).step i1 true x = .ok (some y, i2)) ∧
    (∀ (c : Pool.Cfg X Y), PoolOk c ⟨true, 0⟩ → c.P + 1 = c.K → ∀ {i}, Reach (Pool.mod c) [] i →
      ∃ i1 y i2, warmUp (Pool.mod c) i pad = .ok i1 ∧ (Pool.mod c).step i1 true x = .ok (some y, i2)) := by
  have key : ∀ {m : CoMod (.stream X) (.stream Y)} {φ : List X → List Y}, Net ⟨true, 0⟩ m φ → m.delay = 0 →
      (m.steps m.init false true [] = .ok (none, m.init)) → ∀ {i}, Reach m [] i →
      ∃ i1 y i2, warmUp m i pad = .ok i1 ∧ m.step i1 true x = .ok (some y, i2) := by
    intro m φ hn hd hs i hi
    have hi0 := Tame.reach_nil (net_tame hn) hi rfl
    subst hi0
    obtain ⟨os, i', h1, h2, h3⟩ := C11_emission_schedule rfl hn hi [x]
    cases hst : m.step m.init true x with
    | error e =>
      simp only [callSteps, hst] at h1
      cases h1
    | ok p =>
      obtain ⟨o, j⟩ := p
      simp only [callSteps, hst] at h1
      cases h1
      have := (h3 0 o rfl).2 (by simp [hd])
      obtain ⟨y, rfl⟩ := Option.isSome_iff_exists.1 this
      refine ⟨m.init, y, j, ?_, hst⟩
      simp only [warmUp, hd]
      rw [if_neg (by omega)]
      simp only [Int.toNat_zero, List.replicate_zero, hs]
  constructor
  · intro c hc hP i hi
    refine key (.conv c hc) ?_ rfl hi
    show ((c.K : Int) - 1 - c.P) = 0
    omega
  · intro c hc hP i hi
    refine key (.pool c hc) ?_ rfl hi
    have := hc.dil
    show (((c.dil * c.K : Nat) : Int) - 1 - c.P) = 0
    rw [this]
    omega

/-- **C42** fails for modules that misreport their delay, or cannot take a clip without frames: a `Skip` and a shrinking
`Delay` return nothing after the warm-up; a `Lambda` on frames, all recurrent modules, and convolutions with more padding
than `kernel_size - 1` raise in `warm_up`. -/
theorem C42_warm_up_refuted {X Y : Type} [Zero X] [AddCommMonoid Y] (pad : X) :
    (∀ n, 1 ≤ n → ∃ i1, warmUp (Skip.mod n X) (Skip.mod n X).init pad = .ok i1 ∧
      ∀ x, ∃ i2, (Skip.mod n X).step i1 true x = .ok (none, i2)) ∧
    (∀ c : Delay.Cfg X, 1 ≤ c.d → c.shrink = .on → ∃ i1, warmUp (Delay.mod c) (Delay.mod c).init pad = .ok i1 ∧
      ∀ x, ∃ i2, (Delay.mod c).step i1 true x = .ok (none, i2)) ∧
    (∀ f : X → Y, warmUp (Lambda.mod { fn := some (.frame f) }) () pad = .error .runtime) ∧
    (∀ {V S : Type} (c : Rnn.Cfg V S) (i : (Rnn.mod c).Inst) (p : V), warmUp (Rnn.mod c) i p = .error .runtime) ∧
    (∀ c : Conv.Cfg X Y, c.K ≤ c.P → ∀ i, warmUp (Conv.mod c) i pad = .error .runtime) := by
  refine ⟨?_, ?_, fun f => rfl, fun c i p => rfl, ?_⟩
  · intro n hn
    refine ⟨-(n : Int), rfl, fun x => ⟨-(n : Int) + 1, ?_⟩⟩
    show (Skip.leaf n X).forwardStep _ _ _ = _
    simp only [Leaf.forwardStep, Skip.pstep]
    rw [if_neg (by omega)]
    rfl
  · intro c hd hs
    have hn : Net ⟨false, 0⟩ (Delay.mod c) (delayed c.d (delayLead c)) := .delay c (by simp)
    obtain ⟨i1, h1, h2⟩ := warmUp_reach hn (by show (0 : Int) < c.d; omega) .init pad
    refine ⟨i1, h1, fun x => ?_⟩
    obtain ⟨o, i2, h3, h4, _⟩ := (net_facts hn).impl.reach.step true x h2
    have hlen := congrArg List.length h4
    have hl : ∀ l : List X, l.length ≤ c.d + 1 → (delayed c.d (delayLead c) l).length = 0 := by
      intro l hl
      simp only [delayed, delayLead, if_pos hs]
      simp
      omega
    rw [hl _ (by simp), List.length_append, hl _ (by simp)] at hlen
    cases o with
    | none => exact ⟨i2, h3⟩
    | some y => simp at hlen
  · intro c hP i
    simp only [warmUp]
    rw [if_pos]
    show ((c.K : Int) - 1 - c.P) < 0
    omega

end CoInf
