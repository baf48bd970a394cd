/-
C115: the geometry that `Conditional` reports.
-/
import Verif.Props.Conditional
import Verif.Props.Net

set_option autoImplicit false

namespace CoInf
open Spec
variable {X : Type}

namespace Conditional

theorem callSteps_true (p : Pred X) (hp : ∀ x, p.frame x = true) (a b : CoMod (.stream X) (.stream X)) (rf : Nat) (d : Int) (xs : List X) :
    ∀ (i : a.Inst) (j : b.Inst), callSteps (both p a b rf d) (i, j) xs = (callSteps a i xs).map fun q => (q.1, (q.2, j)) := by
  induction xs with
  | nil => intro i j; rfl
  | cons x xs ih =>
    intro i j
    simp only [callSteps, hp, if_true, Bind.bind, Except.bind]
    cases a.step i true x with
    | error e => rfl
    | ok q =>
      simp only [Except.map, ih q.2 j]
      cases callSteps a q.2 xs <;> rfl

theorem callSteps_false (p : Pred X) (hp : ∀ x, p.frame x = false) (a b : CoMod (.stream X) (.stream X)) (rf : Nat) (d : Int) (xs : List X) :
    ∀ (i : a.Inst) (j : b.Inst), callSteps (both p a b rf d) (i, j) xs = (callSteps b j xs).map fun q => (q.1, (i, q.2)) := by
  induction xs with
  | nil => intro i j; rfl
  | cons x xs ih =>
    intro i j
    simp only [callSteps, hp, Bool.false_eq_true, if_false, Bind.bind, Except.bind]
    cases b.step j true x with
    | error e => rfl
    | ok q =>
      simp only [Except.map, ih i q.2]
      cases callSteps b q.2 xs <;> rfl

theorem callSteps_only (p : Pred X) (hp : ∀ x, p.frame x = true) (a : CoMod (.stream X) (.stream X)) (rf : Nat) (d : Int) (xs : List X) :
    ∀ (i : a.Inst), callSteps (only p a rf d) i xs = callSteps a i xs := by
  induction xs with
  | nil => intro i; rfl
  | cons x xs ih =>
    intro i
    simp only [callSteps, hp, if_true, Bind.bind, Except.bind]
    cases a.step i true x with
    | error e => rfl
    | ok q => simp only [ih q.2]

end Conditional

/-- A branch with the delay before it: a network with the delay of the slower branch and the stride of the branch. -/
theorem align_net {k : Cls} (hk : k.geo = true) {a : CoMod (.stream X) (.stream X)} {φ : List X → List X} (ha : Net k a φ) (zero : X) (d : Int)
    (hd : a.delay ≤ d) : (∃ ψ, Net k (Conditional.align zero d a) ψ) ∧ (Conditional.align zero d a).delay = d ∧
      (Conditional.align zero d a).stride = a.stride := by
  have G := (net_facts ha).geom hk
  have hP := G.geo.hP
  refine ⟨?_, C24_alignment zero a d G.delay (by omega) hd, ?_⟩
  · unfold Conditional.align
    split
    · exact ⟨φ, ha⟩
    · exact ⟨_, Net.cons (Net.delay _ fun _ => rfl) (Net.single ha)⟩
  · unfold Conditional.align
    split
    · rfl
    · simp [Chain.strideOf, Chain.geos]

/-- C115, what holds: with a predicate that always gives the same answer, results appear after the reported delay, and then at the stride of
the branch that runs. -/
theorem C115_delay_partial {k : Cls} (hk : k.geo = true) (zero : X) (p : Conditional.Pred X) {a b : CoMod (.stream X) (.stream X)}
    {φ ψ : List X → List X} (ha : Net k a φ) (hb : Net k b ψ) (xs : List X) :
    ((∀ x, p.frame x = true) → ∃ os i', callSteps (Conditional.make zero p a (some b)) (Conditional.make zero p a (some b)).init xs = .ok (os, i') ∧
      os.length = xs.length ∧ ∀ (t : Nat) (o : Option X), os[t]? = some o →
        (o.isSome ↔ (Conditional.make zero p a (some b)).delay ≤ (t : Int) ∧
          ((t : Int) - (Conditional.make zero p a (some b)).delay) % a.stride = 0)) ∧
    ((∀ x, p.frame x = false) → ∃ os i', callSteps (Conditional.make zero p a (some b)) (Conditional.make zero p a (some b)).init xs = .ok (os, i') ∧
      os.length = xs.length ∧ ∀ (t : Nat) (o : Option X), os[t]? = some o →
        (o.isSome ↔ (Conditional.make zero p a (some b)).delay ≤ (t : Int) ∧
          ((t : Int) - (Conditional.make zero p a (some b)).delay) % b.stride = 0)) ∧
    ((∀ x, p.frame x = true) → ∃ os i', callSteps (Conditional.make zero p a none) (Conditional.make zero p a none).init xs = .ok (os, i') ∧
      os.length = xs.length ∧ ∀ (t : Nat) (o : Option X), os[t]? = some o →
        (o.isSome ↔ (Conditional.make zero p a none).delay ≤ (t : Int) ∧
          ((t : Int) - (Conditional.make zero p a none).delay) % a.stride = 0)) := by
  refine ⟨fun hp => ?_, fun hp => ?_, fun hp => ?_⟩
  · obtain ⟨⟨χ, hn⟩, hd, hs⟩ := align_net hk ha zero (Conditional.delayOf a (some b)) (le_max_left _ _)
    obtain ⟨os, i', h1, h2, h3⟩ := C11_emission_schedule hk hn Reach.init xs
    refine ⟨os, (i', (Conditional.align zero (Conditional.delayOf a (some b)) b).init), ?_, h2, fun t o ho => ?_⟩
    · exact (Conditional.callSteps_true p hp _ _ _ _ xs _ _).trans (by rw [h1]; rfl)
    · rw [h3 t o ho, hd, hs]
  · obtain ⟨⟨χ, hn⟩, hd, hs⟩ := align_net hk hb zero (Conditional.delayOf a (some b)) (le_max_right _ _)
    obtain ⟨os, i', h1, h2, h3⟩ := C11_emission_schedule hk hn Reach.init xs
    refine ⟨os, ((Conditional.align zero (Conditional.delayOf a (some b)) a).init, i'), ?_, h2, fun t o ho => ?_⟩
    · exact (Conditional.callSteps_false p hp _ _ _ _ xs _ _).trans (by rw [h1]; rfl)
    · rw [h3 t o ho, hd, hs]
  · obtain ⟨⟨χ, hn⟩, hd, hs⟩ := align_net hk ha zero (Conditional.delayOf a none) (le_max_left _ _)
    obtain ⟨os, i', h1, h2, h3⟩ := C11_emission_schedule hk hn Reach.init xs
    refine ⟨os, i', ?_, h2, fun t o ho => ?_⟩
    · exact (Conditional.callSteps_only p hp _ _ _ xs _).trans h1
    · rw [h3 t o ho, hd, hs]

/-- C115, what holds: if the branches have no padding, the reported receptive field, padding and delay fit together as in all other modules. -/
theorem C115_rf_partial {k : Cls} (hk : k.geo = true) (zero : X) (p : Conditional.Pred X) {a b : CoMod (.stream X) (.stream X)}
    {φ ψ : List X → List X} (ha : Net k a φ) (hb : Net k b ψ) (ha0 : a.padding = 0) (hb0 : b.padding = 0) :
    (∀ M, M = Conditional.make zero p a (some b) ∨ M = Conditional.make zero p a none →
      M.delay = (M.rf : Int) - 1 - M.padding) ∧
    a.rf ≤ (Conditional.make zero p a (some b)).rf ∧ b.rf ≤ (Conditional.make zero p a (some b)).rf := by
  have Ga := (net_facts ha).geom hk
  have Gb := (net_facts hb).geom hk
  have h1 := Ga.delay
  have h2 := Gb.delay
  have h3 := Ga.geo.hP
  have h4 := Gb.geo.hP
  refine ⟨?_, le_max_left _ _, le_max_right _ _⟩
  rintro M (rfl | rfl)
  · show max a.delay b.delay = ((max a.rf b.rf : Nat) : Int) - 1 - ((0 : Nat) : Int)
    omega
  · show max a.delay 0 = ((max a.rf 1 : Nat) : Int) - 1 - ((0 : Nat) : Int)
    omega

/-- C115, violated: whatever the branches are, stride one and no padding are reported. -/
theorem C115_stride_padding_refuted (zero : X) (p : Conditional.Pred X) (a : CoMod (.stream X) (.stream X))
    (b : Option (CoMod (.stream X) (.stream X))) :
    (Conditional.make zero p a b).stride = 1 ∧ (Conditional.make zero p a b).padding = 0 := by
  cases b <;> exact ⟨rfl, rfl⟩

/-- C115, violated: with a branch of stride two or more, the results do not appear at the reported stride. -/
theorem C115_schedule_refuted {k : Cls} (hk : k.geo = true) (zero : X) (p : Conditional.Pred X) (hp : ∀ x, p.frame x = true)
    {a : CoMod (.stream X) (.stream X)} {φ : List X → List X} (ha : Net k a φ) (hs : 2 ≤ a.stride) (x : X) :
    ∃ os i', ∃ t : Nat, callSteps (Conditional.make zero p a none) (Conditional.make zero p a none).init
        (List.replicate (a.delay.toNat + 2) x) = .ok (os, i') ∧ os[t]? = some none ∧
      (Conditional.make zero p a none).delay ≤ (t : Int) ∧
      ((t : Int) - (Conditional.make zero p a none).delay) % (Conditional.make zero p a none).stride = 0 := by
  obtain ⟨os, i', h1, h2, h3⟩ := (C115_delay_partial hk zero p ha ha (List.replicate (a.delay.toNat + 2) x)).2.2 hp
  have hd : (Conditional.make zero p a none).delay = (a.delay.toNat : Int) := by
    show max a.delay 0 = _
    omega
  rw [List.length_replicate] at h2
  have ho : os[a.delay.toNat + 1]? = some os[a.delay.toNat + 1] := List.getElem?_eq_getElem (by omega)
  have h4 := h3 _ _ ho
  rw [hd] at h4
  refine ⟨os, i', a.delay.toNat + 1, h1, ?_, by omega, ?_⟩
  · rw [ho]
    cases h5 : os[a.delay.toNat + 1] with
    | none => rfl
    | some y =>
      rw [h5] at h4
      have h6 := (h4.1 rfl).2
      rw [show ((a.delay.toNat + 1 : Nat) : Int) - (a.delay.toNat : Int) = 1 by omega] at h6
      have : (1 : Int) % a.stride = 1 := Int.emod_eq_of_lt (by omega) (by omega)
      omega
  · show _ % (1 : Int) = 0
    exact Int.emod_one _

/-- C115, violated: a `Sequential` around a `Conditional` reports the delay of the branch plus its padding. -/
theorem C115_sequential_refuted {k : Cls} (hk : k.geo = true) (zero : X) (p : Conditional.Pred X) {a : CoMod (.stream X) (.stream X)}
    {φ : List X → List X} (ha : Net k a φ) :
    (Sequential.mod (.single (Conditional.make zero p a none))).delay = (Conditional.make zero p a none).delay + a.padding := by
  have G := (net_facts ha).geom hk
  have hP := G.geo.hP
  have hd := G.delay
  show ((Chain.rfOf (Chain.single (Conditional.make zero p a none)).geos : Nat) : Int) - 1 - (Chain.paddingOf (Chain.single (Conditional.make zero p a none)).geos : Nat) =
    max a.delay 0 + a.padding
  simp only [Chain.rfOf, Chain.paddingOf, Chain.geos, List.reverse_cons, List.reverse_nil, List.nil_append, List.foldl_nil]
  omega

/-- C115, violated: the results of an always-true `Conditional` around a convolution over three frames with 'same' padding depend on frames outside
the reported window, and a residual connection around `Sequential(Conditional(...))` adds the frame before the right one. -/
theorem C115_data_refuted :
    let M := Conditional.make 0 exYes (Conv.mod (exSum 3 1 1)) none
    (M.rf, M.stride, M.padding, M.delay) = (3, 1, 0, 1) ∧
    (calls M M.init [.steps false true [0, 1, 1, 1]]).1 = [.clip (some [1, 2, 3])] ∧
    (calls M M.init [.steps false true [5, 1, 1, 1]]).1 = [.clip (some [6, 7, 3])] ∧
    (∀ R, Residual.make (fun _ => 0) (foldReducer (· + ·)) .off (Sequential.mod (.single M)) = .ok R →
      (∃ i, callSteps R R.init [1, 10, 100, 1000] = .ok ([none, none, some 112, some 1120], i))) ∧
    ∀ R, Residual.make (fun _ => 0) (foldReducer (· + ·)) .off (Conv.mod (exSum 3 1 1)) = .ok R →
      ∃ i, callSteps R R.init [1, 10, 100, 1000] = .ok ([none, some 12, some 121, some 1210], i) := by
  refine ⟨rfl, rfl, rfl, fun R hR => ?_, fun R hR => ?_⟩
  · cases hR; exact ⟨_, rfl⟩
  · cases hR; exact ⟨_, rfl⟩

/-! ### Examples -/

example : ∃ φ ψ, Net ⟨true, 0⟩ (Conv.mod exConvS1) φ ∧ Net ⟨true, 0⟩ (Delay.mod { d := 4, fill := fun _ => (0 : Int) }) ψ ∧
    (Conv.mod exConvS1).delay ≠ (Delay.mod { d := 4, fill := fun _ => (0 : Int) }).delay :=
  ⟨_, _, Net.conv _ (exConvS1_ok _), Net.delay _ fun _ => rfl, by decide⟩

example : ∃ φ, Net ⟨true, 0⟩ (Conv.mod (exConv .zeros)) φ ∧ 2 ≤ (Conv.mod (exConv .zeros)).stride := by
  refine ⟨_, Net.conv _ ⟨by decide, by decide, by decide, by decide, ?_, fun _ => rfl, by decide⟩, by decide⟩
  intro j; show 10 ^ j * (0 : Int) = 0; simp

end CoInf
