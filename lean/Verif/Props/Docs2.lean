/-
C122: containers of branches that keep the number of frames, and the two remaining composition examples of the documentation: the
Inception module (README.md:262-300, tests/continual/test_example.py:100-132) and the inverted residual block of MobileNetV2
(README.md:205-230, tests/continual/test_example.py:65-97).
-/
import Verif.Props.Docs
import Verif.Props.Branches
import Mathlib.Data.Fin.VecNotation
import Mathlib.Tactic.FinCases

set_option autoImplicit false

namespace CoInf
namespace Spec
variable {X Y : Type}

/-- A network of stride one whose padding makes up for its receptive field, so that it keeps the number of frames of a clip. -/
structure Keeps (m : CoMod (.stream X) (.stream Y)) : Prop where
  net : ∃ φ, Net ⟨true, 3⟩ m φ
  stride : m.stride = 1
  same : m.rf = 2 * m.padding + 1
  len : FwdLen m

/-- `M` computes the clip `zs` from `xs` in all three modes, `D` frames late in streaming. -/
structure Computes {X Z : Type} (M : CoMod (.stream X) (.stream Z)) (D : Nat) (xs : List X) (zs : List Z) : Prop where
  forward : ∀ h i, Reach M h i → ∃ i', M.fwd i xs = .ok (zs, i')
  steps : ∀ i u, Reach M [] i → ∃ i', M.steps i true u xs = .ok (some zs, i')
  step : ∀ i, Reach M [] i → ∃ os i', callSteps M i xs = .ok (os, i') ∧ os.length = xs.length ∧
    ∀ t < xs.length, os[t]? = some (if t < D then none else zs[t - D]?)

end Spec

namespace Docs2
open Spec
variable {X Y Z : Type}

theorem Keeps.delay {m : CoMod (.stream X) (.stream Y)} (K : Keeps m) : m.delay = (m.padding : Int) := by
  obtain ⟨φ, N⟩ := K.net
  have := ((net_facts N).geom rfl).delay
  rw [this, K.same]
  omega

theorem Keeps.length {m : CoMod (.stream X) (.stream Y)} (K : Keeps m) {i : m.Inst} {xs ys j}
    (h : m.fwd i xs = .ok (ys, j)) : ys.length = xs.length := by
  have := K.len h
  rw [K.stride, K.same] at this
  simp only [Nat.cast_one, Int.ediv_one] at this
  push_cast at this
  omega

/-- A network that keeps the number of frames computes what `forward` of a new module returns. -/
theorem computes {m : CoMod (.stream X) (.stream Y)} (K : Keeps m) {xs ys j} (hx : xs ≠ [])
    (hf : m.fwd m.init xs = .ok (ys, j)) : ys.length = xs.length ∧ Computes m m.padding xs ys := by
  obtain ⟨φ, N⟩ := K.net
  have C := net_contract N rfl (by decide) K.len
  have hl := Keeps.length K hf
  have hphi : ∀ xs, (φ xs).length = xs.length - m.padding := by
    intro xs
    have hs := K.stride
    have hK := K.same
    rw [C.geom.geo.sched xs, hs, Nat.div_one]
    split <;> omega
  refine ⟨hl, ?_, ?_, ?_⟩
  · intro h i hi
    have := C.impl.reach.fwd_indep xs hi
    rw [hf] at this
    cases hfi : m.fwd i xs with
    | error e => rw [hfi] at this; cases this
    | ok p =>
      obtain ⟨zs, j'⟩ := p
      rw [hfi] at this; cases this; exact ⟨j', rfl⟩
  · intro i u hi
    obtain ⟨i', h⟩ := C.padClean.eq u hi hx hf
    refine ⟨i', ?_⟩
    rw [h, BroadcastReduce.optList_some]
    intro h0
    rw [h0] at hl
    exact hx (List.eq_nil_of_length_eq_zero hl.symm)
  · intro i hi
    obtain ⟨os, i', h1, h2, h3⟩ := step_at C.impl (d := m.padding) hphi hi xs
    refine ⟨os, i', h1, h2, fun t ht => ?_⟩
    rw [h3 t ht]
    split
    · rfl
    · congr 1
      obtain ⟨rest, hrest⟩ := C.ahead hf
      rw [← hrest, List.getElem?_append_left]
      rw [hphi]
      omega

/-! ### Members that keep the number of frames -/

theorem keeps_conv [Zero X] [AddCommMonoid Y] (c : Conv.Cfg X Y) (hK : c.K = 2 * c.P + 1) (hS : c.S = 1)
    (hl : ∀ j, c.w j 0 = 0) (hm : c.padMode = c.fill) : Keeps (Conv.mod c) where
  net := ⟨_, Net.conv c ⟨by omega, by omega, by omega, fun _ => hS, hl, fun _ => hm, fun _ => hS⟩⟩
  stride := hS
  same := hK
  len := (C12_members.1 c (by omega) (by omega)).len

theorem keeps_pool (c : Pool.Cfg X Y) (hK : c.K = 1) (hP : c.P = 0) (hS : c.S = 1) (hd : c.dil = 1)
    (ho : OrderFree c.pool) (hf : ∀ x, c.spatial (c.fillIn x) = c.fillOut (c.spatial x)) : Keeps (Pool.mod c) where
  net := ⟨_, Net.pool c ⟨by omega, by omega, by omega, hd, hf, ho, fun _ => .inl hP, fun _ => hS⟩⟩
  stride := hS
  same := by simp [hK, hP, hd]
  len := (C12_members.2.1 c (by omega) (by omega) hd).len

theorem keeps_pointwise (f : X → Y) : Keeps (Pointwise.mod f) where
  net := ⟨_, Net.pointwise f⟩
  stride := rfl
  same := rfl
  len := (C12_members.2.2.1 f).len

theorem keeps_single {m : CoMod (.stream X) (.stream Y)} (K : Keeps m) : Keeps (Sequential.mod (.single m)) where
  net := K.net.elim fun _ N => ⟨_, N.single⟩
  stride := by simpa [Chain.geos, Chain.strideOf] using K.stride
  same := by simpa [Chain.geos, Chain.rfOf, Chain.paddingOf] using K.same
  len := Sequential.fwdLen_single K.len

theorem keeps_cons {m : CoMod (.stream X) (.stream Y)} {c : Chain (.stream Y) (.stream Z)} (K : Keeps m)
    (K' : Keeps (Sequential.mod c)) : Keeps (Sequential.mod (.cons m c)) where
  net := K.net.elim fun _ N => K'.net.elim fun _ N' => ⟨_, Net.cons N N'⟩
  stride := by
    have h1 := K.stride
    have h2 : Chain.strideOf c.geos = 1 := K'.stride
    show Chain.strideOf _ = 1
    simp only [Chain.geos]
    rw [Chain.strideOf_cons, h2]
    simpa using h1
  same := by
    have h1 := K.same
    have hs := K.stride
    have h2 : Chain.rfOf c.geos = 2 * Chain.paddingOf c.geos + 1 := K'.same
    show Chain.rfOf (Chain.cons m c).geos = 2 * Chain.paddingOf (Chain.cons m c).geos + 1
    simp only [Chain.geos, Chain.rfOf_cons _ (Chain.geos_ne_nil c), Chain.paddingOf_cons _ (Chain.geos_ne_nil c)]
    rw [h1, hs, h2]
    omega
  len := Sequential.fwdLen_cons (by rw [K.stride]) K.len K'.len (by
    have h2 : Chain.rfOf c.geos = 2 * Chain.paddingOf c.geos + 1 := K'.same
    show 1 ≤ Chain.rfOf c.geos
    omega)

/-! ### The container of branches -/

/-- What `auto_delay` makes of a branch. -/
structure Lifted (D : Nat) (m m' : CoMod (.stream X) (.stream Y)) (ψ : List X → List Y) : Prop where
  net : Net ⟨true, 3⟩ m' ψ
  delay : m'.delay = (D : Int)
  stride : m'.stride = 1
  padding : m'.padding = m.padding
  rf : m'.rf = m.padding + D + 1
  fwd : ∀ xs, (m'.fwd m'.init xs).map Prod.fst = (m.fwd m.init xs).map Prod.fst
  len : ∀ {i xs ys j}, m'.fwd i xs = .ok (ys, j) → ys.length = xs.length
  count : ∀ xs, (ψ xs).length = xs.length - D

theorem lifted (fill : Y → Y) {m : CoMod (.stream X) (.stream Y)} (K : Keeps m) {D : Nat} (h : m.padding ≤ D) :
    ∃ ψ, Lifted D m (BroadcastReduce.delayTo fill D m) ψ := by
  obtain ⟨φ, N⟩ := K.net
  have hd := Keeps.delay K
  have G := (net_facts N).geom rfl
  obtain ⟨ψ', A⟩ := BroadcastReduce.delayTo_aligns fill (net_facts N).impl G K.stride (D := (D : Int)) (by omega)
  have hrf : (BroadcastReduce.delayTo fill (D : Int) m).rf = m.padding + D + 1 := by
    have h1 := A.geom.delay
    have h2 := A.delay
    have h3 := A.padding
    omega
  have key : ∃ ψ, Net ⟨true, 3⟩ (BroadcastReduce.delayTo fill (D : Int) m) ψ := by
    by_cases hlt : m.delay < (D : Int)
    · rw [BroadcastReduce.delayTo_of_lt fill hlt]
      exact ⟨_, Net.cons N (Net.single (Net.delay _ fun _ => rfl))⟩
    · rw [BroadcastReduce.delayTo_of_not_lt fill hlt]
      exact ⟨_, N⟩
  obtain ⟨ψ, N'⟩ := key
  refine ⟨ψ, N', A.delay, A.stride, A.padding, hrf, A.fwd, ?_, ?_⟩
  · suffices hh : ∀ (i : (BroadcastReduce.delayTo fill (D : Int) m).Inst) xs ys j,
        (BroadcastReduce.delayTo fill (D : Int) m).fwd i xs = .ok (ys, j) → ys.length = xs.length from
      @fun i xs ys j hf => hh i xs ys j hf
    by_cases hlt : m.delay < (D : Int)
    · rw [BroadcastReduce.delayTo_of_lt fill hlt]
      rintro ⟨i1, i2⟩ xs ys j hf
      obtain ⟨zs, j1, j2, h1, h2, _⟩ := Sequential.fwd_inv (i1 := i1) (i2 := i2) hf
      have h2' : (Except.ok (zs, i2) : Except Err _) = .ok (ys, j2) := h2
      cases h2'
      exact Keeps.length K h1
    · rw [BroadcastReduce.delayTo_of_not_lt fill hlt]
      exact fun _ _ _ _ hf => Keeps.length K hf
  · intro xs
    have G' := (net_facts N').geom rfl
    rw [G'.geo.sched xs, A.stride, Nat.div_one, hrf, A.padding]
    split <;> omega

theorem fwdAll_ok_of : ∀ {ms : List (CoMod (.stream X) (.stream Y))} {yss : List (List Y)} {xs : List X},
    List.Forall₂ (fun m ys => ∃ j, m.fwd m.init xs = .ok (ys, j)) ms yss →
    ∃ i, BroadcastReduce.fwdAll ms (BroadcastReduce.init ms) xs = .ok (yss, i)
  | [], [], xs, _ => ⟨(), rfl⟩
  | m :: ms, ys :: yss, xs, .cons ⟨j, h⟩ t => by
    obtain ⟨i, hi⟩ := fwdAll_ok_of t
    refine ⟨(j, i), ?_⟩
    rw [BroadcastReduce.fwdAll]
    simp only [BroadcastReduce.init, h, hi, bind, Except.bind, pure, Except.pure]

theorem fwdAll_lens : ∀ {ms : List (CoMod (.stream X) (.stream Y))} {i : BroadcastReduce.Inst ms} {xs : List X} {yss i'},
    (∀ m ∈ ms, ∀ {i xs ys j}, m.fwd i xs = .ok (ys, j) → ys.length = xs.length) →
    BroadcastReduce.fwdAll ms i xs = .ok (yss, i') → ∀ ys ∈ yss, ys.length = xs.length
  | [], i, xs, yss, i', _, h => by cases h; simp
  | m :: ms, i, xs, yss, i', hm, h => by
    obtain ⟨y, i1, ys, i2, h1, h2, rfl⟩ := BroadcastReduce.fwdAll_cons_ok h
    intro z hz
    rcases List.mem_cons.1 hz with rfl | hz
    · exact hm m (by simp) h1
    · exact fwdAll_lens (fun m' hm' => hm m' (by simp [hm'])) h2 z hz

theorem foldl_max_eq {A : Type 1} (g : A → Nat) (v : Nat) (l : List A) (a : Nat) (ha : a ≤ v) (hle : ∀ x ∈ l, g x ≤ v)
    (hex : a = v ∨ ∃ x ∈ l, g x = v) : l.foldl (fun a x => max a (g x)) a = v := by
  induction l generalizing a with
  | nil => simpa using hex
  | cons x l ih =>
    rw [List.foldl_cons]
    refine ih _ (by have := hle x (by simp); omega) (fun y hy => hle y (by simp [hy])) ?_
    rcases hex with h | ⟨y, hy, h⟩
    · left; have := hle x (by simp); omega
    · rcases List.mem_cons.1 hy with rfl | hy
      · left; omega
      · exact .inr ⟨y, hy, h⟩

/-- The container, with everything needed of it. -/
theorem branches {n : Nat} (hn : 2 ≤ n) {r : Reducer Y Z} {f : List Y → Z} (hr : ReduceOk r f n) (fill : Y → Y)
    (ms : Fin n → CoMod (.stream X) (.stream Y)) (K : ∀ j, Keeps (ms j)) :
    ∃ M D, BroadcastReduce.make fill true r (List.ofFn ms) = .ok M ∧ M.padding = D ∧ (∀ j, (ms j).padding ≤ D) ∧
      (∃ j, (ms j).padding = D) ∧ Keeps M ∧
      ∀ (xs : List X) (yss : Fin n → List Y), (∀ j, ∃ i, (ms j).fwd (ms j).init xs = .ok (yss j, i)) →
        ∃ i, M.fwd M.init xs = .ok (zipReduce f (List.ofFn yss), i) := by
  have hne : List.ofFn ms ≠ [] := by
    intro e; have := congrArg List.length e; simp at this; omega
  obtain ⟨m0, hm0, hd0⟩ := BroadcastReduce.maxDelay_mem hne
  rw [List.mem_ofFn] at hm0
  obtain ⟨j0, rfl⟩ := hm0
  have hge := BroadcastReduce.maxDelay_ge (List.ofFn ms)
  have hle : ∀ j, (ms j).padding ≤ (ms j0).padding := by
    intro j
    have h1 := hge (ms j) (List.mem_ofFn.2 ⟨j, rfl⟩)
    have h2 := Keeps.delay (K j)
    have h3 := Keeps.delay (K j0)
    omega
  generalize hD : (ms j0).padding = D at hle
  have hmax : BroadcastReduce.maxDelay (List.ofFn ms) = (D : Int) := by
    rw [← hd0, Keeps.delay (K j0), hD]
  have L : ∀ j, ∃ ψ, Lifted D (ms j) (BroadcastReduce.delayTo fill D (ms j)) ψ := fun j => lifted fill (K j) (hle j)
  choose ψs L using L
  have hms' : BroadcastReduce.autoDelay fill true (List.ofFn ms) = List.ofFn fun j => BroadcastReduce.delayTo fill (D : Int) (ms j) := by
    simp only [BroadcastReduce.autoDelay, hmax, if_true, List.map_ofFn]
    rfl
  generalize hms2 : (fun j => BroadcastReduce.delayTo fill (D : Int) (ms j)) = ms' at hms'
  have L : ∀ j, Lifted D (ms j) (ms' j) (ψs j) := fun j => hms2 ▸ L j
  have N : Net ⟨true, 3⟩ (BroadcastReduce.mod r (List.ofFn ms')) fun xs => zipReduce f (List.ofFn fun j => ψs j xs) :=
    Net.reduce r f ms' ψs (by omega) (fun j => (L j).net) hr (fun i j xs => by rw [(L i).count, (L j).count])
      (fun _ i j => ⟨by rw [(L i).stride, (L j).stride], by rw [(L i).delay, (L j).delay]⟩)
      (fun _ i j => fun h1 h2 => by rw [(L i).len h1, (L j).len h2])
  have hstr : (BroadcastReduce.mod r (List.ofFn ms')).stride = 1 := by
    obtain ⟨n, rfl⟩ : ∃ k, n = k + 1 := ⟨n - 1, by omega⟩
    rw [List.ofFn_succ]
    exact (L 0).stride
  have hpad : (BroadcastReduce.mod r (List.ofFn ms')).padding = D := by
    apply foldl_max_eq (fun m : CoMod (.stream X) (.stream Y) => m.padding) D _ 0 (by omega)
    · intro m hm
      obtain ⟨j, rfl⟩ := List.mem_ofFn.1 hm
      rw [(L j).padding]; exact hle j
    · exact .inr ⟨ms' j0, List.mem_ofFn.2 ⟨j0, rfl⟩, by rw [(L j0).padding, hD]⟩
  have hrf : (BroadcastReduce.mod r (List.ofFn ms')).rf = 2 * D + 1 := by
    apply foldl_max_eq (fun m : CoMod (.stream X) (.stream Y) => m.rf) (2 * D + 1) _ 0 (by omega)
    · intro m hm
      obtain ⟨j, rfl⟩ := List.mem_ofFn.1 hm
      have := hle j
      rw [(L j).rf]; omega
    · exact .inr ⟨ms' j0, List.mem_ofFn.2 ⟨j0, rfl⟩, by rw [(L j0).rf, hD]; omega⟩
  have hofn : ∀ yss : Fin n → List Y, List.ofFn yss ≠ [] := by
    intro yss e; have := congrArg List.length e; simp at this; omega
  have hclip : ∀ (yss : List (List Y)) (T : Nat), yss.length = n → (∀ y ∈ yss, y.length = T) →
      (zipReduce f yss).length = T := by
    intro yss T h1 h2
    rw [zipReduce_eq f (by rintro rfl; simp at h1; omega) h2]
    simp
  refine ⟨BroadcastReduce.mod r (List.ofFn ms'), D, ?_, hpad, hle, ⟨j0, hD⟩,
    ⟨⟨_, N⟩, hstr, by rw [hrf, hpad], ?_⟩, ?_⟩
  · unfold BroadcastReduce.make
    rw [if_neg (by simp; omega)]
    simp only [hms']
    rw [if_pos]
    rw [List.all_eq_true]
    intro m hm
    obtain ⟨j, rfl⟩ := List.mem_ofFn.1 hm
    exact decide_eq_true ((L j).stride.trans hstr.symm)
  · intro i xs zs i' h
    obtain ⟨yss, h1, h2⟩ := BroadcastReduce.fwd_ok h
    have h3 := fwdAll_lens (fun m hm => by
      obtain ⟨j, rfl⟩ := List.mem_ofFn.1 hm
      exact fun h => (L j).len h) h1
    have h4 : yss.length = n := by rw [BroadcastReduce.fwdAll_length h1, List.length_ofFn]
    rw [hr.clip yss xs.length h4 h3] at h2
    cases h2
    rw [hclip yss xs.length h4 h3, hstr, hpad, hrf]
    simp only [Nat.cast_one, Int.ediv_one]
    push_cast
    omega
  · intro xs yss hy
    have hy' : ∀ j, ∃ i, (ms' j).fwd (ms' j).init xs = .ok (yss j, i) := by
      intro j
      obtain ⟨i, hi⟩ := hy j
      have := (L j).fwd xs
      rw [hi] at this
      cases hf : (ms' j).fwd (ms' j).init xs with
      | error e => rw [hf] at this; cases this
      | ok p =>
        obtain ⟨zs, k⟩ := p
        rw [hf] at this; cases this; exact ⟨k, rfl⟩
    obtain ⟨i, hi⟩ := fwdAll_ok_of (forall₂_ofFn hy')
    refine ⟨i, ?_⟩
    have hlen : ∀ y ∈ List.ofFn yss, y.length = xs.length := by
      intro y hm
      obtain ⟨j, rfl⟩ := List.mem_ofFn.1 hm
      obtain ⟨i, hi⟩ := hy' j
      exact (L j).len hi
    show BroadcastReduce.fwd r (List.ofFn ms') (BroadcastReduce.init _) xs = _
    rw [BroadcastReduce.fwd, hi, ok_bind]
    simp only [hr.clip (List.ofFn yss) xs.length (by simp) hlen, ok_bind]
    rfl

/-! ### Forward of the members -/

/-- `forward` of a new module. -/
def Fwd (m : CoMod (.stream X) (.stream Y)) (xs : List X) (ys : List Y) : Prop := ∃ j, m.fwd m.init xs = .ok (ys, j)

theorem fwd_cons {m : CoMod (.stream X) (.stream Y)} {c : Chain (.stream Y) (.stream Z)} {xs ys zs} (h : Fwd m xs ys)
    (h' : Fwd (Sequential.mod c) ys zs) : Fwd (Sequential.mod (.cons m c)) xs zs := by
  obtain ⟨j, h⟩ := h
  obtain ⟨k, h'⟩ := h'
  refine ⟨(j, k), ?_⟩
  have h' : c.fwd c.init ys = .ok (zs, k) := h'
  show Chain.fwd (.cons m c) (m.init, c.init) xs = _
  simp only [Chain.fwd, h, ok_bind]
  rw [h']
  rfl

theorem fwd_single {m : CoMod (.stream X) (.stream Y)} {xs ys} (h : Fwd m xs ys) : Fwd (Sequential.mod (.single m)) xs ys := h

theorem fwd_pointwise (f : X → Y) (xs : List X) : Fwd (Pointwise.mod f) xs (xs.map f) := ⟨_, rfl⟩

end Docs2

namespace Spec
variable {X Y Z A B C : Type}

/-- Frame `t` of a convolution over time with as many zero frames in front as it has frames of padding. -/
def convFrame [AddCommMonoid Y] (c : Conv.Cfg X Y) (xs : List X) (t : Nat) : Y :=
  ((List.range c.K).map fun k =>
    if c.P ≤ t + k then
      match xs[t + k - c.P]? with
      | some x => c.w k x
      | none => 0
    else 0).sum + c.bias.getD 0

/-- The clip of such frames. -/
def convClip [AddCommMonoid Y] (c : Conv.Cfg X Y) (xs : List X) : List Y := (List.range xs.length).map (convFrame c xs)

/-- Kernel and padding of a convolution that keeps the number of frames; zeros in front of and behind the clip, which the weights
map to zero. -/
structure SameConv [Zero X] [AddCommMonoid Y] (c : Conv.Cfg X Y) : Prop where
  K : c.K = 2 * c.P + 1
  S : c.S = 1
  lin : ∀ j, c.w j 0 = 0
  fill : c.fill = .zeros
  mode : c.padMode = .zeros

end Spec

namespace Docs2
open Spec
variable {X Y Z : Type}

theorem keeps_same [Zero X] [AddCommMonoid Y] {c : Conv.Cfg X Y} (h : SameConv c) : Keeps (Conv.mod c) :=
  keeps_conv c h.K h.S h.lin (h.mode.trans h.fill.symm)

theorem fwd_conv [Zero X] [AddCommMonoid Y] {c : Conv.Cfg X Y} (h : SameConv c) {xs : List X} (hx : xs ≠ []) :
    Fwd (Conv.mod c) xs (convClip c xs) := by
  have hpos := List.length_pos_of_ne_nil hx
  have : Conv.forward c xs = .ok (convClip c xs) := by
    have h1 : xs.head? = some (xs.head hx) := List.head?_eq_some_head hx
    have h2 : xs.getLast? = some (xs.getLast hx) := List.getLast?_eq_some_getLast _
    simp only [Conv.forward, h1, h2, h.mode, Fill.make, Conv.torchConv]
    have hK := h.K
    have hlen : (List.replicate c.P (0 : X) ++ xs ++ List.replicate c.P (0 : X)).length = xs.length + 2 * c.P := by
      simp; omega
    rw [hlen, if_neg (by omega), h.S]
    congr 1
    have e : (xs.length + 2 * c.P - c.K) / 1 + 1 = xs.length := by rw [Nat.div_one]; omega
    rw [e]
    unfold convClip
    apply List.map_congr_left
    intro t ht
    have ht := List.mem_range.1 ht
    refine (congrArg (Conv.addBias c) (congrArg List.sum (?_ : _ = (List.range c.K).map fun k => (
        if c.P ≤ t + k then
          match xs[t + k - c.P]? with
          | some x => c.w k x
          | none => 0
        else (0 : Y) : Y)))).trans ?_
    · apply List.map_congr_left
      intro k hk
      have hk := List.mem_range.1 hk
      rw [Nat.mul_one]
      by_cases hP : c.P ≤ t + k
      · rw [if_pos hP]
        by_cases hin : t + k - c.P < xs.length
        · rw [List.getElem?_append_left (by simp; omega), List.getElem?_append_right (by simp; omega), List.length_replicate]
          cases xs[t + k - c.P]? <;> rfl
        · rw [List.getElem?_append_right (by simp; omega), List.getElem?_eq_none (l := xs) (by omega), List.getElem?_replicate,
            if_pos (by simp; omega)]
          exact h.lin k
      · rw [if_neg hP, List.append_assoc, List.getElem?_append_left (by simp; omega), List.getElem?_replicate, if_pos (by omega)]
        exact h.lin k
    · unfold Conv.addBias convFrame
      cases c.bias <;> simp
  refine ⟨(Conv.mod c).init, ?_⟩
  show (Conv.forward c xs).map _ = _
  rw [this]
  rfl

theorem fwd_pool (c : Pool.Cfg X Y) (hK : c.K = 1) (hP : c.P = 0) (hS : c.S = 1) (hd : c.dil = 1) {xs : List X} (hx : xs ≠ []) :
    Fwd (Pool.mod c) xs (xs.map fun x => c.pool [c.spatial x]) := by
  have hpos := List.length_pos_of_ne_nil hx
  have : Pool.forward c xs = .ok (xs.map fun x => c.pool [c.spatial x]) := by
    unfold Pool.forward
    simp only [hP, List.replicate_zero, List.nil_append, List.append_nil, if_neg hx, Pool.bufLen, hK, hS, hd]
    rw [if_neg (by simp; omega)]
    congr 1
    apply List.ext_getElem
    · simp; omega
    · intro n h1 h2
      have hn : n < xs.length := by simpa using h2
      simp [hn]
  refine ⟨(Pool.mod c).init, ?_⟩
  show (Pool.forward c xs).map _ = _
  rw [this]
  rfl

/-- `norm_relu(module, channels)`: README.md:275-280.  The normalisation uses its running statistics (`eval`), so that both functions
act frame by frame. -/
@[reducible] def normRelu (m : CoMod (.stream X) (.stream Y)) (norm relu : Y → Y) : CoMod (.stream X) (.stream Y) :=
  Sequential.mod (.cons m (.cons (Pointwise.mod norm) (.single (Pointwise.mod relu))))

theorem keeps_normRelu {m : CoMod (.stream X) (.stream Y)} (K : Keeps m) (norm relu : Y → Y) : Keeps (normRelu m norm relu) :=
  keeps_cons K (keeps_cons (keeps_pointwise _) (keeps_single (keeps_pointwise _)))

theorem fwd_normRelu {m : CoMod (.stream X) (.stream Y)} {norm relu : Y → Y} {xs : List X} {ys : List Y} (h : Fwd m xs ys) :
    Fwd (normRelu m norm relu) xs (ys.map fun y => relu (norm y)) := by
  have := fwd_cons h (fwd_cons (fwd_pointwise norm ys) (fwd_single (fwd_pointwise relu _)))
  rw [List.map_map] at this
  exact this

/-- The layers of an Inception module (README.md:282-298), their frames in general of different kinds: a convolution of one frame; a
reducing convolution followed by one of three frames; the same with five frames; a spatial pooling followed by a convolution of one
frame. -/
structure Inception (X A B C Y : Type) [AddCommMonoid A] [AddCommMonoid B] where
  one : Conv.Cfg X Y
  red3 : Conv.Cfg X A
  conv3 : Conv.Cfg A Y
  red5 : Conv.Cfg X B
  conv5 : Conv.Cfg B Y
  pool : Pool.Cfg X C
  proj : Conv.Cfg C Y
  normA : A → A
  reluA : A → A
  normB : B → B
  reluB : B → B
  norm3 : Y → Y
  norm5 : Y → Y
  normP : Y → Y
  relu : Y → Y

section
variable {A B C : Type} [Zero X] [AddCommMonoid A] [AddCommMonoid B] [Zero C] [AddCommMonoid Y] (a : Inception X A B C Y)

/-- The four branches: README.md:283-296. -/
@[reducible] def Inception.branches : Fin 4 → CoMod (.stream X) (.stream Y) := ![
  Conv.mod a.one,
  Sequential.mod (.cons (normRelu (Conv.mod a.red3) a.normA a.reluA) (.single (normRelu (Conv.mod a.conv3) a.norm3 a.relu))),
  Sequential.mod (.cons (normRelu (Conv.mod a.red5) a.normB a.reluB) (.single (normRelu (Conv.mod a.conv5) a.norm5 a.relu))),
  Sequential.mod (.cons (Pool.mod a.pool) (.single (normRelu (Conv.mod a.proj) a.normP a.relu)))]

/-- `co.BroadcastReduce(..., reduce="concat")`: README.md:282-298. -/
def Inception.make (fill : Y → Y) (cat : List Y → Z) : Except Err (CoMod (.stream X) (.stream Z)) :=
  BroadcastReduce.make fill true (catReducer cat) (List.ofFn a.branches)

/-- The arguments of the documentation, with any two kernel sizes `2P+1` in place of three and five. -/
structure Inception.Good : Prop where
  one : SameConv a.one
  red3 : SameConv a.red3
  conv3 : SameConv a.conv3
  red5 : SameConv a.red5
  conv5 : SameConv a.conv5
  proj : SameConv a.proj
  one_point : a.one.P = 0
  red3_point : a.red3.P = 0
  red5_point : a.red5.P = 0
  proj_point : a.proj.P = 0
  pool_K : a.pool.K = 1
  pool_P : a.pool.P = 0
  pool_S : a.pool.S = 1
  pool_dil : a.pool.dil = 1
  pool_order : OrderFree a.pool.pool
  pool_fill : ∀ x, a.pool.spatial (a.pool.fillIn x) = a.pool.fillOut (a.pool.spatial x)

end

/-- The layers of an inverted residual block: README.md:218-228. -/
structure MbConv (X A : Type) [AddCommMonoid X] [AddCommMonoid A] where
  expand : Conv.Cfg X A
  norm1 : A → A
  depthwise : Conv.Cfg A A
  relu : A → A
  project : Conv.Cfg A X
  norm2 : X → X

section
variable {A : Type} [AddCommMonoid X] [AddCommMonoid A] (a : MbConv X A)

/-- The `Sequential` of the block: README.md:219-227. -/
@[reducible] def MbConv.body : CoMod (.stream X) (.stream X) :=
  Sequential.mod (.cons (Conv.mod a.expand) (.cons (Pointwise.mod a.norm1) (.cons (Pointwise.mod a.relu)
    (.cons (Conv.mod a.depthwise) (.cons (Pointwise.mod a.relu) (.cons (Conv.mod a.project)
      (.single (Pointwise.mod a.norm2))))))))

/-- `co.Residual(...)`: README.md:218. -/
def MbConv.make (fill : X → X) : Except Err (CoMod (.stream X) (.stream X)) :=
  Residual.make fill (foldReducer (· + ·)) .off a.body

/-- The arguments of the documentation, with any kernel size `2P+1` in place of three. -/
structure MbConv.Good : Prop where
  expand : SameConv a.expand
  depthwise : SameConv a.depthwise
  project : SameConv a.project
  expand_point : a.expand.P = 0
  project_point : a.project.P = 0

end
end Docs2

namespace Spec
open Docs2
variable {X Y Z A B C : Type}

/-- What an Inception module computes at time `t`: the four feature maps of the block, put together. -/
def inceptionAt [AddCommMonoid A] [AddCommMonoid B] [AddCommMonoid Y] (a : Inception X A B C Y) (cat : List Y → Z)
    (xs : List X) (t : Nat) : Z :=
  cat [convFrame a.one xs t,
    a.relu (a.norm3 (convFrame a.conv3 ((convClip a.red3 xs).map fun y => a.reluA (a.normA y)) t)),
    a.relu (a.norm5 (convFrame a.conv5 ((convClip a.red5 xs).map fun y => a.reluB (a.normB y)) t)),
    a.relu (a.normP (convFrame a.proj (xs.map fun x => a.pool.pool [a.pool.spatial x]) t))]

/-- What the body of an inverted residual block computes at time `t`. -/
def mbAt [AddCommMonoid X] [AddCommMonoid A] (a : MbConv X A) (xs : List X) (t : Nat) : X :=
  a.norm2 (convFrame a.project ((convClip a.depthwise ((convClip a.expand xs).map fun y => a.relu (a.norm1 y))).map a.relu) t)

end Spec

open Spec Docs2
variable {X Y Z A B C : Type}

/-! ### C122 -/

/-- **C122.** `BroadcastReduce` of two or more branches that keep the number of frames, in any nesting and with any paddings: it is
accepted, its delay is the largest delay of a branch, it keeps the number of frames itself, so that such containers can be stacked
and nested, and output `t` of all three modes is the reduction of the outputs `t` that the branches have in `forward`. -/
theorem C122_branches {n : Nat} (hn : 2 ≤ n) {r : Reducer Y Z} {f : List Y → Z} (hr : ReduceOk r f n) (fill : Y → Y)
    (ms : Fin n → CoMod (.stream X) (.stream Y)) (K : ∀ j, Keeps (ms j)) :
    ∃ (M : CoMod (.stream X) (.stream Z)) (D : Nat), BroadcastReduce.make fill true r (List.ofFn ms) = .ok M ∧
      M.delay = D ∧ M.padding = D ∧ (∀ j, (ms j).delay ≤ D) ∧ (∃ j, (ms j).delay = D) ∧ Keeps M ∧
      ∀ (xs : List X) (yss : Fin n → List Y), xs ≠ [] → (∀ j, ∃ i, (ms j).fwd (ms j).init xs = .ok (yss j, i)) →
        (∀ j, (yss j).length = xs.length) ∧ Computes M D xs (zipReduce f (List.ofFn yss)) := by
  obtain ⟨M, D, h1, h2, h3, ⟨j, h4⟩, h5, h6⟩ := branches hn hr fill ms K
  have hd : ∀ j, (ms j).delay = ((ms j).padding : Int) := fun j => Keeps.delay (K j)
  refine ⟨M, D, h1, by rw [Keeps.delay h5, h2], h2, fun j => by have := h3 j; rw [hd]; omega, ⟨j, by rw [hd, h4]⟩, h5, ?_⟩
  intro xs yss hx hy
  obtain ⟨i, hi⟩ := h6 xs yss hy
  refine ⟨fun j => ?_, ?_⟩
  · obtain ⟨i, hi⟩ := hy j
    exact Keeps.length (K j) hi
  · have := (computes h5 hx hi).2
    rw [h2] at this
    exact this

theorem Docs2.convClip_length [AddCommMonoid Y] (c : Conv.Cfg X Y) (xs : List X) : (convClip c xs).length = xs.length := by
  simp [convClip]

/-- **C122**, the Inception module of the documentation (kernel sizes three and five, any others of the form `2P+1`): it is accepted
and has the larger padding as its delay (two frames), and `forward`, `forward_steps(pad_end=True)` and, late by the delay,
`forward_step` return for every clip the concatenated feature maps of the four branches. -/
theorem C122_inception [Zero X] [AddCommMonoid A] [AddCommMonoid B] [Zero C] [AddCommMonoid Y] (a : Inception X A B C Y)
    (h : a.Good) (fill : Y → Y) (cat : List Y → Z) :
    ∃ M, a.make fill cat = .ok M ∧ M.delay = (max a.conv3.P a.conv5.P : Nat) ∧ Keeps M ∧
      ∀ xs : List X, xs ≠ [] →
        Computes M (max a.conv3.P a.conv5.P) xs ((List.range xs.length).map (inceptionAt a cat xs)) := by
  have hr : ReduceOk (catReducer cat) cat 4 := reduceOk_of (by decide) (catReducer_lawful _ _ (by decide)) (catReducer_sound _)
  have K : ∀ j, Keeps (a.branches j) := by
    intro j
    fin_cases j
    · exact keeps_same h.one
    · exact keeps_cons (keeps_normRelu (keeps_same h.red3) _ _) (keeps_single (keeps_normRelu (keeps_same h.conv3) _ _))
    · exact keeps_cons (keeps_normRelu (keeps_same h.red5) _ _) (keeps_single (keeps_normRelu (keeps_same h.conv5) _ _))
    · exact keeps_cons (keeps_pool _ h.pool_K h.pool_P h.pool_S h.pool_dil h.pool_order h.pool_fill)
        (keeps_single (keeps_normRelu (keeps_same h.proj) _ _))
  obtain ⟨M, D, h1, h2, h3, h4, ⟨j, h5⟩, h6, h7⟩ := C122_branches (by decide) hr fill a.branches K
  have p0 : (a.branches 0).padding = 0 := h.one_point
  have p1 : (a.branches 1).padding = a.conv3.P := by
    simp [Chain.geos, Chain.paddingOf, Chain.strideOf, h.red3_point, h.red3.S]
  have p2 : (a.branches 2).padding = a.conv5.P := by
    simp [Chain.geos, Chain.paddingOf, Chain.strideOf, h.red5_point, h.red5.S]
  have p3 : (a.branches 3).padding = 0 := by
    simp [Chain.geos, Chain.paddingOf, Chain.strideOf, h.pool_P, h.proj_point]
  have hD : D = max a.conv3.P a.conv5.P := by
    have q1 := h4 1
    have q2 := h4 2
    rw [Keeps.delay (K 1), p1] at q1
    rw [Keeps.delay (K 2), p2] at q2
    rw [Keeps.delay (K j)] at h5
    have : (a.branches j).padding = 0 ∨ (a.branches j).padding = a.conv3.P ∨ (a.branches j).padding = a.conv5.P := by
      fin_cases j
      · exact .inl p0
      · exact .inr (.inl p1)
      · exact .inr (.inr p2)
      · exact .inl p3
    omega
  subst hD
  refine ⟨M, h1, h2, h6, fun xs hx => ?_⟩
  have hx' : ∀ {β : Type} {l : List β}, l.length = xs.length → l ≠ [] := by
    rintro β l hl rfl
    exact hx (List.eq_nil_of_length_eq_zero hl.symm)
  let y0 := convClip a.one xs
  let y1 := (convClip a.conv3 ((convClip a.red3 xs).map fun y => a.reluA (a.normA y))).map fun y => a.relu (a.norm3 y)
  let y2 := (convClip a.conv5 ((convClip a.red5 xs).map fun y => a.reluB (a.normB y))).map fun y => a.relu (a.norm5 y)
  let y3 := (convClip a.proj (xs.map fun x => a.pool.pool [a.pool.spatial x])).map fun y => a.relu (a.normP y)
  have hf := (h7 xs ![y0, y1, y2, y3] hx ?_).2
  · have e : zipReduce cat (List.ofFn ![y0, y1, y2, y3]) = (List.range xs.length).map (inceptionAt a cat xs) := by
      have e0 : List.ofFn ![y0, y1, y2, y3] = [y0, y1, y2, y3] := rfl
      have l0 : y0.length = xs.length := convClip_length _ _
      have l1 : y1.length = xs.length := by simp [y1, convClip_length]
      have l2 : y2.length = xs.length := by simp [y2, convClip_length]
      have l3 : y3.length = xs.length := by simp [y3, convClip_length]
      rw [e0, zipReduce_eq cat (by simp) (T := xs.length) (by simp [l0, l1, l2, l3])]
      apply List.map_congr_left
      intro t ht
      have ht := List.mem_range.1 ht
      have g0 : y0[t]? = some (convFrame a.one xs t) := by simp [y0, convClip, ht]
      have g1 : y1[t]? = some (a.relu (a.norm3 (convFrame a.conv3 ((convClip a.red3 xs).map fun y => a.reluA (a.normA y)) t))) := by
        simp [y1, convClip, ht]
      have g2 : y2[t]? = some (a.relu (a.norm5 (convFrame a.conv5 ((convClip a.red5 xs).map fun y => a.reluB (a.normB y)) t))) := by
        simp [y2, convClip, ht]
      have g3 : y3[t]? = some (a.relu (a.normP (convFrame a.proj (xs.map fun x => a.pool.pool [a.pool.spatial x]) t))) := by
        simp [y3, convClip, ht]
      simp only [atTime, List.filterMap_cons, List.filterMap_nil, g0, g1, g2, g3, inceptionAt]
    rw [e] at hf
    exact hf
  · intro j
    fin_cases j
    · exact fwd_conv h.one hx
    · exact fwd_cons (fwd_normRelu (fwd_conv h.red3 hx))
        (fwd_single (fwd_normRelu (fwd_conv h.conv3 (hx' (by simp [convClip_length])))))
    · exact fwd_cons (fwd_normRelu (fwd_conv h.red5 hx))
        (fwd_single (fwd_normRelu (fwd_conv h.conv5 (hx' (by simp [convClip_length])))))
    · exact fwd_cons (fwd_pool _ h.pool_K h.pool_P h.pool_S h.pool_dil hx)
        (fwd_single (fwd_normRelu (fwd_conv h.proj (hx' (by simp)))))

/-- **C122**, the inverted residual block of the documentation (kernel size three, or any other of the form `2P+1`): it is accepted,
has the padding of the depthwise convolution as its delay, and output `t` of all three modes is input `t` plus what the seven layers
make of the clip at time `t`. -/
theorem C122_mobilenet [AddCommMonoid X] [AddCommMonoid A] (a : MbConv X A) (h : a.Good) (fill : X → X) :
    ∃ M, a.make fill = .ok M ∧ M.delay = a.depthwise.P ∧
      ∀ xs : List X, xs ≠ [] →
        Computes M a.depthwise.P xs (List.zipWith (· + ·) xs ((List.range xs.length).map (mbAt a xs))) := by
  have K : Keeps a.body :=
    keeps_cons (keeps_same h.expand) (keeps_cons (keeps_pointwise _) (keeps_cons (keeps_pointwise _)
      (keeps_cons (keeps_same h.depthwise) (keeps_cons (keeps_pointwise _) (keeps_cons (keeps_same h.project)
        (keeps_single (keeps_pointwise _)))))))
  have hP : a.body.padding = a.depthwise.P := by
    simp [Chain.geos, Chain.paddingOf, h.expand_point, h.expand.S, h.project_point]
  have hr : ReduceOk (foldReducer (· + · : X → X → X)) (foldFrame (· + ·) 0) 2 :=
    reduceOk_of (by decide) (foldReducer_lawful _ _ _ (by decide)) (foldReducer_sound _)
  obtain ⟨φ, N⟩ := K.net
  obtain ⟨M, h1, h2, _, h3⟩ := C20_residual hr fill .off (net_contract N rfl (by decide) K.len) K.stride K.same
  refine ⟨M, h1, by rw [h2, hP], fun xs hx => ?_⟩
  have hx' : ∀ {β : Type} {l : List β}, l.length = xs.length → l ≠ [] := by
    rintro β l hl rfl
    exact hx (List.eq_nil_of_length_eq_zero hl.symm)
  have F : Fwd a.body xs ((List.range xs.length).map (mbAt a xs)) := by
    have l1 : ((convClip a.expand xs).map fun y => a.relu (a.norm1 y)).length = xs.length := by simp [convClip_length]
    have l2 : ((convClip a.depthwise ((convClip a.expand xs).map fun y => a.relu (a.norm1 y))).map a.relu).length = xs.length := by
      simp [convClip_length]
    have := fwd_cons (fwd_conv h.expand hx) (fwd_cons (fwd_pointwise a.norm1 _) (fwd_cons (fwd_pointwise a.relu _)
      (fwd_cons (fwd_conv h.depthwise (hx' (by simp [convClip_length]))) (fwd_cons (fwd_pointwise a.relu _)
        (fwd_cons (fwd_conv h.project (hx' (by simp [convClip_length]))) (fwd_single (fwd_pointwise a.norm2 _)))))))
    have e : (convClip a.project (((convClip a.depthwise ((convClip a.expand xs).map a.norm1 |>.map a.relu)).map a.relu))).map
        a.norm2 = (List.range xs.length).map (mbAt a xs) := by
      have e1 : ((convClip a.expand xs).map a.norm1).map a.relu = (convClip a.expand xs).map fun y => a.relu (a.norm1 y) := by
        rw [List.map_map]; rfl
      rw [e1, convClip, l2, List.map_map]
      rfl
    rw [e] at this
    exact this
  obtain ⟨j, hj⟩ := F
  obtain ⟨_, k1, k2, k3⟩ := h3 hx hj
  rw [hP] at k3
  exact ⟨k1, k2, k3⟩

/-! ### Concrete instances -/

theorem exSum_same (P : Nat) : SameConv (exSum (2 * P + 1) 1 P) := ⟨rfl, rfl, fun _ => rfl, rfl, rfl⟩

/-- A spatial pooling on integers: it doubles a frame. -/
def exSpatial : Pool.Cfg Int Int where
  K := 1
  S := 1
  P := 0
  dil := 1
  spatial := fun x => 2 * x
  pool := List.sum
  fillIn := fun _ => 0
  fillOut := fun _ => 0
  refPad := 0

/-- An Inception module on integers: sums over one, three and five frames. -/
def exInception : Inception Int Int Int Int Int where
  one := exSum 1 1 0
  red3 := exSum 1 1 0
  conv3 := exSum 3 1 1
  red5 := exSum 1 1 0
  conv5 := exSum 5 1 2
  pool := exSpatial
  proj := exSum 1 1 0
  normA := fun x => x + 1
  reluA := fun x => max x 0
  normB := fun x => x
  reluB := fun x => max x 0
  norm3 := fun x => x
  norm5 := fun x => x
  normP := fun x => x
  relu := fun x => max x 0

theorem exInception_good : exInception.Good :=
  ⟨exSum_same 0, exSum_same 0, exSum_same 1, exSum_same 0, exSum_same 2, exSum_same 0, rfl, rfl, rfl, rfl, rfl, rfl, rfl, rfl,
    fun _ _ h => h.sum_eq, fun _ => rfl⟩

/-- The first frames of such a module; the bias-like `+1` in front of the convolution of three frames is not added to its padding. -/
example : (List.range 3).map (inceptionAt exInception id [1, 10, 100]) = [[1, 13, 111, 2], [10, 114, 111, 20], [100, 112, 111, 200]] := by
  decide

example : ∃ M, exInception.make (fun _ => 0) id = .ok M ∧ M.delay = 2 ∧
    ∃ os i', callSteps M M.init [1, 10, 100] = .ok (os, i') ∧ os[1]? = some none ∧ os[2]? = some (some [1, 13, 111, 2]) := by
  obtain ⟨M, h1, h2, _, h3⟩ := C122_inception exInception exInception_good (fun _ => 0) id
  refine ⟨M, h1, h2, ?_⟩
  obtain ⟨os, i', h4, _, h5⟩ := (h3 [1, 10, 100] (by decide)).step M.init .init
  exact ⟨os, i', h4, h5 1 (by decide), h5 2 (by decide)⟩

/-- Containers of branches can be nested: three branches, of which one is a container of two. -/
example : ∃ M N : CoMod (.stream Int) (.stream Int),
    BroadcastReduce.make (fun _ => 0) true (foldReducer (· + ·)) [Conv.mod (exSum 3 1 1), Conv.mod (exSum 7 1 3)] = .ok M ∧
    BroadcastReduce.make (fun _ => 0) true (foldReducer (· + ·)) [Conv.mod (exSum 1 1 0), M, Conv.mod (exSum 5 1 2)] = .ok N ∧
    N.delay = 3 := by
  have hr : ∀ n, 2 ≤ n → ReduceOk (foldReducer (· + · : Int → Int → Int)) (foldFrame (· + ·) 0) n := fun n hn =>
    reduceOk_of (by omega) (foldReducer_lawful _ _ _ hn) (foldReducer_sound _)
  obtain ⟨M, D, h1, h2, _, h3, ⟨j, h4⟩, K, _⟩ := C122_branches (le_refl 2) (hr 2 (by decide)) (fun _ => (0 : Int))
    ![Conv.mod (exSum 3 1 1), Conv.mod (exSum 7 1 3)] (by
      intro j; fin_cases j
      · exact keeps_same (exSum_same 1)
      · exact keeps_same (exSum_same 3))
  have hD : D = 3 := by
    have h5 : (3 : Int) ≤ D := h3 1
    fin_cases j
    · have h6 : (1 : Int) = D := h4
      omega
    · have h6 : (3 : Int) = D := h4
      omega
  obtain ⟨N, E, k1, k2, _, k3, ⟨l, k4⟩, _, _⟩ := C122_branches (by decide : 2 ≤ 3) (hr 3 (by decide)) (fun _ => (0 : Int))
    ![Conv.mod (exSum 1 1 0), M, Conv.mod (exSum 5 1 2)] (by
      intro j; fin_cases j
      · exact keeps_same (exSum_same 0)
      · exact K
      · exact keeps_same (exSum_same 2))
  refine ⟨M, N, h1, k1, ?_⟩
  rw [k2]
  have k5 : M.delay ≤ E := k3 1
  fin_cases l
  · have k6 : (0 : Int) = E := k4
    omega
  · have k6 : M.delay = E := k4
    omega
  · have k6 : (2 : Int) = E := k4
    omega

/-- An inverted residual block on integers. -/
def exMb : MbConv Int Int where
  expand := exSum 1 1 0
  norm1 := fun x => x + 1
  depthwise := exSum 3 1 1
  relu := fun x => max x 0
  project := exSum 1 1 0
  norm2 := fun x => 2 * x

example : ∃ M, exMb.make (fun _ => 0) = .ok M ∧ M.delay = 1 ∧
    ∃ i, M.steps M.init true true [1, 10, 100] = .ok (some [1 + 26, 10 + 228, 100 + 224], i) := by
  obtain ⟨M, h1, h2, h3⟩ := C122_mobilenet exMb ⟨exSum_same 0, exSum_same 1, exSum_same 0, rfl, rfl⟩ (fun _ => 0)
  obtain ⟨i, hi⟩ := (h3 [1, 10, 100] (by decide)).steps M.init true .init
  exact ⟨M, h1, h2, i, hi⟩

end CoInf
