/-
Property C73: wrong values are forgotten.

Nothing is assumed about the arithmetic: `+` and `0` of the convolutions are arbitrary (rounding, infinities and NaN
included), the temporal pooling is an arbitrary function.
-/
import Verif.Lemmas.ForgetConv
import Verif.Lemmas.ForgetBranch
import Verif.Lemmas.AttnAny
import Verif.Lemmas.Geometry
import Verif.Lemmas.NestGeo
import Verif.Model.Closure
import Mathlib.Algebra.Order.Ring.Int

set_option autoImplicit false

namespace CoInf
open Spec Forget

mutual
/-- `Running M D`: `D i j` says that the objects `i` and `j` of the network `M` have left the initial phase, with the same
counters and with buffers of the right shape, but with any contents. -/
inductive Running : {X Y : Type} → (M : CoMod (.stream X) (.stream Y)) → (M.Inst → M.Inst → Prop) → Prop where
  | conv {X Y : Type} [Zero X] [Zero Y] [Add Y] (c : Conv.Cfg X Y) : 2 ≤ c.K → 1 ≤ c.S → c.P < c.K →
      Running (Conv.mod c) fun i j =>
        i.index = j.index ∧ 0 ≤ i.index ∧ i.index < ((c.K - 1 : Nat) : Int) ∧
        i.strideIndex = j.strideIndex ∧ 0 ≤ i.strideIndex ∧ i.strideIndex < c.S ∧
        i.buffer.length = c.K - 1 ∧ j.buffer.length = c.K - 1 ∧
        (∀ r ∈ i.buffer, r.length = c.K - 1) ∧ ∀ r ∈ j.buffer, r.length = c.K - 1
  | pool {X Y : Type} (c : Pool.Cfg X Y) : c.dil = 1 → 1 ≤ c.K → 1 ≤ c.S → c.P < c.K →
      Running (Pool.mod c) fun i j =>
        i.index = j.index ∧ 0 ≤ i.index ∧ i.index < c.K ∧
        i.strideIndex = j.strideIndex ∧ 0 ≤ i.strideIndex ∧ i.strideIndex < c.S ∧
        i.buffer.length = c.K ∧ j.buffer.length = c.K
  | delay {X : Type} (c : Delay.Cfg X) :
      Running (Delay.mod c) fun i j => i.2 = j.2 ∧ 0 ≤ i.2 ∧ (c.d ≠ 0 → i.2 < c.d) ∧ i.1.length = c.d ∧ j.1.length = c.d
  | pointwise {X Y : Type} (f : X → Y) : Running (Pointwise.mod f) fun _ _ => True
  | single {X Y : Type} {m : CoMod (.stream X) (.stream Y)} {D : m.Inst → m.Inst → Prop} : Running m D →
      Running (Sequential.mod (.single m)) D
  | cons {X Y Z : Type} {m : CoMod (.stream X) (.stream Y)} {c : Chain (.stream Y) (.stream Z)}
      {D : m.Inst → m.Inst → Prop} {D' : c.Inst → c.Inst → Prop} : Running m D → Running (Sequential.mod c) D' →
      Running (Sequential.mod (.cons m c)) fun i j => D i.1 j.1 ∧ D' i.2 j.2
  | branches {X Y Z : Type} {ms : List (CoMod (.stream X) (.stream Y))}
      {D : BroadcastReduce.Inst ms → BroadcastReduce.Inst ms → Prop} (r : Reducer Y Z) : ms ≠ [] → RunningAll ms D →
      (∀ ys, ys.length = ms.length → ∃ z, r.frame ys = .ok z) → Running (BroadcastReduce.mod r ms) D

/-- The same for the branches of a BroadcastReduce, which have stride 1. -/
inductive RunningAll : {X Y : Type} → (ms : List (CoMod (.stream X) (.stream Y))) →
    (BroadcastReduce.Inst ms → BroadcastReduce.Inst ms → Prop) → Prop where
  | nil {X Y : Type} : RunningAll ([] : List (CoMod (.stream X) (.stream Y))) fun _ _ => True
  | cons {X Y : Type} {m : CoMod (.stream X) (.stream Y)} {ms : List (CoMod (.stream X) (.stream Y))}
      {D : m.Inst → m.Inst → Prop} {D' : BroadcastReduce.Inst ms → BroadcastReduce.Inst ms → Prop} :
      Running m D → m.stride = 1 → RunningAll ms D' → RunningAll (m :: ms) fun i j => D i.1 j.1 ∧ D' i.2 j.2
end

/-- What the induction shows. -/
def Sharp {X Y : Type} (M : CoMod (.stream X) (.stream Y)) (D : M.Inst → M.Inst → Prop) : Prop :=
  1 ≤ M.rf ∧ 1 ≤ M.stride ∧ ∃ R q, Forgets M (M.rf - 1) M.stride R q ∧ ∀ i j, D i j → R (M.rf - 1) i j

/-- The same for branches. -/
def SharpAll {X Y : Type} (ms : List (CoMod (.stream X) (.stream Y)))
    (D : BroadcastReduce.Inst ms → BroadcastReduce.Inst ms → Prop) : Prop :=
  (∀ m ∈ ms, 1 ≤ m.rf ∧ m.stride = 1) ∧
    ∀ n, (∀ m ∈ ms, m.rf - 1 ≤ n) → ∃ R, Branches n ms R ∧ ∀ i j, D i j → R n i j

theorem foldl_max_le {α : Type 1} (f : α → Nat) : ∀ (l : List α) (a : Nat),
    a ≤ l.foldl (fun a m => max a (f m)) a ∧ ∀ m ∈ l, f m ≤ l.foldl (fun a m => max a (f m)) a
  | [], a => ⟨le_refl _, by simp⟩
  | x :: l, a => by
    obtain ⟨h1, h2⟩ := foldl_max_le f l (max a (f x))
    refine ⟨le_trans (le_max_left _ _) h1, fun m hm => ?_⟩
    rcases List.mem_cons.1 hm with rfl | hm
    · exact le_trans (le_max_right _ _) h1
    · exact h2 m hm

theorem running_sharp {X Y : Type} {M : CoMod (.stream X) (.stream Y)} {D : M.Inst → M.Inst → Prop} (h : Running M D) :
    Sharp M D := by
  refine Running.rec (motive_1 := fun M D _ => Sharp M D) (motive_2 := fun ms D _ => SharpAll ms D)
    ?_ ?_ ?_ ?_ ?_ ?_ ?_ ?_ ?_ h
  · intro X Y _ _ _ c hK hS hP
    refine ⟨show 1 ≤ c.K by omega, hS, ConvRel c 0, convQuiet c, (conv_forgets c hK hS hP 0).forgets, ?_⟩
    rintro i j ⟨h1, h2, h3, h4, h5, h6, h7, h8, h9, h10⟩
    exact .inr ⟨h1, h2, h3, h4, by simpa using h5, by omega, Agree.trivial _ h7 h8, h9, h10⟩
  · intro X Y c hd hK hS hP
    have hrf : (Pool.mod c).rf = c.K := by show c.dil * c.K = _; rw [hd, Nat.one_mul]
    refine ⟨by rw [hrf]; exact hK, hS, PoolRel c 0, poolQuiet c, ?_, ?_⟩
    · rw [hrf]; exact (pool_forgets c hd hK hS hP 0).forgets
    · rintro i j ⟨h1, h2, h3, h4, h5, h6, h7, h8⟩
      rw [hrf]
      exact .inr ⟨h1, h2, h3, h4, by simpa using h5, by omega, by rw [show c.K - 1 + 1 = c.K by omega]; exact Agree.trivial _ h7 h8⟩
  · intro X c
    refine ⟨show 1 ≤ c.d + 1 by omega, le_refl _, DelayRel c 0, delayQuiet c, (delay_forgets c 0).forgets, ?_⟩
    rintro i j ⟨h1, h2, h3, h4, h5⟩
    by_cases hd : c.d = 0
    · exact .inl hd
    · exact .inr (.inr ⟨h1, by simpa using h2, h3 hd, Agree.trivial _ h4 h5⟩)
  · intro X Y f
    exact ⟨le_refl _, le_refl _, _, _, pure_forgets f fun _ _ _ => rfl, fun _ _ _ => trivial⟩
  · intro X Y m D _ ⟨h1, h2, R, q, h3, h4⟩
    have e1 : (Sequential.mod (.single m)).rf = m.rf := by simp [Chain.geos, Chain.rfOf]
    have e2 : (Sequential.mod (.single m)).stride = m.stride := by simp [Chain.geos, Chain.strideOf]
    refine ⟨by rw [e1]; exact h1, by rw [e2]; exact h2, R, q, ?_, fun i j hd => ?_⟩
    · rw [e1, e2]; exact single_forgets h3
    · rw [e1]; exact h4 i j hd
  · intro X Y Z m c D D' _ _ ⟨h1, h2, R, q, h3, h4⟩ ⟨g1, g2, R', q', g3, g4⟩
    have hne := Chain.geos_ne_nil c
    have e1 : (Sequential.mod (.cons m c)).rf - 1 = (m.rf - 1) + m.stride * ((Sequential.mod c).rf - 1) := by
      show Chain.rfOf (Chain.geos (.cons m c)) - 1 = _
      simp only [Chain.geos, Chain.rfOf_cons _ hne]
      have g1' : 1 ≤ Chain.rfOf c.geos := g1
      show _ = m.rf - 1 + m.stride * (Chain.rfOf c.geos - 1)
      rw [Nat.mul_sub, Nat.mul_one]
      have : m.stride * 1 ≤ m.stride * Chain.rfOf c.geos := Nat.mul_le_mul_left _ g1'
      omega
    have e2 : (Sequential.mod (.cons m c)).stride = m.stride * (Sequential.mod c).stride := by
      show Chain.strideOf (Chain.geos (.cons m c)) = _
      simp only [Chain.geos, Chain.strideOf_cons]
    have e3 : 1 ≤ (Sequential.mod (.cons m c)).rf := by
      show 1 ≤ Chain.rfOf (Chain.geos (.cons m c))
      simp only [Chain.geos, Chain.rfOf_cons _ hne]
      have g1' : 1 ≤ Chain.rfOf c.geos := g1
      have : m.stride * 1 ≤ m.stride * Chain.rfOf c.geos := Nat.mul_le_mul_left _ g1'
      omega
    refine ⟨e3, by rw [e2]; exact Nat.mul_pos h2 g2, SeqRel m.stride ((Sequential.mod c).rf - 1) R q R',
      fun i => q i.1 + m.stride * q' i.2, ?_, ?_⟩
    · rw [e1, e2]; exact seq_forgets h3 g3
    · rintro ⟨i1, i2⟩ ⟨j1, j2⟩ ⟨d1, d2⟩
      have r1 := h4 _ _ d1
      exact ⟨m.rf - 1, (Sequential.mod c).rf - 1, r1, g4 _ _ d2, le_refl _,
        by rw [e1]; exact cost_le (h3.quiet_lt r1) (le_refl _)⟩
  · intro X Y Z ms D r hne _ hr ⟨h1, h2⟩
    have hm : ∀ m ∈ ms, m.rf ≤ (BroadcastReduce.mod r ms).rf := by
      have := (foldl_max_le (fun m : CoMod (.stream X) (.stream Y) => m.rf) ms 0).2
      exact this
    obtain ⟨R, h3, h4⟩ := h2 ((BroadcastReduce.mod r ms).rf - 1) fun m hm' => by have := hm m hm'; omega
    have hs : (BroadcastReduce.mod r ms).stride = 1 := by
      cases ms with
      | nil => rfl
      | cons m ms => exact (h1 m (List.mem_cons_self ..)).2
    refine ⟨?_, by rw [hs], R, fun _ => 0, by rw [hs]; exact branches_forgets h3 r hr, h4⟩
    obtain ⟨m, ms', rfl⟩ := List.exists_cons_of_ne_nil hne
    exact le_trans (h1 m (List.mem_cons_self ..)).1 (hm m (List.mem_cons_self ..))
  · intro X Y
    exact ⟨by simp, fun n _ => ⟨_, .nil, fun _ _ _ => trivial⟩⟩
  · intro X Y m ms D D' _ hs _ ⟨h1, _, R, q, h3, h4⟩ ⟨g1, g2⟩
    refine ⟨fun m' hm' => ?_, fun n hn => ?_⟩
    · rcases List.mem_cons.1 hm' with rfl | hm'
      · exact ⟨h1, hs⟩
      · exact g1 m' hm'
    · obtain ⟨R', g3, g4⟩ := g2 n fun m' hm' => hn m' (List.mem_cons_of_mem _ hm')
      rw [hs] at h3
      have hle := hn m (List.mem_cons_self ..)
      exact ⟨_, .cons h3 hle g3, fun i j hd => ⟨⟨_, hle, h4 _ _ hd.1⟩, g4 _ _ hd.2⟩⟩

/-- **C73**: take any network of convolutions, pooling, Delay and frame-wise modules, nested with Sequential (any strides)
and BroadcastReduce (stride 1 inside), and two running objects of it with the same counters and any contents in their
buffers, and feed both, possibly with different frames first.  After `receptive_field - 1` common frames they return the
same forever. -/
theorem C73_network {X Y : Type} {M : CoMod (.stream X) (.stream Y)} {D : M.Inst → M.Inst → Prop} (h : Running M D) (i j : M.Inst)
    (hd : D i j) : Recovers M (M.rf - 1) i j := by
  obtain ⟨_, _, R, q, h3, h4⟩ := running_sharp h
  exact h3.recovers (h4 i j hd)

/-- **C73** from the start, convolution: one or more wrong frames anywhere in the stream, also the first ones, are forgotten
after `kernel_size - 1` right ones. -/
theorem C73_conv_fresh {X Y : Type} [Zero X] [Zero Y] [Add Y] (c : Conv.Cfg X Y) (hK : 2 ≤ c.K) (hS : 1 ≤ c.S) (hP : c.P < c.K) :
    Recovers (Conv.mod c) (c.K - 1) (Conv.mod c).init (Conv.mod c).init :=
  (conv_forgets c hK hS hP c.K).forgets.recovers (.inl ⟨rfl, rfl, by unfold convStart; omega⟩)

/-- **C73** from the start, pooling. -/
theorem C73_pool_fresh {X Y : Type} (c : Pool.Cfg X Y) (hd : c.dil = 1) (hK : 1 ≤ c.K) (hS : 1 ≤ c.S) (hP : c.P < c.K) :
    Recovers (Pool.mod c) (c.K - 1) (Pool.mod c).init (Pool.mod c).init :=
  (pool_forgets c hd hK hS hP c.K).forgets.recovers (.inl ⟨rfl, rfl, by simp [poolStart, Pool.bufLen, hd]; omega⟩)

/-- **C73** from the start, Delay. -/
theorem C73_delay_fresh {X : Type} (c : Delay.Cfg X) : Recovers (Delay.mod c) c.d (Delay.mod c).init (Delay.mod c).init :=
  (delay_forgets c (2 * c.d)).forgets.recovers (.inr (.inl ⟨rfl, rfl, by unfold delayStart; split <;> push_cast <;> omega⟩))

/-- Chains of modules from the start. -/
inductive Chained : {X Y : Type} → CoMod (.stream X) (.stream Y) → Prop where
  | conv {X Y : Type} [Zero X] [Zero Y] [Add Y] (c : Conv.Cfg X Y) : 2 ≤ c.K → 1 ≤ c.S → c.P < c.K → Chained (Conv.mod c)
  | pool {X Y : Type} (c : Pool.Cfg X Y) : c.dil = 1 → 1 ≤ c.K → 1 ≤ c.S → c.P < c.K → Chained (Pool.mod c)
  | delay {X : Type} (c : Delay.Cfg X) : Chained (Delay.mod c)
  | pointwise {X Y : Type} (f : X → Y) : Chained (Pointwise.mod f)
  | retro {X Y R A : Type} (c : AttnAny.Cfg X Y R A) (fwd : List X → Except Err (List (List Y))) : 2 ≤ c.N →
      Chained (AttnAny.retroBase c fwd).mod
  | oneOutput {X Y R A : Type} (c : AttnAny.Cfg X Y R A) (qi : Int) (fwd : List X → Except Err (List Y)) : 1 ≤ c.N →
      0 ≤ Attn.nq c.N qi → Chained (AttnAny.singleBase c qi fwd).mod
  | single {X Y : Type} {m : CoMod (.stream X) (.stream Y)} : Chained m → Chained (Sequential.mod (.single m))
  | cons {X Y Z : Type} {m : CoMod (.stream X) (.stream Y)} {c : Chain (.stream Y) (.stream Z)} : Chained m →
      Chained (Sequential.mod c) → Chained (Sequential.mod (.cons m c))

/-- **C73** for nested Sequentials from the start, also with attention: whatever wrong frames have been fed, at any time,
after a fixed number of right ones there is no difference any more. -/
theorem C73_chain_fresh {X Y : Type} {M : CoMod (.stream X) (.stream Y)} (h : Chained M) : ∃ n, Recovers M n M.init M.init := by
  suffices hs : ∃ n p R q, Forgets M n p R q ∧ ∀ k, R k M.init M.init by
    obtain ⟨n, p, R, q, h1, h2⟩ := hs
    exact ⟨n, h1.recovers (h2 n)⟩
  induction h with
  | conv c hK hS hP => exact ⟨_, _, _, _, (conv_forgets c hK hS hP c.K).forgets, fun k => .inl ⟨rfl, rfl, by unfold convStart; omega⟩⟩
  | pool c hd hK hS hP =>
    exact ⟨_, _, _, _, (pool_forgets c hd hK hS hP c.K).forgets, fun k => .inl ⟨rfl, rfl, by simp [poolStart, Pool.bufLen, hd]; omega⟩⟩
  | delay c =>
    exact ⟨_, _, _, _, (delay_forgets c (2 * c.d)).forgets,
      fun k => .inr (.inl ⟨rfl, rfl, by unfold delayStart; split <;> push_cast <;> omega⟩)⟩
  | pointwise f => exact ⟨_, _, _, _, pure_forgets f fun _ _ _ => rfl, fun _ => trivial⟩
  | retro c fwd hN =>
    exact ⟨_, _, _, _, (AttnAny.retro_forgets c hN fwd c.N).forgets, fun k => .inl ⟨rfl, rfl, by show c.N ≤ c.N + 1; omega⟩⟩
  | oneOutput c qi fwd hN hq =>
    exact ⟨_, _, _, _, (AttnAny.single_forgets c hN qi hq fwd c.N).forgets, fun k => .inl ⟨rfl, rfl, by show c.N ≤ c.N + 1; omega⟩⟩
  | single _ ih =>
    obtain ⟨n, p, R, q, h1, h2⟩ := ih
    exact ⟨n, p, R, q, single_forgets h1, h2⟩
  | cons _ _ ih ih' =>
    obtain ⟨n, p, R, q, h1, h2⟩ := ih
    obtain ⟨n', p', R', q', h1', h2'⟩ := ih'
    exact ⟨_, _, _, _, seq_forgets h1 h1', fun k => ⟨0, 0, h2 0, h2' 0, Nat.zero_le _, by simp [cost]⟩⟩

/-! ### Attention -/

section attention
variable {R A : Type} {X Y : Type} (c : AttnAny.Cfg X Y R A)

/-- **C73** for single-output attention, with any arithmetic: `sequence_len - 1` common frames (or as many as there are
remembered queries). -/
theorem C73_single_attention (hN : 1 ≤ c.N) (qi : Int) (hq : 0 ≤ Attn.nq c.N qi) (fwd : List X → Except Err (List Y)) :
    Recovers (AttnAny.singleBase c qi fwd).mod (max (c.N - 1) (Attn.nq c.N qi).toNat) none none :=
  (AttnAny.single_forgets c hN qi hq fwd c.N).forgets.recovers (.inl ⟨rfl, rfl, by show c.N ≤ c.N + 1; omega⟩)

/-- With a query index inside the window that is `sequence_len - 1`, the `receptive_field - 1` of C73. -/
theorem C73_single_attention_rf (hN : 1 ≤ c.N) (qi : Int) (h0 : 0 ≤ qi) (h1 : qi < c.N) (fwd : List X → Except Err (List Y)) :
    Recovers (AttnAny.singleBase c qi fwd).mod ((AttnAny.singleBase c qi fwd).mod.rf - 1) none none := by
  have hq : 0 ≤ Attn.nq c.N qi := by unfold Attn.nq; rw [if_pos h0]; omega
  have := C73_single_attention c hN qi hq fwd
  rwa [show max (c.N - 1) (Attn.nq c.N qi).toNat = c.N - 1 by
    unfold Attn.nq; rw [if_pos h0]; omega] at this

/-- **C73** for retroactive attention, with any arithmetic: `2 * sequence_len - 2` common frames. -/
theorem C73_retro_attention_partial (hN : 2 ≤ c.N) (fwd : List X → Except Err (List (List Y))) :
    Recovers (AttnAny.retroBase c fwd).mod (2 * c.N - 2) none none :=
  (AttnAny.retro_forgets c hN fwd c.N).forgets.recovers (.inl ⟨rfl, rfl, by show c.N ≤ c.N + 1; omega⟩)

/-- Arithmetic with NaN. -/
structure Absorbing (o : AttnAny.Ops R A) (nanR : R) (nanA : A) : Prop where
  w : ∀ q, o.w q nanR = nanA
  sum : ∀ l, nanA ∈ l → o.sumA l = nanA
  add : ∀ a, o.addA nanA a = nanA
  sub : ∀ a, o.subA nanA a = nanA
  div : ∀ r, o.div r nanA = nanR

/-- The state `j` frames after the frame with NaN: first the key is in the window, then the sum of the query that came
last while it was. -/
structure Tainted (nanR : R) (nanA : A) (j : Nat) (s : AttnAny.RetroSt R A) : Prop where
  d : s.d.length = c.N - 1
  AV : s.AV.length = c.N - 1
  Q : s.Q.length = c.N - 1
  K : s.K.length = c.N
  V : s.V.length = c.N
  key : j ≤ c.N - 1 → s.K[c.N - 1 - j]? = some nanR
  sum : c.N - 1 ≤ j → j ≤ 2 * c.N - 3 → s.d[2 * c.N - 3 - j]? = some nanA

theorem retro_sdpa_eq (hN : 2 ≤ c.N) {s : AttnAny.RetroSt R A} (hQ : s.Q.length = c.N - 1) (hK : s.K.length = c.N)
    (hV : s.V.length = c.N) (x : X) : ∃ k0 v0, AttnAny.retroSdpa c s x =
      .ok ((AttnAny.retroCore c s (c.q x) (c.k x) (c.v x) k0 v0 (s.Q.drop 1 ++ [c.q x]) (s.K.drop 1 ++ [c.k x])
        (s.V.drop 1 ++ [c.v x])).1.map c.out, (AttnAny.retroCore c s (c.q x) (c.k x) (c.v x) k0 v0 (s.Q.drop 1 ++ [c.q x])
        (s.K.drop 1 ++ [c.k x]) (s.V.drop 1 ++ [c.v x])).2) := by
  obtain ⟨d, AV, Q, K, V⟩ := s
  simp only at hQ hK hV
  obtain ⟨q, Q, rfl⟩ := List.exists_cons_of_ne_nil (show Q ≠ [] by rintro rfl; simp at hQ; omega)
  obtain ⟨k, K, rfl⟩ := List.exists_cons_of_ne_nil (show K ≠ [] by rintro rfl; simp at hK; omega)
  obtain ⟨v, V, rfl⟩ := List.exists_cons_of_ne_nil (show V ≠ [] by rintro rfl; simp at hV; omega)
  refine ⟨k, v, ?_⟩
  have g1 : pyGet (k :: K) 0 = .ok k := rfl
  have g2 : pyGet (v :: V) 0 = .ok v := rfl
  simp only [AttnAny.retroSdpa, g1, g2, Attn.rollSet_ok (List.cons_ne_nil _ _), bind, Except.bind, pure, Except.pure]

theorem Tainted.step {nanR : R} {nanA : A} (ha : Absorbing c.ops nanR nanA) (hN : 2 ≤ c.N) {j : Nat} {s : AttnAny.RetroSt R A}
    (h : Tainted c nanR nanA j s) (x : X) : ∃ rows s', AttnAny.retroSdpa c s x = .ok (rows, s') ∧ Tainted c nanR nanA (j + 1) s' ∧
      (j + 2 = 2 * c.N - 1 → rows.head? = some (c.out nanR)) := by
  obtain ⟨k0, v0, e⟩ := retro_sdpa_eq c hN h.Q h.K h.V x
  have h1 := h.d
  have h2 := h.AV
  have h3 := h.Q
  have h4 := h.K
  have h5 := h.V
  have key : j + 1 ≤ c.N - 1 → (s.K.drop 1 ++ [c.k x])[c.N - 1 - (j + 1)]? = some nanR := fun hj => by
    rw [List.getElem?_append_left (by simp; omega), List.getElem?_drop, show 1 + (c.N - 1 - (j + 1)) = c.N - 1 - j by omega]
    exact h.key (by omega)
  refine ⟨_, _, e, ⟨?_, ?_, ?_, ?_, ?_, ?_, ?_⟩, fun hj => ?_⟩
  · simp [AttnAny.retroCore]; omega
  · simp [AttnAny.retroCore]; omega
  · simp [AttnAny.retroCore]; omega
  · simp [AttnAny.retroCore]; omega
  · simp [AttnAny.retroCore]; omega
  · exact key
  · intro g1 g2
    simp only [AttnAny.retroCore, List.getElem?_drop]
    by_cases hj : j + 1 = c.N - 1
    · rw [List.getElem?_append_right (by simp; omega), show 1 + (2 * c.N - 3 - (j + 1)) - (List.zipWith c.ops.addA
        (List.zipWith c.ops.subA s.d (s.Q.map fun r => c.ops.w r k0)) (s.Q.map fun r => c.ops.w r (c.k x))).length = 0 by simp; omega,
        List.getElem?_cons_zero, ha.sum _ ?_]
      refine List.mem_map.2 ⟨nanR, List.mem_of_getElem? (key (by omega)), ha.w _⟩
    · have hd := h.sum (by omega) (by omega)
      rw [List.getElem?_append_left (by simp; omega), show 1 + (2 * c.N - 3 - (j + 1)) = 2 * c.N - 3 - j by omega]
      have hlt : 2 * c.N - 3 - j < s.Q.length := by omega
      simp [List.getElem?_zipWith, hd, List.getElem?_eq_getElem hlt, ha.sub, ha.add]
  · have hd := h.sum (by omega) (by omega)
    rw [show 2 * c.N - 3 - j = 0 by omega] at hd
    obtain ⟨d, AV, Q, K, V⟩ := s
    simp only at h1 h2 h3 hd
    obtain ⟨q, Q, rfl⟩ := List.exists_cons_of_ne_nil (show Q ≠ [] by rintro rfl; simp at h3; omega)
    obtain ⟨av, AV, rfl⟩ := List.exists_cons_of_ne_nil (show AV ≠ [] by rintro rfl; simp at h2; omega)
    obtain ⟨dd, d, rfl⟩ := List.exists_cons_of_ne_nil (show d ≠ [] by rintro rfl; simp at h1; omega)
    obtain rfl : dd = nanA := by simpa using hd
    simp [AttnAny.retroCore, ha.sub, ha.add, ha.div]

theorem callSteps_cons_ok {I O : Type} (M : CoMod (.stream I) (.stream O)) {i i' i'' : M.Inst} {x : I} {xs : List I} {o os}
    (h : M.step i true x = .ok (o, i')) (h' : callSteps M i' xs = .ok (os, i'')) : callSteps M i (x :: xs) = .ok (o :: os, i'') := by
  simp only [callSteps, h, h', bind, Except.bind, pure, Except.pure]

theorem Tainted.steps {nanR : R} {nanA : A} (ha : Absorbing c.ops nanR nanA) (hN : 2 ≤ c.N) (fwd : List X → Except Err (List (List Y))) :
    ∀ (xs : List X) {j : Nat} {s : AttnAny.RetroSt R A}, Tainted c nanR nanA j s →
      ∃ os s', callSteps (AttnAny.retroBase c fwd).mod (some (s, min 0 ((j : Int) + 1 - c.N))) xs =
        .ok (os, some (s', min 0 (((j + xs.length : Nat) : Int) + 1 - c.N))) ∧ Tainted c nanR nanA (j + xs.length) s'
  | [], j, s, h => ⟨[], s, rfl, h⟩
  | x :: xs, j, s, h => by
    obtain ⟨rows, s1, e1, h1, _⟩ := h.step c ha hN x
    obtain ⟨os, s2, e2, h2⟩ := steps ha hN fwd xs h1
    refine ⟨(if min 0 (((j + 1 : Nat) : Int) + 1 - c.N) < 0 then none else some rows) :: os, s2, ?_, by rw [List.length_cons, Nat.add_comm xs.length, ← Nat.add_assoc]; exact h2⟩
    have hidx : (if min 0 ((j : Int) + 1 - c.N) < 0 then min 0 ((j : Int) + 1 - c.N) + 1 else min 0 ((j : Int) + 1 - c.N)) =
        min 0 (((j + 1 : Nat) : Int) + 1 - c.N) := by push_cast; split <;> omega
    have hl : j + (x :: xs).length = j + 1 + xs.length := by rw [List.length_cons]; omega
    rw [hl]
    have hstep : (AttnAny.retroBase c fwd).mod.step (some (s, min 0 ((j : Int) + 1 - c.N))) true x =
        .ok (if min 0 (((j + 1 : Nat) : Int) + 1 - c.N) < 0 then none else some rows, some (s1, min 0 (((j + 1 : Nat) : Int) + 1 - c.N))) := by
      show Attn.step _ _ _ _ = _
      simp only [Attn.step, Attn.pstep, Attn.start, e1, hidx, if_true]
    exact callSteps_cons_ok _ hstep e2

/-- **C73 refuted** for retroactive attention with `receptive_field - 1` frames: with NaN in the arithmetic, one frame whose
key is NaN still makes the output NaN after `2 * sequence_len - 3` further frames of any kind, though the window is
`sequence_len` frames long; so the `2 * sequence_len - 2` above cannot be improved. -/
theorem C73_retro_nan_refuted (hN : 2 ≤ c.N) {nanR : R} {nanA : A} (ha : Absorbing c.ops nanR nanA) (bad : X) (hb : c.k bad = nanR)
    (fwd : List X → Except Err (List (List Y))) (xs : List X) (hx : xs.length = 2 * c.N - 3) (x : X) :
    ∃ os rows i, callSteps (AttnAny.retroBase c fwd).mod none (bad :: xs ++ [x]) = .ok (os ++ [some rows], i) ∧
      rows.head? = some (c.out nanR) := by
  obtain ⟨rows0, s0, e0, h0⟩ : ∃ rows s0, AttnAny.retroSdpa c ⟨List.replicate (c.N - 1) c.ops.zeroA, List.replicate (c.N - 1) c.ops.zeroR,
      List.replicate (c.N - 1) c.ops.zeroR, List.replicate c.N c.ops.zeroR, List.replicate c.N c.ops.zeroR⟩ bad = .ok (rows, s0) ∧
      Tainted c nanR nanA 0 s0 := by
    obtain ⟨k0, v0, e⟩ := retro_sdpa_eq c hN (s := ⟨List.replicate (c.N - 1) c.ops.zeroA, List.replicate (c.N - 1) c.ops.zeroR,
      List.replicate (c.N - 1) c.ops.zeroR, List.replicate c.N c.ops.zeroR, List.replicate c.N c.ops.zeroR⟩) (by simp) (by simp) (by simp) bad
    refine ⟨_, _, e, ⟨?_, ?_, ?_, ?_, ?_, ?_, fun h => by omega⟩⟩
    · simp [AttnAny.retroCore] <;> omega
    · simp [AttnAny.retroCore] <;> omega
    · simp [AttnAny.retroCore] <;> omega
    · simp [AttnAny.retroCore] <;> omega
    · simp [AttnAny.retroCore] <;> omega
    · intro _
      simp only [AttnAny.retroCore]
      rw [List.getElem?_append_right (by simp)]
      simp [hb]
  obtain ⟨os, s1, e1, h1⟩ := Tainted.steps c ha hN fwd xs h0
  obtain ⟨rows, s2, e2, _, h2⟩ := h1.step c ha hN x
  have hstep : (AttnAny.retroBase c fwd).mod.step none true bad = .ok (none, some (s0, min 0 (((0 : Nat) : Int) + 1 - c.N))) := by
    show Attn.step _ _ _ _ = _
    have hd : AttnAny.retroDefault c = .ok ⟨List.replicate (c.N - 1) c.ops.zeroA, List.replicate (c.N - 1) c.ops.zeroR,
      List.replicate (c.N - 1) c.ops.zeroR, List.replicate c.N c.ops.zeroR, List.replicate c.N c.ops.zeroR⟩ := by
      unfold AttnAny.retroDefault; rw [if_neg (by omega)]
    simp only [Attn.step, Attn.pstep, Attn.start, hd, Except.map, e0, if_true]
    rw [if_pos (show -(c.N : Int) < 0 by omega), if_pos (show -(c.N : Int) + 1 < 0 by omega)]
    congr 4
    push_cast; omega
  refine ⟨none :: os, rows, some (s2, 0), ?_, h2 (by omega)⟩
  have e3 := callSteps_cons_ok _ hstep e1
  rw [callSteps_app _ _ e3]
  have hlast : (AttnAny.retroBase c fwd).mod.step (some (s1, min 0 (((0 + xs.length : Nat) : Int) + 1 - c.N))) true x =
      .ok (some rows, some (s2, 0)) := by
    show Attn.step _ _ _ _ = _
    have : min 0 (((0 + xs.length : Nat) : Int) + 1 - c.N) = 0 := by omega
    simp only [Attn.step, Attn.pstep, Attn.start, e2, this, if_true]
    simp
  rw [callSteps_cons_ok _ hlast rfl]
  rfl
end attention

/-! ### Cases -/

namespace ForgetExample

/-- Numbers with NaN. -/
abbrev Num := Option Int

/-- The operations for rows of length 1. -/
@[reducible] def ops : AttnAny.Ops Num Num where
  w := fun a b => do return (← a) * (← b) + 1
  addA := fun a b => do return (← a) + (← b)
  subA := fun a b => do return (← a) - (← b)
  sumA := fun l => l.foldr (fun a b => do return (← a) + (← b)) (some 0)
  scale := fun a b => do return (← a) * (← b)
  addR := fun a b => do return (← a) + (← b)
  subR := fun a b => do return (← a) - (← b)
  mix := fun l l' => (List.zipWith (fun a b : Num => do return (← a) * (← b)) l l').foldr (fun a b => do return (← a) + (← b)) (some 0)
  div := fun a b => do return (← a) / (← b)
  row := fun q ks vs => (List.zipWith (fun k v : Num => do return (← q) * (← k) * (← v)) ks vs).foldr (fun a b => do return (← a) + (← b)) (some 0)
  zeroA := some 0
  zeroR := some 0

@[reducible] def attn (N : Nat) : AttnAny.Cfg Num Num Num Num := ⟨N, ops, id, id, id, id⟩

theorem absorbing : Absorbing ops none none where
  w := fun q => by cases q <;> rfl
  sum := fun l hl => by
    induction l with
    | nil => simp at hl
    | cons a l ih =>
      rcases List.mem_cons.1 hl with h | h
      · subst h; rfl
      · have := ih h
        simp only [List.foldr_cons] at this ⊢
        rw [this]; cases a <;> rfl
  add := fun a => rfl
  sub := fun a => rfl
  div := fun r => by cases r <;> rfl

/-- Three frames after the NaN the window of three frames does not contain it any more, but the output does. -/
example : ∃ os rows i, callSteps (AttnAny.retroBase (attn 3) fun _ => .ok []).mod none [none, some 1, some 2, some 3, some 4] =
    .ok (os ++ [some rows], i) ∧ rows.head? = some none :=
  C73_retro_nan_refuted (attn 3) (by decide) absorbing none rfl (fun _ => .ok []) [some 1, some 2, some 3] rfl (some 4)

/-- Without the NaN the same output is a number. -/
example : ∃ os rows i, callSteps (AttnAny.retroBase (attn 3) fun _ => .ok []).mod none [some 0, some 1, some 2, some 3, some 4] =
    .ok (os ++ [some rows], i) ∧ rows.head? = some (some 3) :=
  ⟨[none, none, some [some 1, some 1, some 1], some [some 2, some 2, some 2]], [some 3, some 3, some 3], _, rfl, rfl⟩

/-- So `receptive_field` common frames are not enough. -/
theorem C73_retro_rf_refuted : ¬ Recovers (AttnAny.retroBase (attn 3) fun _ => .ok []).mod
    (AttnAny.retroBase (attn 3) fun _ => .ok []).mod.rf none none := by
  intro h
  obtain ⟨as, as', bs, i, j, h1, h2, h3, h4⟩ := h [none] [some 0] [some 1, some 2, some 3] [some 4] rfl rfl
  have l1 : as.length = 4 := h3
  have l2 : as'.length = 4 := by rw [← List.length_map (f := Option.isSome), ← h4, List.length_map, l1]
  have g1 : (as ++ bs).drop 4 = [some [none, some 3, some 3]] := congrArg (fun r => match r with | .ok r => r.1.drop 4 | .error _ => []) h1.symm
  have g2 : (as' ++ bs).drop 4 = [some [some 3, some 3, some 3]] := congrArg (fun r => match r with | .ok r => r.1.drop 4 | .error _ => []) h2.symm
  rw [List.drop_append_of_le_length (by omega), List.drop_eq_nil_of_le (by omega), List.nil_append] at g1 g2
  rw [g1] at g2
  revert g2; decide

/-- Single-output attention recovers after two frames. -/
example : Recovers (AttnAny.singleBase (attn 3) 2 fun _ => .ok []).mod 2 none none :=
  C73_single_attention_rf (attn 3) (by decide) 2 (by decide) (by decide) _

instance : Zero Num := ⟨some 0⟩
instance : Add Num := ⟨ops.addA⟩

/-- Convolutions on numbers with NaN. -/
@[reducible] def conv (K S : Nat) : Conv.Cfg Num Num := ⟨K, S, 0, .zeros, .zeros, fun k x => ops.scale (some (k + 1)) x, some (some 5)⟩

@[reducible] def pool1 : Pool.Cfg Num Num := ⟨2, 1, 0, 1, id, ops.sumA, fun _ => some 0, fun _ => some 0, some 0⟩

/-- A convolution with stride 2, then a residual connection around a convolution, then a sum over two frames:
receptive field `3 + 2 * 2 + 2`. -/
@[reducible] def net := Sequential.mod (.cons (Conv.mod (conv 3 2)) (.cons
  (BroadcastReduce.mod (foldReducer ops.addA) [Conv.mod (conv 3 1), Delay.mod ⟨2, id, .off⟩]) (.single (Pool.mod pool1))))

example : net.rf = 9 := rfl

theorem net_running : ∃ D, Running net D ∧ ∃ i j, D i j ∧ i.1.buffer = [[some 1, some 2], [some 3, some 4]] ∧
    j.1.buffer = [[none, none], [none, none]] :=
  ⟨_, .cons (.conv _ (by decide) (by decide) (by decide)) (.cons (.branches _ (by simp)
    (.cons (.conv _ (by decide) (by decide) (by decide)) rfl (.cons (.delay _) rfl .nil))
    (fun ys h => by
      match ys, h with
      | [a, b], _ => exact ⟨ops.addA a b, rfl⟩)) (.single (.pool _ rfl (by decide) (by decide) (by decide)))),
    (⟨[[some 1, some 2], [some 3, some 4]], 1, 1⟩, ((⟨[[some 1, some 2], [some 3, some 4]], 1, 0⟩, ([some 1, some 1], 1), ()), ⟨[some 1, some 3], 1, 0⟩)),
    (⟨[[none, none], [none, none]], 1, 1⟩, ((⟨[[none, none], [none, none]], 1, 0⟩, ([none, none], 1), ()), ⟨[none, some 3], 1, 0⟩)),
    by simp, rfl, rfl⟩

example : ∃ i j : net.Inst, i.1.buffer = [[some 1, some 2], [some 3, some 4]] ∧ j.1.buffer = [[none, none], [none, none]] ∧ Recovers net 8 i j := by
  obtain ⟨D, h, i, j, h1, h2, h3⟩ := net_running
  exact ⟨i, j, h2, h3, C73_network h i j h1⟩

example : Chained (Sequential.mod (.cons (Conv.mod (conv 3 2)) (.cons (AttnAny.singleBase (attn 3) 2 fun _ => .ok []).mod (.single (Pool.mod pool1))))) :=
  .cons (.conv _ (by decide) (by decide) (by decide)) (.cons (.oneOutput _ _ _ (by decide) (by decide))
    (.single (.pool _ rfl (by decide) (by decide) (by decide))))

example : Recovers (Conv.mod (conv 3 2)) 2 (Conv.mod (conv 3 2)).init (Conv.mod (conv 3 2)).init :=
  C73_conv_fresh (conv 3 2) (by decide) (by decide) (by decide)

/-- One common frame is not enough. -/
example : ¬ Recovers (Conv.mod (conv 3 1)) 1 (Conv.mod (conv 3 1)).init (Conv.mod (conv 3 1)).init := by
  intro h
  obtain ⟨as, as', bs, i, j, h1, h2, h3, h4⟩ := h [none] [some 0] [some 1] [some 2] rfl rfl
  have l1 : as.length = 2 := h3
  have l2 : as'.length = 2 := by rw [← List.length_map (f := Option.isSome), ← h4, List.length_map, l1]
  have g1 : (as ++ bs).drop 2 = [some none] := congrArg (fun r => match r with | .ok r => r.1.drop 2 | .error _ => []) h1.symm
  have g2 : (as' ++ bs).drop 2 ≠ [some none] := by
    have := congrArg (fun r => match r with | .ok r => r.1.drop 2 | .error _ => []) h2
    simp only at this
    rw [← this]; decide
  rw [List.drop_append_of_le_length (by omega), List.drop_eq_nil_of_le (by omega), List.nil_append] at g1 g2
  exact g2 g1

end ForgetExample

end CoInf
