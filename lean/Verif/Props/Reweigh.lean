/-
Property C85: new weights in the middle of a stream.

`load_state_dict`, `.data` assignments and optimiser steps change the parameters of a module and leave its state alone: the
buffers that hold the state are registered with `persistent=False` (conv.py:121-123, delay.py:62-63, pooling.py:148-150,
retroactive_mha.py:250-255, single_output_mha.py:231-234).  So after the change there is the module with the new weights and
with the state that the module with the old weights has left.
-/
import Verif.Props.Forget
import Verif.Props.Net
import Verif.Lemmas.Dilated

set_option autoImplicit false

namespace CoInf
open Spec Forget

mutual
/-- `SameNet M M' e`: the networks `M` and `M'` are built alike - same kernel sizes, strides, paddings and delays - with other
weights and other frame-wise functions, and `e` puts the state of an object of `M` into an object of `M'`. -/
inductive SameNet : {X Y : Type} → (M M' : CoMod (.stream X) (.stream Y)) → (M.Inst → M'.Inst) → Prop where
  | conv {X Y : Type} [Zero X] [Zero Y] [Add Y] (c c' : Conv.Cfg X Y) : 2 ≤ c.K → 1 ≤ c.S → c.P < c.K → c'.K = c.K → c'.S = c.S →
      c'.P = c.P → SameNet (Conv.mod c) (Conv.mod c') fun i => i
  | pool {X Y : Type} (c c' : Pool.Cfg X Y) : c.dil = 1 → 1 ≤ c.K → 1 ≤ c.S → c.P < c.K → c'.K = c.K → c'.S = c.S → c'.P = c.P →
      c'.dil = 1 → SameNet (Pool.mod c) (Pool.mod c') fun i => i
  | delay {X : Type} (c : Delay.Cfg X) : SameNet (Delay.mod c) (Delay.mod c) fun i => i
  | pointwise {X Y : Type} (f f' : X → Y) : SameNet (Pointwise.mod f) (Pointwise.mod f') fun i => i
  | single {X Y : Type} {m m' : CoMod (.stream X) (.stream Y)} {e : m.Inst → m'.Inst} : SameNet m m' e →
      SameNet (Sequential.mod (.single m)) (Sequential.mod (.single m')) e
  | cons {X Y Z : Type} {m m' : CoMod (.stream X) (.stream Y)} {c c' : Chain (.stream Y) (.stream Z)} {e : m.Inst → m'.Inst}
      {e' : c.Inst → c'.Inst} : SameNet m m' e → SameNet (Sequential.mod c) (Sequential.mod c') e' →
      SameNet (Sequential.mod (.cons m c)) (Sequential.mod (.cons m' c')) fun i => (e i.1, e' i.2)
  | branches {X Y Z : Type} {ms ms' : List (CoMod (.stream X) (.stream Y))}
      {e : BroadcastReduce.Inst ms → BroadcastReduce.Inst ms'} (r : Reducer Y Z) : ms ≠ [] → SameAll ms ms' e →
      (∀ ys, ys.length = ms.length → ∃ z, r.frame ys = .ok z) → SameNet (BroadcastReduce.mod r ms) (BroadcastReduce.mod r ms') e

/-- The same for the branches of a BroadcastReduce, which have stride 1. -/
inductive SameAll : {X Y : Type} → (ms ms' : List (CoMod (.stream X) (.stream Y))) →
    (BroadcastReduce.Inst ms → BroadcastReduce.Inst ms') → Prop where
  | nil {X Y : Type} : SameAll ([] : List (CoMod (.stream X) (.stream Y))) [] fun i => i
  | cons {X Y : Type} {m m' : CoMod (.stream X) (.stream Y)} {ms ms' : List (CoMod (.stream X) (.stream Y))}
      {e : m.Inst → m'.Inst} {e' : BroadcastReduce.Inst ms → BroadcastReduce.Inst ms'} :
      SameNet m m' e → m'.stride = 1 → SameAll ms ms' e' → SameAll (m :: ms) (m' :: ms') fun i => (e i.1, e' i.2)
end

/-- What the two networks have in common while they process the same number of frames: `A` holds from the start, `On` from
the first output on. -/
structure Lock {X Y : Type} (M M' : CoMod (.stream X) (.stream Y)) (e : M.Inst → M'.Inst) (D : M'.Inst → M'.Inst → Prop)
    (A On : M.Inst → M'.Inst → Prop) : Prop where
  init : A M.init M'.init
  step : ∀ {i j}, A i j → ∀ x x', ∃ o o' i' j', M.step i true x = .ok (o, i') ∧ M'.step j true x' = .ok (o', j') ∧
    o.isSome = o'.isSome ∧ A i' j' ∧ (o.isSome ∨ On i j → On i' j')
  on : ∀ {i j}, On i j → D j (e i)

/-- The same for branches. -/
structure LockAll {X Y : Type} (ms ms' : List (CoMod (.stream X) (.stream Y))) (e : BroadcastReduce.Inst ms → BroadcastReduce.Inst ms')
    (D : BroadcastReduce.Inst ms' → BroadcastReduce.Inst ms' → Prop) (A On : BroadcastReduce.Inst ms → BroadcastReduce.Inst ms' → Prop) :
    Prop where
  len : ms'.length = ms.length
  init : A (BroadcastReduce.init ms) (BroadcastReduce.init ms')
  step : ∀ {i j}, A i j → ∀ x x', ∃ os os' i' j', BroadcastReduce.stepAll ms i true x = .ok (os, i') ∧
    BroadcastReduce.stepAll ms' j true x' = .ok (os', j') ∧ os.length = ms.length ∧ os.map Option.isSome = os'.map Option.isSome ∧ A i' j' ∧
    ((∀ o ∈ os, o.isSome) ∨ On i j → On i' j')
  on : ∀ {i j}, On i j → D j (e i)

/-! ### Members -/

section leaves
variable {X Y : Type}

/-- Convolutions with the same geometry. -/
def ConvA [Zero X] [Zero Y] [Add Y] (c : Conv.Cfg X Y) (i j : Conv.St Y) : Prop :=
  (i.buffer = [] ∧ j.buffer = []) ∨
    (i.index = j.index ∧ 0 ≤ i.index ∧ i.index < ((c.K - 1 : Nat) : Int) ∧ i.strideIndex = j.strideIndex ∧
      (-(c.K : Int) ≤ i.strideIndex ∧ i.strideIndex ≤ (c.S : Int) - 1) ∧ i.buffer.length = c.K - 1 ∧ j.buffer.length = c.K - 1 ∧
      (∀ r ∈ i.buffer, r.length = c.K - 1) ∧ ∀ r ∈ j.buffer, r.length = c.K - 1)

theorem nextStride_on {S K : Nat} (hS : 0 < S) {si : Int} (h : -(K : Int) ≤ si ∧ si ≤ (S : Int) - 1) :
    (-(K : Int) ≤ Conv.nextStride S si ∧ Conv.nextStride S si ≤ (S : Int) - 1) ∧ (si = (S : Int) - 1 ∨ 0 ≤ si → 0 ≤ Conv.nextStride S si) := by
  unfold Conv.nextStride
  simp only
  split
  · have h1 := Int.emod_nonneg (si + 1) (show (S : Int) ≠ 0 by omega)
    have h2 := Int.emod_lt_of_pos (si + 1) (show (0 : Int) < S by omega)
    exact ⟨by omega, fun _ => h1⟩
  · exact ⟨by omega, fun h => by omega⟩

/-- A step of a convolution on any state of the right shape. -/
theorem conv_step [Zero X] [Zero Y] [Add Y] (c : Conv.Cfg X Y) (hK : 2 ≤ c.K) (i : Conv.St Y) (x : X)
    (h : i.buffer = [] ∨ (0 ≤ i.index ∧ i.index < ((c.K - 1 : Nat) : Int) ∧ i.buffer.length = c.K - 1 ∧
      ∀ r ∈ i.buffer, r.length = c.K - 1)) :
    ∃ o b, (Conv.mod c).step i true x = .ok (o, ⟨b, ((if i.buffer = [] then 0 else i.index) + 1) % ((c.K - 1 : Nat) : Int),
        Conv.nextStride c.S (if i.buffer = [] then convStart c else i.strideIndex)⟩) ∧
      (o.isSome ↔ (if i.buffer = [] then convStart c else i.strideIndex) = (c.S : Int) - 1) ∧ b.length = c.K - 1 ∧
      ∀ r ∈ b, r.length = c.K - 1 := by
  have hst : Conv.stateless c = false := by simp [Conv.stateless]; omega
  by_cases hb : i.buffer = []
  · have hrow : ∀ r ∈ List.replicate (c.K - 1) (Conv.padRest c ((Conv.taps c x).drop 1)), r.length = c.K - 1 := by
      intro r hr
      rw [(List.mem_replicate.1 hr).2]
      unfold Conv.padRest
      cases c.fill <;> simp [Conv.taps]
    obtain ⟨o, e, p1, p2, p3, p4⟩ := conv_some c hK (b := List.replicate (c.K - 1) (Conv.padRest c ((Conv.taps c x).drop 1))) (by simp) hrow
      (le_refl (0 : Int)) (by omega) (convStart c) x
    simp only [if_pos hb]
    refine ⟨o, e, ?_, p2, by rw [Pool.pySet_length p3]; simp, p4⟩
    have hg : (Conv.leaf c).get i = none := by simp [hb]
    have hn : Conv.pstep c x none = Conv.pstep c x (some (Conv.initState c ((Conv.taps c x).drop 1))) := by
      unfold Conv.pstep
      rw [hst]
      rfl
    show ((Conv.leaf c).pstep x ((Conv.leaf c).get i) >>= _) = _
    have e' : (Conv.leaf c).pstep x ((Conv.leaf c).get i) = .ok (o, some ⟨e, (0 + 1) % ((c.K - 1 : Nat) : Int), Conv.nextStride c.S (convStart c)⟩) := by
      rw [hg]
      exact hn.trans p1
    rw [e']; rfl
  · rcases h with h | ⟨h0, h1, h2, h3⟩
    · exact absurd h hb
    obtain ⟨o, e, p1, p2, p3, p4⟩ := conv_some c hK h2 h3 h0 h1 i.strideIndex x
    simp only [if_neg hb]
    refine ⟨o, e, ?_, p2, by rw [Pool.pySet_length p3, h2], p4⟩
    have hg : (Conv.leaf c).get i = some i := if_pos (List.length_pos_iff.2 hb)
    show ((Conv.leaf c).pstep x ((Conv.leaf c).get i) >>= _) = _
    have e' : (Conv.leaf c).pstep x ((Conv.leaf c).get i) = .ok (o, some ⟨e, (i.index + 1) % ((c.K - 1 : Nat) : Int), Conv.nextStride c.S i.strideIndex⟩) := by
      rw [hg]
      exact p1
    rw [e']; rfl

theorem conv_lock [Zero X] [Zero Y] [Add Y] (c c' : Conv.Cfg X Y) (hK : 2 ≤ c.K) (hS : 1 ≤ c.S) (hP : c.P < c.K) (eK : c'.K = c.K)
    (eS : c'.S = c.S) (eP : c'.P = c.P) : Lock (Conv.mod c) (Conv.mod c') (fun i => i)
      (fun i j => i.index = j.index ∧ 0 ≤ i.index ∧ i.index < ((c'.K - 1 : Nat) : Int) ∧
        i.strideIndex = j.strideIndex ∧ 0 ≤ i.strideIndex ∧ i.strideIndex < c'.S ∧
        i.buffer.length = c'.K - 1 ∧ j.buffer.length = c'.K - 1 ∧
        (∀ r ∈ i.buffer, r.length = c'.K - 1) ∧ ∀ r ∈ j.buffer, r.length = c'.K - 1)
      (ConvA c) (fun i j => ConvA c i j ∧ i.buffer ≠ [] ∧ 0 ≤ i.strideIndex) where
  init := .inl ⟨rfl, rfl⟩
  step := by
    intro i j h x x'
    have hne : ∀ {b : List (List Y)}, b.length = c.K - 1 → b ≠ [] := by
      rintro b hb rfl; simp at hb; omega
    have hs : convStart c' = convStart c := by unfold convStart; rw [eK, eS, eP]
    have hstart : -(c.K : Int) ≤ convStart c ∧ convStart c ≤ (c.S : Int) - 1 := by unfold convStart; omega
    obtain ⟨o, b, s1, s2, s3, s4⟩ := conv_step c hK i x (by
      rcases h with ⟨h, _⟩ | ⟨h1, h2, h3, h4, h5, h6, h7, h8, h9⟩
      · exact .inl h
      · exact .inr ⟨h2, h3, h6, h8⟩)
    obtain ⟨o', b', t1, t2, t3, t4⟩ := conv_step c' (by omega) j x' (by
      rw [eK]
      rcases h with ⟨_, h⟩ | ⟨h1, h2, h3, h4, h5, h6, h7, h8, h9⟩
      · exact .inl h
      · exact .inr ⟨by omega, by omega, h7, h9⟩)
    rw [eS, hs] at t2
    rw [eK] at t3 t4
    simp only [eK, eS, hs] at t1
    have key : (if i.buffer = [] then 0 else i.index) = (if j.buffer = [] then 0 else j.index) ∧
        (if i.buffer = [] then convStart c else i.strideIndex) = (if j.buffer = [] then convStart c else j.strideIndex) ∧
        (-(c.K : Int) ≤ (if i.buffer = [] then convStart c else i.strideIndex) ∧
          (if i.buffer = [] then convStart c else i.strideIndex) ≤ (c.S : Int) - 1) := by
      rcases h with ⟨ha, hb⟩ | ⟨h1, h2, h3, h4, h5, h6, h7, h8, h9⟩
      · simp only [if_pos ha, if_pos hb]; exact ⟨trivial, trivial, hstart⟩
      · simp only [if_neg (hne h6), if_neg (hne h7)]; exact ⟨h1, h4, h5⟩
    obtain ⟨k1, k2, k3⟩ := key
    have hx0 := Int.emod_nonneg ((if i.buffer = [] then 0 else i.index) + 1) (show ((c.K - 1 : Nat) : Int) ≠ 0 by omega)
    have hx1 := Int.emod_lt_of_pos ((if i.buffer = [] then 0 else i.index) + 1) (show (0 : Int) < ((c.K - 1 : Nat) : Int) by omega)
    obtain ⟨n1, n2⟩ := nextStride_on (S := c.S) (by omega) k3
    have hA : ConvA c ⟨b, ((if i.buffer = [] then 0 else i.index) + 1) % ((c.K - 1 : Nat) : Int),
        Conv.nextStride c.S (if i.buffer = [] then convStart c else i.strideIndex)⟩
        ⟨b', ((if j.buffer = [] then 0 else j.index) + 1) % ((c.K - 1 : Nat) : Int),
        Conv.nextStride c.S (if j.buffer = [] then convStart c else j.strideIndex)⟩ :=
      .inr ⟨by simp only [k1], hx0, hx1, by simp only [k2], n1, s3, t3, s4, t4⟩
    refine ⟨o, o', _, _, s1, t1, ?_, hA, fun ho => ⟨hA, hne s3, ?_⟩⟩
    · rw [Bool.eq_iff_iff, s2, t2, k2]
    · rcases ho with ho | ⟨_, hb, h0⟩
      · exact n2 (.inl (s2.1 ho))
      · exact n2 (.inr (by rw [if_neg hb]; exact h0))
  on := by
    rintro i j ⟨h, hb, h0⟩
    rcases h with ⟨h, _⟩ | ⟨h1, h2, h3, h4, h5, h6, h7, h8, h9⟩
    · exact absurd h hb
    · rw [eK, eS]
      exact ⟨h1.symm, by omega, by omega, h4.symm, by omega, by omega, h7, h6, h9, h8⟩

/-- Pools with the same geometry. -/
def PoolA (c : Pool.Cfg X Y) (i j : Pool.St Y) : Prop :=
  (i.buffer = [] ∧ j.buffer = []) ∨
    (i.index = j.index ∧ 0 ≤ i.index ∧ i.index < (c.K : Int) ∧ i.strideIndex = j.strideIndex ∧
      (-(c.K : Int) ≤ i.strideIndex ∧ i.strideIndex ≤ (c.S : Int) - 1) ∧ i.buffer.length = c.K ∧ j.buffer.length = c.K)

/-- A step of a pool on any state of the right shape. -/
theorem pool_step (c : Pool.Cfg X Y) (hd : c.dil = 1) (hK : 1 ≤ c.K) (i : Pool.St Y) (x : X)
    (h : i.buffer = [] ∨ (0 ≤ i.index ∧ i.index < (c.K : Int) ∧ i.buffer.length = c.K)) :
    ∃ o b, (Pool.mod c).step i true x = .ok (o, ⟨b, ((if i.buffer = [] then 0 else i.index) + 1) % (c.K : Int),
        Conv.nextStride c.S (if i.buffer = [] then poolStart c else i.strideIndex)⟩) ∧
      (o.isSome ↔ (if i.buffer = [] then poolStart c else i.strideIndex) = (c.S : Int) - 1) ∧ b.length = c.K := by
  have hlen : Pool.bufLen c = c.K := by simp [Pool.bufLen, hd]; omega
  by_cases hb : i.buffer = []
  · obtain ⟨e, p3, p1⟩ := pool_some c hd hK (b := List.replicate (Pool.bufLen c) (c.fillOut (c.spatial x))) (by simp [hlen])
      (le_refl (0 : Int)) (by omega) (poolStart c) x
    simp only [if_pos hb]
    refine ⟨if poolStart c = (c.S : Int) - 1 then some (c.pool e) else none, e, ?_, by split <;> simp [*], by rw [Pool.pySet_length p3]; simp [hlen]⟩
    have hg : (Pool.leaf c).get i = none := by simp [hb]
    show ((Pool.leaf c).pstep x ((Pool.leaf c).get i) >>= _) = _
    have e' : (Pool.leaf c).pstep x ((Pool.leaf c).get i) = .ok (if poolStart c = (c.S : Int) - 1 then some (c.pool e) else none,
        some ⟨e, (0 + 1) % (c.K : Int), Conv.nextStride c.S (poolStart c)⟩) := by
      rw [hg]
      exact (show Pool.pstep c x none = Pool.pstep c x (some (Pool.initState c (c.spatial x))) from rfl).trans p1
    rw [e']; rfl
  · rcases h with h | ⟨h0, h1, h2⟩
    · exact absurd h hb
    obtain ⟨e, p3, p1⟩ := pool_some c hd hK h2 h0 h1 i.strideIndex x
    simp only [if_neg hb]
    refine ⟨if i.strideIndex = (c.S : Int) - 1 then some (c.pool e) else none, e, ?_, by split <;> simp [*], by rw [Pool.pySet_length p3, h2]⟩
    have hg : (Pool.leaf c).get i = some i := if_pos (List.length_pos_iff.2 hb)
    show ((Pool.leaf c).pstep x ((Pool.leaf c).get i) >>= _) = _
    have e' : (Pool.leaf c).pstep x ((Pool.leaf c).get i) = .ok (if i.strideIndex = (c.S : Int) - 1 then some (c.pool e) else none,
        some ⟨e, (i.index + 1) % (c.K : Int), Conv.nextStride c.S i.strideIndex⟩) := by
      rw [hg]
      exact p1
    rw [e']; rfl

theorem pool_lock (c c' : Pool.Cfg X Y) (hd : c.dil = 1) (hK : 1 ≤ c.K) (hS : 1 ≤ c.S) (hP : c.P < c.K) (eK : c'.K = c.K)
    (eS : c'.S = c.S) (eP : c'.P = c.P) (hd' : c'.dil = 1) : Lock (Pool.mod c) (Pool.mod c') (fun i => i)
      (fun i j => i.index = j.index ∧ 0 ≤ i.index ∧ i.index < c'.K ∧
        i.strideIndex = j.strideIndex ∧ 0 ≤ i.strideIndex ∧ i.strideIndex < c'.S ∧
        i.buffer.length = c'.K ∧ j.buffer.length = c'.K)
      (PoolA c) (fun i j => PoolA c i j ∧ i.buffer ≠ [] ∧ 0 ≤ i.strideIndex) where
  init := .inl ⟨rfl, rfl⟩
  step := by
    intro i j h x x'
    have hne : ∀ {b : List Y}, b.length = c.K → b ≠ [] := by
      rintro b hb rfl; simp at hb; omega
    have hl : Pool.bufLen c = c.K := by simp [Pool.bufLen, hd]; omega
    have hl' : Pool.bufLen c' = c'.K := by simp [Pool.bufLen, hd']; omega
    have hs : poolStart c' = poolStart c := by unfold poolStart; rw [hl, hl', eK, eS, eP]
    have hstart : -(c.K : Int) ≤ poolStart c ∧ poolStart c ≤ (c.S : Int) - 1 := by unfold poolStart; rw [hl]; omega
    obtain ⟨o, b, s1, s2, s3⟩ := pool_step c hd hK i x (by
      rcases h with ⟨h, _⟩ | ⟨h1, h2, h3, h4, h5, h6, h7⟩
      · exact .inl h
      · exact .inr ⟨h2, h3, h6⟩)
    obtain ⟨o', b', t1, t2, t3⟩ := pool_step c' hd' (by omega) j x' (by
      rw [eK]
      rcases h with ⟨_, h⟩ | ⟨h1, h2, h3, h4, h5, h6, h7⟩
      · exact .inl h
      · exact .inr ⟨by omega, by omega, h7⟩)
    rw [eS, hs] at t2
    rw [eK] at t3
    simp only [eK, eS, hs] at t1
    have key : (if i.buffer = [] then 0 else i.index) = (if j.buffer = [] then 0 else j.index) ∧
        (if i.buffer = [] then poolStart c else i.strideIndex) = (if j.buffer = [] then poolStart c else j.strideIndex) ∧
        (-(c.K : Int) ≤ (if i.buffer = [] then poolStart c else i.strideIndex) ∧
          (if i.buffer = [] then poolStart c else i.strideIndex) ≤ (c.S : Int) - 1) := by
      rcases h with ⟨ha, hb⟩ | ⟨h1, h2, h3, h4, h5, h6, h7⟩
      · simp only [if_pos ha, if_pos hb]; exact ⟨trivial, trivial, hstart⟩
      · simp only [if_neg (hne h6), if_neg (hne h7)]; exact ⟨h1, h4, h5⟩
    obtain ⟨k1, k2, k3⟩ := key
    have hx0 := Int.emod_nonneg ((if i.buffer = [] then 0 else i.index) + 1) (show (c.K : Int) ≠ 0 by omega)
    have hx1 := Int.emod_lt_of_pos ((if i.buffer = [] then 0 else i.index) + 1) (show (0 : Int) < (c.K : Int) by omega)
    obtain ⟨n1, n2⟩ := nextStride_on (S := c.S) (by omega) k3
    have hA : PoolA c ⟨b, ((if i.buffer = [] then 0 else i.index) + 1) % (c.K : Int),
        Conv.nextStride c.S (if i.buffer = [] then poolStart c else i.strideIndex)⟩
        ⟨b', ((if j.buffer = [] then 0 else j.index) + 1) % (c.K : Int),
        Conv.nextStride c.S (if j.buffer = [] then poolStart c else j.strideIndex)⟩ :=
      .inr ⟨by simp only [k1], hx0, hx1, by simp only [k2], n1, s3, t3⟩
    refine ⟨o, o', _, _, s1, t1, ?_, hA, fun ho => ⟨hA, hne s3, ?_⟩⟩
    · rw [Bool.eq_iff_iff, s2, t2, k2]
    · rcases ho with ho | ⟨_, hb, h0⟩
      · exact n2 (.inl (s2.1 ho))
      · exact n2 (.inr (by rw [if_neg hb]; exact h0))
  on := by
    rintro i j ⟨h, hb, h0⟩
    rcases h with ⟨h, _⟩ | ⟨h1, h2, h3, h4, h5, h6, h7⟩
    · exact absurd h hb
    · rw [eK, eS]
      exact ⟨h1.symm, by omega, by omega, h4.symm, by omega, by omega, h7, h6⟩

/-- Delays. -/
def DelayA (c : Delay.Cfg X) (i j : Delay.St X) : Prop := DelayRel c (2 * c.d) c.d i j ∧ (c.d = 0 → i = ([], 0) ∧ j = ([], 0))

theorem delay_lock (c : Delay.Cfg X) : Lock (Delay.mod c) (Delay.mod c) (fun i => i)
      (fun i j => i.2 = j.2 ∧ 0 ≤ i.2 ∧ (c.d ≠ 0 → i.2 < c.d) ∧ i.1.length = c.d ∧ j.1.length = c.d)
      (DelayA c) (fun i j => DelayA c i j ∧ (c.d ≠ 0 → DelayRel c 0 c.d i j)) where
  init := ⟨.inr (.inl ⟨rfl, rfl, by unfold delayStart; split <;> push_cast <;> omega⟩), fun _ => ⟨rfl, rfl⟩⟩
  step := by
    rintro i j ⟨h, h0⟩ x x'
    by_cases hd : c.d = 0
    · refine ⟨some x, some x', i, j, if_pos hd, if_pos hd, rfl, ⟨h, h0⟩, fun _ => ⟨⟨h, h0⟩, fun h => absurd hd h⟩⟩
    · obtain ⟨o, o', i', j', g1, g2, g3, g4, g5, g6, _⟩ := (delay_forgets c (2 * c.d)).step h x x'
      refine ⟨o, o', i', j', g1, g2, by rw [Bool.eq_iff_iff, g3, g4], ⟨g6, fun h => absurd h hd⟩, fun ho => ⟨⟨g6, fun h => absurd h hd⟩, fun _ => ?_⟩⟩
      have hr : DelayRel c 0 c.d i j := by
        rcases ho with ho | ⟨_, ho⟩
        · have hq := g3.1 ho
          have hs : delayStart c < 0 := by unfold delayStart; split <;> omega
          rcases h with h | ⟨h1, h2, h3⟩ | ⟨h1, h2, h3, h4⟩
          · exact absurd h hd
          · simp only [delayQuiet, if_neg hd, if_pos h1] at hq; omega
          · have hi : i.1 ≠ [] := by intro h0; have := h4.len; rw [h0] at this; simp at this; omega
            simp only [delayQuiet, if_neg hd, if_neg hi] at hq
            exact .inr (.inr ⟨h1, by simp; omega, h3, h4⟩)
        · exact ho hd
      obtain ⟨p, p', u, v, k1, k2, k3, k4, k5, k6, _⟩ := (delay_forgets c 0).step hr x x'
      rw [g1] at k1
      rw [g2] at k2
      obtain ⟨rfl, rfl⟩ := Prod.mk.inj (Except.ok.inj k1)
      obtain ⟨rfl, rfl⟩ := Prod.mk.inj (Except.ok.inj k2)
      exact k6
  on := by
    rintro i j ⟨⟨h, h0⟩, h1⟩
    by_cases hd : c.d = 0
    · obtain ⟨rfl, rfl⟩ := h0 hd
      exact ⟨rfl, le_refl _, fun h => absurd hd h, by simp [hd], by simp [hd]⟩
    · have hs : delayStart c < 0 := by unfold delayStart; split <;> omega
      rcases h1 hd with h | ⟨_, _, h3⟩ | ⟨h1, h2, h3, h4⟩
      · exact absurd h hd
      · simp at h3; omega
      · exact ⟨h1.symm, by simp at h2; omega, fun _ => by omega, h4.len', h4.len⟩

end leaves

/-! ### Containers -/

section containers
variable {X Y Z : Type}

theorem cons_lock {m m' : CoMod (.stream X) (.stream Y)} {c c' : Chain (.stream Y) (.stream Z)} {e : m.Inst → m'.Inst}
    {e' : c.Inst → c'.Inst} {D1 : m'.Inst → m'.Inst → Prop} {D2 : c'.Inst → c'.Inst → Prop} {A1 On1 : m.Inst → m'.Inst → Prop}
    {A2 On2 : c.Inst → c'.Inst → Prop} (h1 : Lock m m' e D1 A1 On1) (h2 : Lock (Sequential.mod c) (Sequential.mod c') e' D2 A2 On2) :
    Lock (Sequential.mod (.cons m c)) (Sequential.mod (.cons m' c')) (fun i => (e i.1, e' i.2)) (fun i j => D1 i.1 j.1 ∧ D2 i.2 j.2)
      (fun i j => A1 i.1 j.1 ∧ A2 i.2 j.2) (fun i j => On1 i.1 j.1 ∧ On2 i.2 j.2) where
  init := ⟨h1.init, h2.init⟩
  step := by
    rintro ⟨i1, i2⟩ ⟨j1, j2⟩ ⟨a1, a2⟩ x x'
    obtain ⟨o, o', i1', j1', s1, s2, s3, s4, s5⟩ := h1.step a1 x x'
    have s1' : m.step i1 true x = .ok (o, i1') := s1
    have s2' : m'.step j1 true x' = .ok (o', j1') := s2
    cases o with
    | none =>
      have ho' : o' = none := by cases o' with
        | none => rfl
        | some _ => simp at s3
      subst ho'
      refine ⟨none, none, (i1', i2), (j1', j2), ?_, ?_, rfl, ⟨s4, a2⟩, ?_⟩
      · show Chain.step (.cons m c) (i1, i2) true x = _
        simp only [Chain.step, s1', ok_bind]; rfl
      · show Chain.step (.cons m' c') (j1, j2) true x' = _
        simp only [Chain.step, s2', ok_bind]; rfl
      · rintro (h | ⟨b1, b2⟩)
        · exact absurd h (by simp)
        · exact ⟨s5 (.inr b1), b2⟩
    | some y =>
      obtain ⟨y', rfl⟩ : ∃ y', o' = some y' := Option.isSome_iff_exists.1 (s3 ▸ rfl)
      obtain ⟨z, z', i2', j2', t1, t2, t3, t4, t5⟩ := h2.step a2 y y'
      have t1' : Chain.step c i2 true y = .ok (z, i2') := t1
      have t2' : Chain.step c' j2 true y' = .ok (z', j2') := t2
      refine ⟨z, z', (i1', i2'), (j1', j2'), ?_, ?_, t3, ⟨s4, t4⟩, ?_⟩
      · show Chain.step (.cons m c) (i1, i2) true x = _
        simp only [Chain.step, s1', ok_bind, t1']; rfl
      · show Chain.step (.cons m' c') (j1, j2) true x' = _
        simp only [Chain.step, s2', ok_bind, t2']; rfl
      · rintro (h | ⟨b1, b2⟩)
        · exact ⟨s5 (.inl rfl), t5 (.inl h)⟩
        · exact ⟨s5 (.inr b1), t5 (.inr b2)⟩
  on := fun h => ⟨h1.on h.1, h2.on h.2⟩

theorem branch_cons_lock {m m' : CoMod (.stream X) (.stream Y)} {ms ms' : List (CoMod (.stream X) (.stream Y))} {e : m.Inst → m'.Inst}
    {e' : BroadcastReduce.Inst ms → BroadcastReduce.Inst ms'} {D1 : m'.Inst → m'.Inst → Prop}
    {D2 : BroadcastReduce.Inst ms' → BroadcastReduce.Inst ms' → Prop} {A1 On1 : m.Inst → m'.Inst → Prop}
    {A2 On2 : BroadcastReduce.Inst ms → BroadcastReduce.Inst ms' → Prop} (h1 : Lock m m' e D1 A1 On1) (h2 : LockAll ms ms' e' D2 A2 On2) :
    LockAll (m :: ms) (m' :: ms') (fun i => (e i.1, e' i.2)) (fun i j => D1 i.1 j.1 ∧ D2 i.2 j.2)
      (fun i j => A1 i.1 j.1 ∧ A2 i.2 j.2) (fun i j => On1 i.1 j.1 ∧ On2 i.2 j.2) where
  len := by simp [h2.len]
  init := ⟨h1.init, h2.init⟩
  step := by
    rintro ⟨i1, i2⟩ ⟨j1, j2⟩ ⟨a1, a2⟩ x x'
    obtain ⟨o, o', i1', j1', s1, s2, s3, s4, s5⟩ := h1.step a1 x x'
    obtain ⟨os, os', i2', j2', t1, t2, t0, t3, t4, t5⟩ := h2.step a2 x x'
    have s1' : m.step i1 true x = .ok (o, i1') := s1
    have s2' : m'.step j1 true x' = .ok (o', j1') := s2
    refine ⟨o :: os, o' :: os', (i1', i2'), (j1', j2'), ?_, ?_, by simp [t0], by simp [s3, t3], ⟨s4, t4⟩, ?_⟩
    · simp only [BroadcastReduce.stepAll, s1', t1, bind, Except.bind, pure, Except.pure]
    · simp only [BroadcastReduce.stepAll, s2', t2, bind, Except.bind, pure, Except.pure]
    · rintro (h | ⟨b1, b2⟩)
      · exact ⟨s5 (.inl (h _ (by simp))), t5 (.inl fun p hp => h p (by simp [hp]))⟩
      · exact ⟨s5 (.inr b1), t5 (.inr b2)⟩
  on := fun h => ⟨h1.on h.1, h2.on h.2⟩

/-- Either all branches have an output, or there is none. -/
theorem allSome_cases {α : Type} : ∀ l : List (Option α), (∃ ys : List α, l = ys.map some) ∨ (allSome l = none ∧ ¬ ∀ o ∈ l, o.isSome)
  | [] => .inl ⟨[], rfl⟩
  | none :: l => .inr ⟨rfl, fun h => by simpa using h none (by simp)⟩
  | some a :: l => by
    rcases allSome_cases l with ⟨ys, rfl⟩ | ⟨h1, h2⟩
    · exact .inl ⟨a :: ys, rfl⟩
    · exact .inr ⟨by simp [allSome, h1], fun h => h2 fun o ho => h o (by simp [ho])⟩

theorem branches_lock {ms ms' : List (CoMod (.stream X) (.stream Y))} {e : BroadcastReduce.Inst ms → BroadcastReduce.Inst ms'}
    {D : BroadcastReduce.Inst ms' → BroadcastReduce.Inst ms' → Prop} {A On : BroadcastReduce.Inst ms → BroadcastReduce.Inst ms' → Prop}
    (h : LockAll ms ms' e D A On) (r : Reducer Y Z) (hr : ∀ ys, ys.length = ms.length → ∃ z, r.frame ys = .ok z) :
    Lock (BroadcastReduce.mod r ms) (BroadcastReduce.mod r ms') e D A On where
  init := h.init
  step := by
    intro i j a x x'
    obtain ⟨os, os', i', j', t1, t2, t0, t3, t4, t5⟩ := h.step a x x'
    have hl : os'.length = ms.length := by
      have := congrArg List.length t3
      simp only [List.length_map] at this
      omega
    have hall : (∀ o ∈ os, o.isSome) ↔ ∀ o ∈ os', o.isSome := by
      have e1 : ∀ l : List (Option Y), (∀ o ∈ l, o.isSome) ↔ ∀ b ∈ l.map Option.isSome, b = true := by
        intro l; simp
      rw [e1 os, e1 os', t3]
    rcases allSome_cases os with ⟨ys, rfl⟩ | ⟨g1, g2⟩
    · rcases allSome_cases os' with ⟨ys', rfl⟩ | ⟨_, g2'⟩
      · obtain ⟨z, hz⟩ := hr ys (by simpa using t0)
        obtain ⟨z', hz'⟩ := hr ys' (by simpa using hl)
        refine ⟨some z, some z', i', j', ?_, ?_, rfl, t4, fun _ => t5 (.inl (by simp))⟩
        · show BroadcastReduce.step r ms i true x = _
          simp only [BroadcastReduce.step, t1, nonempty, allSome_some, hz, bind, Except.bind, pure, Except.pure, Except.map]
        · show BroadcastReduce.step r ms' j true x' = _
          simp only [BroadcastReduce.step, t2, nonempty, allSome_some, hz', bind, Except.bind, pure, Except.pure, Except.map]
      · exact absurd (hall.1 (by simp)) g2'
    · rcases allSome_cases os' with ⟨ys', rfl⟩ | ⟨g1', g2'⟩
      · exact absurd (hall.2 (by simp)) g2
      · refine ⟨none, none, i', j', ?_, ?_, rfl, t4, ?_⟩
        · show BroadcastReduce.step r ms i true x = _
          simp only [BroadcastReduce.step, t1, nonempty, g1, bind, Except.bind, pure, Except.pure]
        · show BroadcastReduce.step r ms' j true x' = _
          simp only [BroadcastReduce.step, t2, nonempty, g1', bind, Except.bind, pure, Except.pure]
        · rintro (h | h)
          · exact absurd h (by simp)
          · exact t5 (.inr h)
  on := h.on

end containers

theorem sameNet_lock {X Y : Type} {M M' : CoMod (.stream X) (.stream Y)} {e : M.Inst → M'.Inst} (h : SameNet M M' e) :
    ∃ D A On, Running M' D ∧ Lock M M' e D A On := by
  refine SameNet.rec (motive_1 := fun M M' e _ => ∃ D A On, Running M' D ∧ Lock M M' e D A On)
    (motive_2 := fun ms ms' e _ => ∃ D A On, RunningAll ms' D ∧ LockAll ms ms' e D A On) ?_ ?_ ?_ ?_ ?_ ?_ ?_ ?_ ?_ h
  · intro X Y _ _ _ c c' hK hS hP eK eS eP
    exact ⟨_, _, _, .conv c' (by omega) (by omega) (by omega), conv_lock c c' hK hS hP eK eS eP⟩
  · intro X Y c c' hd hK hS hP eK eS eP hd'
    exact ⟨_, _, _, .pool c' hd' (by omega) (by omega) (by omega), pool_lock c c' hd hK hS hP eK eS eP hd'⟩
  · intro X c
    exact ⟨_, _, _, .delay c, delay_lock c⟩
  · intro X Y f f'
    refine ⟨_, fun _ _ => True, fun _ _ => True, .pointwise f', ⟨trivial, ?_, fun _ => trivial⟩⟩
    intro i j _ x x'
    exact ⟨some (f x), some (f' x'), i, j, rfl, rfl, rfl, trivial, fun _ => trivial⟩
  · rintro X Y m m' e _ ⟨D, A, On, h1, h2⟩
    exact ⟨D, A, On, .single h1, ⟨h2.init, h2.step, h2.on⟩⟩
  · rintro X Y Z m m' c c' e e' _ _ ⟨D, A, On, h1, h2⟩ ⟨D', A', On', h3, h4⟩
    exact ⟨_, _, _, .cons h1 h3, cons_lock h2 h4⟩
  · rintro X Y Z ms ms' e r hne _ hr ⟨D, A, On, h1, h2⟩
    have hl := h2.len
    refine ⟨D, A, On, .branches r ?_ h1 (fun ys hy => hr ys (by omega)), branches_lock h2 r hr⟩
    rintro rfl
    exact hne (List.eq_nil_of_length_eq_zero hl.symm)
  · intro X Y
    refine ⟨_, fun _ _ => True, fun _ _ => True, .nil, ⟨rfl, trivial, ?_, fun _ => trivial⟩⟩
    intro i j _ x x'
    exact ⟨[], [], i, j, rfl, rfl, rfl, rfl, trivial, fun _ => trivial⟩
  · rintro X Y m m' ms ms' e e' _ hs _ ⟨D, A, On, h1, h2⟩ ⟨D', A', On', h3, h4⟩
    exact ⟨_, _, _, .cons h1 hs h3, branch_cons_lock h2 h4⟩

theorem lock_calls {X Y : Type} {M M' : CoMod (.stream X) (.stream Y)} {e : M.Inst → M'.Inst} {D A On} (h : Lock M M' e D A On) :
    ∀ (xs : List X) {i j}, A i j → ∃ os os' i' j', callSteps M i xs = .ok (os, i') ∧ callSteps M' j xs = .ok (os', j') ∧
      os.map Option.isSome = os'.map Option.isSome ∧ A i' j' ∧ ((∃ o ∈ os, o.isSome) ∨ On i j → On i' j')
  | [], i, j, a => ⟨[], [], i, j, rfl, rfl, rfl, a, by simp⟩
  | x :: xs, i, j, a => by
    obtain ⟨o, o', i1, j1, s1, s2, s3, s4, s5⟩ := h.step a x x
    obtain ⟨os, os', i2, j2, t1, t2, t3, t4, t5⟩ := lock_calls h xs s4
    refine ⟨o :: os, o' :: os', i2, j2, ?_, ?_, by simp [s3, t3], t4, ?_⟩
    · simp only [callSteps, s1, t1, bind, Except.bind, pure, Except.pure]
    · simp only [callSteps, s2, t2, bind, Except.bind, pure, Except.pure]
    · rintro (⟨p, hp, h⟩ | h)
      · rcases List.mem_cons.1 hp with rfl | hp
        · exact t5 (.inr (s5 (.inl h)))
        · exact t5 (.inl ⟨p, hp, h⟩)
      · exact t5 (.inr (s5 (.inr h)))

/-- **C85**: a network has processed the stream `h` and given its first output; then it gets other weights.  From the step
`receptive_field - 1` frames later on its outputs are those of the network that had the new weights all the time; before,
it gives outputs at the same steps, and no call raises. -/
theorem C85_network_partial {X Y : Type} {M M' : CoMod (.stream X) (.stream Y)} {e : M.Inst → M'.Inst} (hn : SameNet M M' e) (h : List X) :
    ∃ os os' i i', callSteps M M.init h = .ok (os, i) ∧ callSteps M' M'.init h = .ok (os', i') ∧
      os.map Option.isSome = os'.map Option.isSome ∧ ((∃ o ∈ os, o.isSome) → Recovers M' (M'.rf - 1) i' (e i)) := by
  obtain ⟨D, A, On, h1, h2⟩ := sameNet_lock hn
  obtain ⟨os, os', i, i', t1, t2, t3, _, t5⟩ := lock_calls h2 h h2.init
  exact ⟨os, os', i, i', t1, t2, t3, fun ho => C73_network h1 _ _ (h2.on (t5 (.inl ho)))⟩


/-! ### At any time -/

/-- **C85** for a convolution, at any time, also before its first output: after `kernel_size - 1` frames. -/
theorem C85_conv_partial {X Y : Type} [Zero X] [Zero Y] [Add Y] (c c' : Conv.Cfg X Y) (hK : 2 ≤ c.K) (hS : 1 ≤ c.S) (hP : c.P < c.K)
    (eK : c'.K = c.K) (eS : c'.S = c.S) (eP : c'.P = c.P) (h : List X) :
    ∃ os os' i i', callSteps (Conv.mod c) (Conv.mod c).init h = .ok (os, i) ∧ callSteps (Conv.mod c') (Conv.mod c').init h = .ok (os', i') ∧
      os.map Option.isSome = os'.map Option.isSome ∧ Recovers (Conv.mod c') (c'.K - 1) i' i := by
  have hl := conv_lock c c' hK hS hP eK eS eP
  obtain ⟨os, os', i, i', t1, t2, t3, t4, _⟩ := lock_calls hl h hl.init
  refine ⟨os, os', i, i', t1, t2, t3, (conv_forgets c' (by omega) (by omega) (by omega) c'.K).forgets.recovers ?_⟩
  rcases t4 with ⟨a, b⟩ | ⟨h1, h2, h3, h4, h5, h6, h7, h8, h9⟩
  · exact .inl ⟨b, a, by unfold convStart; omega⟩
  · refine .inr ⟨h1.symm, by omega, by rw [eK]; omega, h4.symm, by rw [eK]; omega, by rw [eS]; omega, Agree.trivial _ ?_ ?_, ?_, ?_⟩ <;> rw [eK]
    exacts [h7, h6, h9, h8]

/-- **C85** for a pool, at any time. -/
theorem C85_pool_partial {X Y : Type} (c c' : Pool.Cfg X Y) (hd : c.dil = 1) (hK : 1 ≤ c.K) (hS : 1 ≤ c.S) (hP : c.P < c.K)
    (eK : c'.K = c.K) (eS : c'.S = c.S) (eP : c'.P = c.P) (hd' : c'.dil = 1) (h : List X) :
    ∃ os os' i i', callSteps (Pool.mod c) (Pool.mod c).init h = .ok (os, i) ∧ callSteps (Pool.mod c') (Pool.mod c').init h = .ok (os', i') ∧
      os.map Option.isSome = os'.map Option.isSome ∧ Recovers (Pool.mod c') (c'.K - 1) i' i := by
  have hl := pool_lock c c' hd hK hS hP eK eS eP hd'
  obtain ⟨os, os', i, i', t1, t2, t3, t4, _⟩ := lock_calls hl h hl.init
  refine ⟨os, os', i, i', t1, t2, t3, (pool_forgets c' hd' (by omega) (by omega) (by omega) c'.K).forgets.recovers ?_⟩
  rcases t4 with ⟨a, b⟩ | ⟨h1, h2, h3, h4, h5, h6, h7⟩
  · exact .inl ⟨b, a, by simp [poolStart, Pool.bufLen, hd']; omega⟩
  · refine .inr ⟨h1.symm, by omega, by rw [eK]; omega, h4.symm, by rw [eK]; omega, by rw [eS]; omega, ?_⟩
    rw [show c'.K - 1 + 1 = c'.K by omega]
    exact Agree.trivial _ (by rw [eK]; exact h7) (by rw [eK]; exact h6)

/-! ### Attention -/

section attention
variable {X Y R A : Type}

/-- Both objects are fresh, or both have the same counter and memories of the same shape. -/
def BaseA {S : Type} (N : Nat) (ok : S → Prop) (i j : Option (S × Int)) : Prop :=
  (i = none ∧ j = none) ∨ ∃ s s' idx, i = some (s, idx) ∧ j = some (s', idx) ∧ idx ≤ 0 ∧ -(N : Int) ≤ idx ∧ ok s ∧ ok s'

/-- Two modules whose states have the same type. -/
theorem base_lock {O : Type} {S : Type} {n : Nat} (N : Nat) (hN : 1 ≤ N) {d d' : S} (dflt dflt' : Except Err S) (hd : dflt = .ok d)
    (hd' : dflt' = .ok d') (sdpa sdpa' : S → X → Except Err (O × S))
    (fwd fwd' : List X → Except Err (List O)) (dl dl' : Int) (ok : S → Prop) (SR : Nat → S → S → Prop) (h0 : ok d) (h0' : ok d')
    (hs : ∀ {s}, ok s → ∀ x, ∃ o t, sdpa s x = .ok (o, t) ∧ ok t) (hs' : ∀ {s}, ok s → ∀ x, ∃ o t, sdpa' s x = .ok (o, t) ∧ ok t)
    (hr : ∀ s s', ok s → ok s' → SR n s s') :
    Lock (Attn.Base.mod ⟨N, S, dflt, sdpa, fwd, dl⟩) (Attn.Base.mod ⟨N, S, dflt', sdpa', fwd', dl'⟩) (fun i => i)
      (AttnAny.BaseRel ⟨N, S, dflt', sdpa', fwd', dl'⟩ SR N n) (BaseA N ok) (BaseA N ok) where
  init := .inl ⟨rfl, rfl⟩
  step := by
    subst hd hd'
    intro i j h x x'
    obtain ⟨s, s', idx, e1, e2, e3, e4, e5, e6⟩ : ∃ s s' idx,
        Attn.start (⟨N, S, .ok d, sdpa, fwd, dl⟩ : Attn.Base X O) i = .ok (s, idx) ∧
        Attn.start (⟨N, S, .ok d', sdpa', fwd', dl'⟩ : Attn.Base X O) j = .ok (s', idx) ∧ idx ≤ 0 ∧ -(N : Int) ≤ idx ∧ ok s ∧ ok s' := by
      rcases h with ⟨rfl, rfl⟩ | ⟨s, s', idx, rfl, rfl, h1, h2, h3, h4⟩
      · exact ⟨d, d', -(N : Int), rfl, rfl, by omega, by omega, h0, h0'⟩
      · exact ⟨s, s', idx, rfl, rfl, h1, h2, h3, h4⟩
    obtain ⟨o, t, g1, g2⟩ := hs e5 x
    obtain ⟨o', t', g1', g2'⟩ := hs' e6 x'
    have hA : BaseA N ok (some (t, if idx < 0 then idx + 1 else idx)) (some (t', if idx < 0 then idx + 1 else idx)) :=
      .inr ⟨t, t', _, rfl, rfl, by split <;> omega, by split <;> omega, g2, g2'⟩
    refine ⟨if (if idx < 0 then idx + 1 else idx) < 0 then none else some o,
      if (if idx < 0 then idx + 1 else idx) < 0 then none else some o', some (t, if idx < 0 then idx + 1 else idx),
      some (t', if idx < 0 then idx + 1 else idx), ?_, ?_, ?_, hA, fun _ => hA⟩
    · show Attn.step _ i true x = _
      simp only [Attn.step, Attn.pstep, e1, g1, if_true]
    · show Attn.step _ j true x' = _
      simp only [Attn.step, Attn.pstep, e2, g1', if_true]
    · by_cases h : (if idx < 0 then idx + 1 else idx) < 0
      · rw [if_pos h, if_pos h]
      · rw [if_neg h, if_neg h]; rfl
  on := by
    intro i j h
    rcases h with ⟨rfl, rfl⟩ | ⟨s, s', idx, rfl, rfl, h1, h2, h3, h4⟩
    · exact .inl ⟨rfl, rfl, by show N ≤ N + 1; omega⟩
    · exact .inr ⟨s', s, idx, rfl, rfl, h1, by omega, hr _ _ h4 h3⟩

open AttnAny in
/-- **C85** for retroactive attention, at any time: other projections (and any arithmetic); after `2 * sequence_len - 2`
frames. -/
theorem C85_retro_attention_partial (c c' : AttnAny.Cfg X Y R A) (hN : 2 ≤ c.N) (eN : c'.N = c.N)
    (fwd fwd' : List X → Except Err (List (List Y))) (h : List X) :
    ∃ os os' i i', callSteps (retroBase c fwd).mod none h = .ok (os, i) ∧ callSteps (retroBase c' fwd').mod none h = .ok (os', i') ∧
      os.map Option.isSome = os'.map Option.isSome ∧ Recovers (retroBase c' fwd').mod (2 * c.N - 2) i' i := by
  obtain ⟨N, ops, q, k, v, out⟩ := c
  obtain ⟨N', ops', q', k', v', out'⟩ := c'
  obtain rfl : N' = N := eN
  have hN : 2 ≤ N' := hN
  let c : AttnAny.Cfg X Y R A := ⟨N', ops, q, k, v, out⟩
  let c' : AttnAny.Cfg X Y R A := ⟨N', ops', q', k', v', out'⟩
  have hok : ∀ (c : AttnAny.Cfg X Y R A), c.N = N' → ∀ {s : RetroSt R A}, RetroRel c (2 * N' - 2) s s → ∀ x, ∃ o t, retroSdpa c s x = .ok (o, t) ∧
      RetroRel c (2 * N' - 2) t t := by
    intro a ha s hs x
    rw [← ha] at hs ⊢
    obtain ⟨o, _, t, _, g1, g2, g3, _⟩ := retro_step a (by omega) hs x x
    rw [g1] at g2
    obtain ⟨_, rfl⟩ := Prod.mk.inj (Except.ok.inj g2)
    exact ⟨o, t, g1, g3⟩
  have hl := base_lock (n := 2 * N' - 2) N' (by omega)
    (d := ⟨List.replicate (N' - 1) ops.zeroA, List.replicate (N' - 1) ops.zeroR, List.replicate (N' - 1) ops.zeroR,
      List.replicate N' ops.zeroR, List.replicate N' ops.zeroR⟩)
    (d' := ⟨List.replicate (N' - 1) ops'.zeroA, List.replicate (N' - 1) ops'.zeroR, List.replicate (N' - 1) ops'.zeroR,
      List.replicate N' ops'.zeroR, List.replicate N' ops'.zeroR⟩) (retroDefault c) (retroDefault c')
    (by unfold retroDefault; exact if_neg (by show ¬ N' = 0; omega)) (by unfold retroDefault; exact if_neg (by show ¬ N' = 0; omega)) (retroSdpa c) (retroSdpa c') fwd fwd' ((N' : Int) - 1) ((N' : Int) - 1)
    (fun s => RetroRel c (2 * N' - 2) s s) (RetroRel c')
    ⟨⟨by simp [c], by simp [c], rfl⟩, ⟨by simp [c], by simp [c], rfl⟩, ⟨by simp [c], by simp [c], rfl⟩, ⟨by simp [c], by simp [c], rfl⟩, ⟨by simp [c], by simp [c], rfl⟩⟩
    ⟨⟨by simp [c], by simp [c], rfl⟩, ⟨by simp [c], by simp [c], rfl⟩, ⟨by simp [c], by simp [c], rfl⟩, ⟨by simp [c], by simp [c], rfl⟩, ⟨by simp [c], by simp [c], rfl⟩⟩
    (hok c rfl) (fun hs x => by
      obtain ⟨o, t, g1, g2⟩ := hok c' rfl ⟨hs.1, hs.2, hs.3, hs.4, hs.5⟩ x
      exact ⟨o, t, g1, ⟨g2.1, g2.2, g2.3, g2.4, g2.5⟩⟩)
    (fun s s' h1 h2 => ⟨.full h1.d.len h2.d.len (by show N' - 1 ≤ _; omega), .full h1.AV.len h2.AV.len (by show N' - 1 ≤ _; omega),
      .full h1.Q.len h2.Q.len (by show N' - 1 ≤ 2 * N' - 2 - (N' - 1); omega), .full h1.K.len h2.K.len (by show N' ≤ 2 * N' - 2 - (N' - 2); omega),
      .full h1.V.len h2.V.len (by show N' ≤ 2 * N' - 2 - (N' - 2); omega)⟩)
  obtain ⟨os, os', i, i', t1, t2, t3, t4, _⟩ := lock_calls hl h hl.init
  exact ⟨os, os', i, i', t1, t2, t3, (retro_forgets c' hN fwd' N').forgets.recovers (hl.on t4)⟩

open AttnAny in
/-- **C85** for attention with one output, at any time; after `sequence_len - 1` frames if the query is inside the window. -/
theorem C85_single_attention_partial (c c' : AttnAny.Cfg X Y R A) (hN : 1 ≤ c.N) (eN : c'.N = c.N) (qi : Int) (hq : 0 ≤ Attn.nq c.N qi)
    (fwd fwd' : List X → Except Err (List Y)) (h : List X) :
    ∃ os os' i i', callSteps (singleBase c qi fwd).mod none h = .ok (os, i) ∧ callSteps (singleBase c' qi fwd').mod none h = .ok (os', i') ∧
      os.map Option.isSome = os'.map Option.isSome ∧ Recovers (singleBase c' qi fwd').mod (max (c.N - 1) (Attn.nq c.N qi).toNat) i' i := by
  obtain ⟨N, ops, q, k, v, out⟩ := c
  obtain ⟨N', ops', q', k', v', out'⟩ := c'
  obtain rfl : N' = N := eN
  have hN : 1 ≤ N' := hN
  have hq : 0 ≤ Attn.nq N' qi := hq
  let c : AttnAny.Cfg X Y R A := ⟨N', ops, q, k, v, out⟩
  let c' : AttnAny.Cfg X Y R A := ⟨N', ops', q', k', v', out'⟩
  generalize hm : Attn.nq N' qi = nq at hq
  have hok : ∀ (c : AttnAny.Cfg X Y R A), c.N = N' → ∀ {s : SingleSt R}, SingleRel c nq.toNat (max (N' - 1) nq.toNat) s s → ∀ x, ∃ o t,
      singleSdpa c s x = .ok (o, t) ∧ SingleRel c nq.toNat (max (N' - 1) nq.toNat) t t := by
    intro a ha s hs x
    rw [← ha] at hs ⊢
    obtain ⟨o, _, t, _, g1, g2, g3, _⟩ := single_step a (by omega) hs x x
    rw [g1] at g2
    obtain ⟨_, rfl⟩ := Prod.mk.inj (Except.ok.inj g2)
    exact ⟨o, t, g1, g3⟩
  have hl := base_lock (n := max (N' - 1) nq.toNat) N' (by omega)
    (d := ⟨List.replicate nq.toNat ops.zeroR, List.replicate N' ops.zeroR, List.replicate N' ops.zeroR⟩)
    (d' := ⟨List.replicate nq.toNat ops'.zeroR, List.replicate N' ops'.zeroR, List.replicate N' ops'.zeroR⟩)
    (singleDefault c qi) (singleDefault c' qi)
    (by unfold singleDefault; simp only [c, hm]; exact if_neg (by omega)) (by unfold singleDefault; simp only [c', hm]; exact if_neg (by omega))
    (singleSdpa c) (singleSdpa c') fwd fwd' (Attn.nq N' qi) (Attn.nq N' qi)
    (fun s => SingleRel c nq.toNat (max (N' - 1) nq.toNat) s s) (SingleRel c' nq.toNat)
    ⟨⟨by simp, by simp, rfl⟩, ⟨by simp [c], by simp [c], rfl⟩, ⟨by simp [c], by simp [c], rfl⟩⟩
    ⟨⟨by simp, by simp, rfl⟩, ⟨by simp [c], by simp [c], rfl⟩, ⟨by simp [c], by simp [c], rfl⟩⟩
    (hok c rfl) (fun hs x => by
      obtain ⟨o, t, g1, g2⟩ := hok c' rfl ⟨hs.1, hs.2, hs.3⟩ x
      exact ⟨o, t, g1, ⟨g2.1, g2.2, g2.3⟩⟩)
    (fun s s' h1 h2 => ⟨.full h1.Q.len h2.Q.len (by omega), .full h1.K.len h2.K.len (by show N' ≤ _; omega),
      .full h1.V.len h2.V.len (by show N' ≤ _; omega)⟩)
  obtain ⟨os, os', i, i', t1, t2, t3, t4, _⟩ := lock_calls hl h hl.init
  refine ⟨os, os', i, i', t1, t2, t3, ?_⟩
  have hf := (single_forgets c' hN qi (by show 0 ≤ Attn.nq N' qi; omega) fwd' N').forgets
  have hon := hl.on t4
  subst hm
  exact hf.recovers hon

end attention

/-! ### What comes before -/

section mixture
variable {X Y : Type} [Zero X]

/-- A frame with a mark: seen after the change (`true`) or before. -/
structure Seen (X : Type) where
  frame : X
  new : Bool

instance : Zero (Seen X) := ⟨⟨0, true⟩⟩

/-- Each frame with the weights of its time. -/
def mixed (w w' : Nat → X → Y) (j : Nat) (t : Seen X) : Y := if t.new then w' j t.frame else w j t.frame

/-- The convolution with the weights of the time. -/
@[reducible] def mixedCfg (c : Conv.Cfg X Y) (w' : Nat → X → Y) (b' : Option Y) : Conv.Cfg (Seen X) Y :=
  ⟨c.K, c.S, c.P, c.fill, c.padMode, mixed c.w w', b'⟩

theorem mixed_new [Zero Y] [Add Y] (c : Conv.Cfg X Y) (hK : 2 ≤ c.K) (w' : Nat → X → Y) (b' : Option Y) (i : Conv.St Y) (x : X) :
    (Conv.mod (mixedCfg c w' b')).step i true ⟨x, true⟩ = (Conv.mod { c with w := w', bias := b' }).step i true x := by
  have hst : Conv.stateless (mixedCfg c w' b') = false := by simp [Conv.stateless]; omega
  have hst' : Conv.stateless ({ c with w := w', bias := b' } : Conv.Cfg X Y) = false := by simp [Conv.stateless]; omega
  have ht : Conv.taps (mixedCfg c w' b') ⟨x, true⟩ = Conv.taps ({ c with w := w', bias := b' } : Conv.Cfg X Y) x := by
    simp [Conv.taps, mixed]
  have hp : ∀ s, Conv.pstep (mixedCfg c w' b') ⟨x, true⟩ s = Conv.pstep ({ c with w := w', bias := b' } : Conv.Cfg X Y) x s := by
    intro s
    unfold Conv.pstep
    rw [hst, hst', ht]
    rfl
  show Leaf.forwardStep (Conv.leaf (mixedCfg c w' b')) i true ⟨x, true⟩ = Leaf.forwardStep (Conv.leaf { c with w := w', bias := b' }) i true x
  unfold Leaf.forwardStep
  have hp' : (Conv.leaf (mixedCfg c w' b')).pstep ⟨x, true⟩ ((Conv.leaf (mixedCfg c w' b')).get i) =
      (Conv.leaf { c with w := w', bias := b' }).pstep x ((Conv.leaf { c with w := w', bias := b' }).get i) := hp _
  rw [hp']
  cases (Conv.leaf { c with w := w', bias := b' }).pstep x ((Conv.leaf { c with w := w', bias := b' }).get i) with
  | error e => rfl
  | ok r => obtain ⟨o, s⟩ := r; cases s <;> rfl

/-- A step of a convolution with a state, without `match`. -/
theorem conv_pstep_eq {X Y : Type} [Zero X] [Zero Y] [Add Y] (c : Conv.Cfg X Y) (hst : Conv.stateless c = false) (x : X) (s : Option (Conv.St Y)) :
    Conv.pstep c x s = (do
      let xOut ← pyGet (Conv.taps c x) 0
      let out ← Conv.output c (s.getD (Conv.initState c ((Conv.taps c x).drop 1))) xOut
      let next ← Conv.writeBack c (s.getD (Conv.initState c ((Conv.taps c x).drop 1))) ((Conv.taps c x).drop 1)
      return (out, some ⟨next.1, next.2, Conv.nextStride c.S (s.getD (Conv.initState c ((Conv.taps c x).drop 1))).strideIndex⟩)) := by
  unfold Conv.pstep
  rw [hst]
  cases s <;> rfl

theorem mixed_old [Zero Y] [Add Y] (c : Conv.Cfg X Y) (hK : 2 ≤ c.K) (w' : Nat → X → Y) (b' : Option Y) {i i' : Conv.St Y} {x : X} {o}
    (h : (Conv.mod c).step i true x = .ok (o, i')) : ∃ o', (Conv.mod (mixedCfg c w' b')).step i true ⟨x, false⟩ = .ok (o', i') := by
  have hst : Conv.stateless (mixedCfg c w' b') = false := by simp [Conv.stateless]; omega
  have hst' : Conv.stateless c = false := by simp [Conv.stateless]; omega
  have ht : Conv.taps (mixedCfg c w' b') ⟨x, false⟩ = Conv.taps c x := by simp [Conv.taps, mixed]
  have ho : ∀ st y p, Conv.output c st y = .ok p → ∃ p', Conv.output (mixedCfg c w' b') st y = .ok p' := by
    intro st y p hp
    unfold Conv.output at hp ⊢
    by_cases hs : st.strideIndex = (c.S : Int) - 1
    · rw [if_pos hs] at hp ⊢
      cases hk : Conv.pick st (c.K - 1) with
      | error e => rw [hk] at hp; cases hp
      | ok ps => exact ⟨_, rfl⟩
    · rw [if_neg hs]; exact ⟨_, rfl⟩
  have hp : ∀ s p s', Conv.pstep c x s = .ok (p, s') → ∃ p', Conv.pstep (mixedCfg c w' b') ⟨x, false⟩ s = .ok (p', s') := by
    intro s p s' h
    rw [conv_pstep_eq _ hst'] at h
    rw [conv_pstep_eq _ hst, ht]
    have hi : s.getD (Conv.initState (mixedCfg c w' b') ((Conv.taps c x).drop 1)) = s.getD (Conv.initState c ((Conv.taps c x).drop 1)) := rfl
    rw [hi]
    generalize s.getD (Conv.initState c ((Conv.taps c x).drop 1)) = st' at h ⊢
    cases hg : pyGet (Conv.taps c x) 0 with
    | error e => simp only [hg] at h; cases h
    | ok y =>
      simp only [hg, ok_bind] at h ⊢
      cases hc : Conv.output c st' y with
      | error e => simp only [hc] at h; cases h
      | ok p0 =>
        obtain ⟨p', hp'⟩ := ho st' y p0 hc
        simp only [hc, ok_bind] at h
        simp only [hp', ok_bind]
        have hw : Conv.writeBack (mixedCfg c w' b') st' ((Conv.taps c x).drop 1) = Conv.writeBack c st' ((Conv.taps c x).drop 1) := rfl
        rw [hw]
        cases hv : Conv.writeBack c st' ((Conv.taps c x).drop 1) with
        | error e => simp only [hv] at h; cases h
        | ok r =>
          simp only [hv, ok_bind] at h ⊢
          exact ⟨p', congrArg (fun t => Except.ok (p', t)) (Prod.mk.inj (Except.ok.inj h)).2⟩
  have h : Leaf.forwardStep (Conv.leaf c) i true x = .ok (o, i') := h
  show ∃ o', Leaf.forwardStep (Conv.leaf (mixedCfg c w' b')) i true ⟨x, false⟩ = .ok (o', i')
  unfold Leaf.forwardStep at h ⊢
  cases hc : (Conv.leaf c).pstep x ((Conv.leaf c).get i) with
  | error e => rw [hc] at h; cases h
  | ok r =>
    obtain ⟨p, s⟩ := r
    obtain ⟨p', hp'⟩ := hp _ _ _ hc
    have hp' : (Conv.leaf (mixedCfg c w' b')).pstep ⟨x, false⟩ ((Conv.leaf (mixedCfg c w' b')).get i) = .ok (p', s) := hp'
    rw [hc] at h
    rw [hp']
    refine ⟨p', ?_⟩
    have h2 := (Prod.mk.inj (Except.ok.inj h)).2
    cases s <;> exact congrArg (fun t => Except.ok (p', t)) h2

theorem calls_follow {X X' Y Y' : Type} {M : CoMod (.stream X) (.stream Y)} {M' : CoMod (.stream X') (.stream Y')} (e : M.Inst → M'.Inst)
    (g : X → X') (hs : ∀ {i x o i'}, M.step i true x = .ok (o, i') → ∃ o', M'.step (e i) true (g x) = .ok (o', e i')) :
    ∀ (h : List X) {i i' : M.Inst} {os}, callSteps M i h = .ok (os, i') →
      ∃ os', callSteps M' (e i) (h.map g) = .ok (os', e i') ∧ os'.length = h.length
  | [], i, i', os, h => by
    simp only [callSteps, Except.ok.injEq, Prod.mk.injEq] at h
    obtain ⟨_, rfl⟩ := h
    exact ⟨[], rfl, rfl⟩
  | x :: xs, i, i', os, h => by
    simp only [callSteps, bind, Except.bind, pure, Except.pure] at h
    cases hc : M.step i true x with
    | error e => rw [hc] at h; cases h
    | ok r =>
      obtain ⟨o, j⟩ := r
      rw [hc] at h
      simp only at h
      cases ht : callSteps M j xs with
      | error e => rw [ht] at h; cases h
      | ok q =>
        obtain ⟨ps, k⟩ := q
        rw [ht] at h
        obtain ⟨_, rfl⟩ := Prod.mk.inj (Except.ok.inj h)
        obtain ⟨o', g1⟩ := hs hc
        obtain ⟨os', g2, g3⟩ := calls_follow e g hs xs ht
        refine ⟨o' :: os', ?_, by simp [g3]⟩
        simp only [List.map_cons, callSteps, g1, g2, bind, Except.bind, pure, Except.pure]

theorem calls_same {X X' Y : Type} {M : CoMod (.stream X) (.stream Y)} {M' : CoMod (.stream X') (.stream Y)} (e : M.Inst → M'.Inst)
    (g : X → X') (hs : ∀ i x, M'.step (e i) true (g x) = (M.step i true x).map fun r => (r.1, e r.2)) :
    ∀ (xs : List X) (i : M.Inst), callSteps M' (e i) (xs.map g) = (callSteps M i xs).map fun r => (r.1, e r.2)
  | [], i => rfl
  | x :: xs, i => by
    simp only [List.map_cons, callSteps, hs i x, bind, Except.bind, pure, Except.pure]
    cases hc : M.step i true x with
    | error e => rfl
    | ok r =>
      have ih := calls_same e g hs xs r.2
      simp only [Except.map, ih]
      cases callSteps M r.2 xs <;> rfl

/-- **C85**, what a convolution gives instead: each frame enters with the weights of the time at which it was seen, and the
bias is the new one.  The outputs after the change continue, at each step, those of the windows over the marked frames. -/
theorem C85_conv_mixture [AddCommMonoid Y] (c : Conv.Cfg X Y) (w' : Nat → X → Y) (b' : Option Y) (hK : 2 ≤ c.K) (hS : 1 ≤ c.S)
    (hP : c.P < c.K) (h0 : ∀ j, c.w j 0 = 0) (h0' : ∀ j, w' j 0 = 0) (h xs : List X) :
    ∃ os i os' i', callSteps (Conv.mod c) (Conv.mod c).init h = .ok (os, i) ∧
      callSteps (Conv.mod { c with w := w', bias := b' }) i xs = .ok (os', i') ∧
      ∀ n, streamOut c.K c.S c.P (c.fill.make 0) (corr (mixed c.w w') b') ((h.map fun x => ⟨x, false⟩) ++ (xs.take n).map fun x => ⟨x, true⟩) =
        streamOut c.K c.S c.P (c.fill.make 0) (corr (mixed c.w w') b') (h.map fun x => ⟨x, false⟩) ++ tensors (os'.take n) := by
  obtain ⟨os, i, e1, l1, _⟩ := C01_conv_streams_textbook c (by omega) hS (by omega) (.inl (by omega)) h0 _ .init h
  obtain ⟨ps, e2, l2⟩ := calls_follow (M := Conv.mod c) (M' := Conv.mod (mixedCfg c w' b')) (fun i => i) (fun x : X => ⟨x, false⟩) (mixed_old c hK w' b') h e1
  have e4 : callSteps (Conv.mod (mixedCfg c w' b')) i (xs.map fun x => ⟨x, true⟩) =
      (callSteps (Conv.mod { c with w := w', bias := b' }) i xs).map fun r => (r.1, r.2) :=
    calls_same (M := Conv.mod { c with w := w', bias := b' }) (M' := Conv.mod (mixedCfg c w' b')) (fun i => i) (fun x => ⟨x, true⟩) (fun i x => by
      rw [mixed_new c hK w' b' i x]
      cases (Conv.mod { c with w := w', bias := b' }).step i true x <;> rfl) xs i
  obtain ⟨qs, j, e3, l3, hq⟩ := C01_conv_streams_textbook (mixedCfg c w' b') (show 1 ≤ c.K by omega) hS (show c.P ≤ c.K - 1 by omega)
    (.inl (show 1 < c.K by omega)) (fun j => by exact h0' j) _ .init ((h.map fun x => ⟨x, false⟩) ++ xs.map fun x => ⟨x, true⟩)
  have e3' := e3
  rw [callSteps_app _ _ e2, e4] at e3'
  cases hc : callSteps (Conv.mod { c with w := w', bias := b' }) i xs with
  | error e => rw [hc] at e3'; cases e3'
  | ok r =>
    obtain ⟨os', i'⟩ := r
    rw [hc] at e3'
    obtain ⟨rfl, rfl⟩ := Prod.mk.inj (Except.ok.inj e3')
    refine ⟨os, i, os', i', e1, hc, fun n => ?_⟩
    have t1 : ∀ {α β : Type} (f : α → β) (l : List α) (r : List β) k, (l.map f ++ r).take (l.length + k) = l.map f ++ r.take k := by
      intro α β f l r k
      rw [List.take_append, List.length_map, Nat.add_sub_cancel_left, List.take_of_length_le (by simp)]
    have t2 : ∀ k, (ps ++ os').take (h.length + k) = ps ++ os'.take k := by
      intro k
      rw [List.take_append, l2, Nat.add_sub_cancel_left, List.take_of_length_le (by omega)]
    have a1 : tensors ((ps ++ os').take (h.length + n)) = _ := hq (h.length + n)
    have a2 : tensors ((ps ++ os').take (h.length + 0)) = _ := hq (h.length + 0)
    rw [t1, t2] at a1 a2
    rw [List.take_zero, List.take_zero, List.append_nil, List.append_nil] at a2
    rw [List.map_take]
    refine a1.symm.trans ?_
    show _ = streamOut (mixedCfg c w' b').K (mixedCfg c w' b').S (mixedCfg c w' b').P ((mixedCfg c w' b').fill.make 0)
      (corr (mixedCfg c w' b').w (mixedCfg c w' b').bias) (h.map fun x => ⟨x, false⟩) ++ _
    rw [← a2]
    simp [tensors]

/-- The first output after the change, with stride 1: the last `K - 1` frames with the old weights. -/
theorem C85_conv_next [AddCommMonoid Y] (c : Conv.Cfg X Y) (w' : Nat → X → Y) (b' : Option Y) (hK : 2 ≤ c.K) (hS : c.S = 1)
    (hP : c.P = 0) (h0 : ∀ j, c.w j 0 = 0) (h0' : ∀ j, w' j 0 = 0) (h win : List X) (hw : win.length = c.K - 1) (x : X) :
    ∃ os i i', callSteps (Conv.mod c) (Conv.mod c).init (h ++ win) = .ok (os, i) ∧
      (Conv.mod { c with w := w', bias := b' }).step i true x = .ok (some ((win.mapIdx c.w).sum + w' (c.K - 1) x + b'.getD 0), i') := by
  obtain ⟨os, i, os', i', e1, e2, e3⟩ := C85_conv_mixture c w' b' hK (by omega) (by omega) h0 h0' (h ++ win) [x]
  have e3 := e3 1
  have hz : (h ++ win).map (fun x => (⟨x, false⟩ : Seen X)) ≠ [] := by
    intro hn
    have := congrArg List.length hn
    simp only [List.length_map, List.length_append, List.length_nil, hw] at this
    omega
  have hl : ((h ++ win).map (fun x => (⟨x, false⟩ : Seen X))).length = h.length + (c.K - 1) := by simp [hw]
  have hpad : ∀ l : List (Seen X), padStart 0 (c.fill.make 0) l = l := by
    intro l; cases l <;> simp [padStart]
  have hlast : lastN c.K ((h ++ win).map (fun x => (⟨x, false⟩ : Seen X)) ++ [⟨x, true⟩]) = win.map (fun x => ⟨x, false⟩) ++ [⟨x, true⟩] := by
    unfold lastN
    rw [List.map_append, List.append_assoc, List.drop_append, List.drop_of_length_le (by simp; omega), List.nil_append]
    have hz' : ∀ n, n = 0 → ∀ l : List (Seen X), l.drop n = l := by rintro n rfl l; rfl
    exact hz' _ (by simp; omega) _
  have hc : corr (mixed c.w w') b' (win.map (fun x => (⟨x, false⟩ : Seen X)) ++ [⟨x, true⟩]) =
      (win.mapIdx c.w).sum + w' (c.K - 1) x + b'.getD 0 := by
    unfold corr
    rw [List.mapIdx_append, List.sum_append]
    simp only [List.mapIdx_cons, List.mapIdx_nil, List.length_map, hw, Nat.zero_add, List.sum_singleton]
    congr 3
    apply List.ext_getElem (by simp)
    intro k h1 h2
    simp [mixed]
  rw [hS, hP] at e3
  unfold streamOut at e3
  rw [show List.map (fun x => (⟨x, true⟩ : Seen X)) (List.take 1 [x]) = [⟨x, true⟩] from rfl, hpad, hpad, slide_snoc, hl,
    if_pos ⟨by omega, Nat.mod_one _⟩, hlast, hc] at e3
  have e3 := List.append_cancel_left e3
  simp only [callSteps, bind, Except.bind, pure, Except.pure] at e2
  cases hs : (Conv.mod { c with w := w', bias := b' }).step i true x with
  | error e =>
    have hs : (Conv.leaf { c with w := w', bias := b' }).forwardStep i true x = .error e := hs
    rw [hs] at e2; cases e2
  | ok r =>
    obtain ⟨o, j⟩ := r
    have hs' : (Conv.leaf { c with w := w', bias := b' }).forwardStep i true x = .ok (o, j) := hs
    rw [hs'] at e2
    obtain ⟨rfl, _⟩ := Prod.mk.inj (Except.ok.inj e2)
    refine ⟨os, i, j, e1, ?_⟩
    cases o with
    | none => simp [tensors] at e3
    | some y =>
      have : [(win.mapIdx c.w).sum + w' (c.K - 1) x + b'.getD 0] = [y] := e3
      rw [List.cons.inj this |>.1]
      exact hs

/-- **C85**, when the next output is right all the same: if the old and the new weights give the same partial sum over the
frames remembered. -/
theorem C85_conv_next_iff [AddCancelCommMonoid Y] (c : Conv.Cfg X Y) (w' : Nat → X → Y) (b' : Option Y) (hK : 2 ≤ c.K) (hS : c.S = 1)
    (hP : c.P = 0) (h0 : ∀ j, c.w j 0 = 0) (h0' : ∀ j, w' j 0 = 0) (h win : List X) (hw : win.length = c.K - 1) (x : X) :
    ∃ os os' i i' o o' j j', callSteps (Conv.mod c) (Conv.mod c).init (h ++ win) = .ok (os, i) ∧
      callSteps (Conv.mod { c with w := w', bias := b' }) (Conv.mod { c with w := w', bias := b' }).init (h ++ win) = .ok (os', i') ∧
      (Conv.mod { c with w := w', bias := b' }).step i true x = .ok (o, j) ∧
      (Conv.mod { c with w := w', bias := b' }).step i' true x = .ok (o', j') ∧
      (o = o' ↔ (win.mapIdx c.w).sum = (win.mapIdx w').sum) := by
  obtain ⟨os, i, j, e1, e2⟩ := C85_conv_next c w' b' hK hS hP h0 h0' h win hw x
  obtain ⟨os', i', j', e1', e2'⟩ := C85_conv_next { c with w := w', bias := b' } w' b' hK hS hP h0' h0' h win hw x
  refine ⟨os, os', i, i', _, _, j, j', e1, e1', e2, e2', ?_⟩
  rw [Option.some.injEq, add_left_inj, add_left_inj]

end mixture

/-- All weights `a`, kernel size `K`, no bias. -/
@[reducible] def constConv (K : Nat) (a : Int) : Conv.Cfg Int Int := ⟨K, 1, 0, .zeros, .zeros, fun _ x => a * x, none⟩

/-- **C85** fails at the first step after the change, for every kernel size from 2 on and every stream whose last
`kernel_size - 1` frames do not add up to 0: weights of 1, then of 2. -/
theorem C85_refuted (K : Nat) (hK : 2 ≤ K) (h win : List Int) (hw : win.length = K - 1) (hs : win.sum ≠ 0) :
    ∃ os os' i i', callSteps (Conv.mod (constConv K 1)) (Conv.mod (constConv K 1)).init (h ++ win) = .ok (os, i) ∧
      callSteps (Conv.mod (constConv K 2)) (Conv.mod (constConv K 2)).init (h ++ win) = .ok (os', i') ∧
      ¬ Recovers (Conv.mod (constConv K 2)) 0 i' i := by
  obtain ⟨os, os', i, i', o, o', j, j', e1, e2, e3, e4, e5⟩ := C85_conv_next_iff (constConv K 1) (fun _ x => 2 * x) none hK rfl rfl
    (fun _ => Int.mul_zero 1) (fun _ => Int.mul_zero 2) h win hw 0
  refine ⟨os, os', i, i', e1, e2, fun hr => ?_⟩
  obtain ⟨as, as', bs, k, k', f1, f2, f3, f4⟩ := hr [] [] [] [0] rfl rfl
  have g1 : callSteps (Conv.mod (constConv K 2)) i' [0] = .ok ([o'], j') := by
    simp only [callSteps, bind, Except.bind, pure, Except.pure]
    have e4' : (Conv.leaf (constConv K 2)).forwardStep i' true 0 = .ok (o', j') := e4
    rw [e4']
  have g2 : callSteps (Conv.mod (constConv K 2)) i [0] = .ok ([o], j) := by
    simp only [callSteps, bind, Except.bind, pure, Except.pure]
    have e3' : (Conv.leaf (constConv K 2)).forwardStep i true 0 = .ok (o, j) := e3
    rw [e3']
  have h1 : as = [] := List.eq_nil_of_length_eq_zero f3
  subst h1
  have h2 : as' = [] := by
    have := congrArg List.length f4
    simp only [List.length_map, List.length_nil] at this
    exact List.eq_nil_of_length_eq_zero this.symm
  subst h2
  have f1 : callSteps (Conv.mod (constConv K 2)) i' [0] = .ok (bs, k) := f1
  have f2 : callSteps (Conv.mod (constConv K 2)) i [0] = .ok (bs, k') := f2
  rw [g1] at f1
  rw [g2] at f2
  have q1 := (Prod.mk.inj (Except.ok.inj f1)).1
  have q2 := (Prod.mk.inj (Except.ok.inj f2)).1
  have q : o = o' := (List.cons.inj (q2.trans q1.symm)).1
  have := e5.1 q
  apply hs
  have m1 : win.mapIdx (fun _ x => 1 * x) = win := by
    apply List.ext_getElem (by simp)
    intro k _ _
    simp
  have m2 : ∀ l : List Int, (l.mapIdx (fun _ x => 2 * x)).sum = 2 * l.sum := by
    intro l
    have : l.mapIdx (fun _ x => 2 * x) = l.map fun x => 2 * x := by
      apply List.ext_getElem (by simp)
      intro k _ _
      simp
    rw [this]
    induction l with
    | nil => rfl
    | cons a l ih =>
      have ih := ih (by apply List.ext_getElem (by simp); intro k _ _; simp)
      rw [List.map_cons, List.sum_cons, List.sum_cons, ih]; omega
  have this : (win.mapIdx (fun _ x => 1 * x)).sum = (win.mapIdx (fun _ x => 2 * x)).sum := this
  rw [m1, m2] at this
  omega

/-! ### Examples -/

/-- Weights 1, then weights 2, after the frames 1, 2, 3: the network that had weights 2 all the time gives 14, 26 and 30. -/
example : (callSteps (Conv.mod (constConv 3 1)) (Conv.mod (constConv 3 1)).init [1, 2, 3]).bind (fun r =>
    (callSteps (Conv.mod (constConv 3 2)) r.2 [2, 8, 5]).map Prod.fst) = .ok [some 9, some 23, some 30] ∧
    (callSteps (Conv.mod (constConv 3 2)) (Conv.mod (constConv 3 2)).init [1, 2, 3, 2, 8, 5]).map Prod.fst =
      .ok [none, none, some 12, some 14, some 26, some 30] := by decide

example : ∃ os os' i i', callSteps (Conv.mod (constConv 3 1)) (Conv.mod (constConv 3 1)).init ([7, 7] ++ [2, 3]) = .ok (os, i) ∧
    callSteps (Conv.mod (constConv 3 2)) (Conv.mod (constConv 3 2)).init ([7, 7] ++ [2, 3]) = .ok (os', i') ∧
    ¬ Recovers (Conv.mod (constConv 3 2)) 0 i' i := C85_refuted 3 (by decide) [7, 7] [2, 3] rfl (by decide)

/-- A residual connection around a convolution and a frame-wise function, then a convolution, with weights `a`. -/
@[reducible] def reNet (a : Int) : CoMod (.stream Int) (.stream Int) :=
  Sequential.mod (.cons (BroadcastReduce.mod (foldReducer (· + ·))
    [Sequential.mod (.cons (Conv.mod (constConv 3 a)) (.single (Pointwise.mod (a * ·)))), Delay.mod ⟨2, id, .off⟩])
    (.single (Conv.mod (constConv 2 (a + 1)))))

theorem reNet_same (a b : Int) : ∃ e, SameNet (reNet a) (reNet b) e :=
  ⟨_, .cons (.branches _ (by simp) (.cons (.cons (.conv _ _ (by show 2 ≤ 3; decide) (by show 1 ≤ 1; decide) (by show 0 < 3; decide) rfl rfl rfl)
    (.single (.pointwise _ _))) rfl (.cons (.delay _) rfl .nil))
    (fun ys h => by
      match ys, h with
      | [a, b], _ => exact ⟨a + b, rfl⟩))
    (.single (.conv _ _ (by show 2 ≤ 2; decide) (by show 1 ≤ 1; decide) (by show 0 < 2; decide) rfl rfl rfl))⟩

example : ∃ (e : (reNet 1).Inst → (reNet 7).Inst) (os os' : _) (i i' : _), callSteps (reNet 1) (reNet 1).init [1, 2, 3, 4, 5] = .ok (os, i) ∧
    callSteps (reNet 7) (reNet 7).init [1, 2, 3, 4, 5] = .ok (os', i') ∧ Recovers (reNet 7) 3 i' (e i) := by
  obtain ⟨e, he⟩ := reNet_same 1 7
  obtain ⟨os, os', i, i', h1, h2, _, h4⟩ := C85_network_partial he [1, 2, 3, 4, 5]
  refine ⟨e, os, os', i, i', h1, h2, h4 ?_⟩
  have h5 : (callSteps (reNet 1) (reNet 1).init [1, 2, 3, 4, 5]).map Prod.fst = .ok [none, none, none, some 36, some 52] := by decide
  rw [h1] at h5
  cases h5
  exact ⟨some 36, by simp, rfl⟩

example (h : List Int) : ∃ os os' i i', callSteps (Conv.mod (constConv 3 1)) (Conv.mod (constConv 3 1)).init h = .ok (os, i) ∧
    callSteps (Conv.mod (constConv 3 2)) (Conv.mod (constConv 3 2)).init h = .ok (os', i') ∧
    os.map Option.isSome = os'.map Option.isSome ∧ Recovers (Conv.mod (constConv 3 2)) 2 i' i :=
  C85_conv_partial (constConv 3 1) (constConv 3 2) (by show 2 ≤ 3; decide) (by show 1 ≤ 1; decide) (by show 0 < 3; decide) rfl rfl rfl h

end CoInf
