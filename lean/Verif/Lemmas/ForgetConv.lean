/-
Convolution and pooling forget.
-/
import Verif.Lemmas.Forget

set_option autoImplicit false

namespace CoInf.Forget
open Spec
variable {X Y Z : Type}

theorem mapM_exists {α β : Type} (f : α → Except Err β) : ∀ (l : List α), (∀ a ∈ l, ∃ b, f a = .ok b) → ∃ bs, l.mapM f = .ok bs
  | [], _ => ⟨[], rfl⟩
  | a :: l, h => by
    obtain ⟨b, hb⟩ := h a (List.mem_cons_self ..)
    obtain ⟨bs, hbs⟩ := mapM_exists f l fun a ha => h a (List.mem_cons_of_mem _ ha)
    exact ⟨b :: bs, by rw [List.mapM_cons, hb, ok_bind, hbs, ok_bind]; rfl⟩

/-- The stride counter: it emits iff it is `S - 1`, otherwise it counts up. -/
theorem nextStride_quiet {S : Nat} (hS : 0 < S) {si : Int} {m : Nat} (hm : -(m : Int) ≤ si) (h : si ≤ (S : Int) - 1) :
    -(m : Int) ≤ Conv.nextStride S si ∧ Conv.nextStride S si ≤ (S : Int) - 1 ∧
      (si ≠ (S : Int) - 1 → Conv.nextStride S si = si + 1) := by
  unfold Conv.nextStride
  simp only
  split
  · have h1 := Int.emod_nonneg (si + 1) (show (S : Int) ≠ 0 by omega)
    have h2 := Int.emod_lt_of_pos (si + 1) (show (0 : Int) < S by omega)
    exact ⟨by omega, by omega, fun hne => Int.emod_eq_of_lt (by omega) (by omega)⟩
  · exact ⟨by omega, by omega, fun _ => rfl⟩

/-! ### Convolution -/

section Conv
variable [Zero X] [Zero Y] [Add Y] (c : Conv.Cfg X Y)

/-- The first value of the stride counter: conv.py:152-154. -/
def convStart : Int := (c.S : Int) - ((c.K - 1 : Nat) : Int) - 1 + c.P

def ConvRel (m k : Nat) (i j : Conv.St Y) : Prop :=
  (i.buffer = [] ∧ j.buffer = [] ∧ -(m : Int) ≤ convStart c) ∨
    (i.index = j.index ∧ 0 ≤ i.index ∧ i.index < ((c.K - 1 : Nat) : Int) ∧ i.strideIndex = j.strideIndex ∧
      -(m : Int) ≤ i.strideIndex ∧ i.strideIndex ≤ (c.S : Int) - 1 ∧ Agree (c.K - 1) k i.index i.buffer j.buffer ∧
      (∀ r ∈ i.buffer, r.length = c.K - 1) ∧ ∀ r ∈ j.buffer, r.length = c.K - 1)

def convQuiet (i : Conv.St Y) : Nat := ((c.S : Int) - 1 - if i.buffer = [] then convStart c else i.strideIndex).toNat

theorem conv_pick {b : List (List Y)} {L : Nat} (hb : b.length = L) (hL : 0 < L) (hr : ∀ r ∈ b, r.length = L) (idx si : Int) :
    ∃ ps, Conv.pick ⟨b, idx, si⟩ L = .ok ps := by
  refine mapM_exists _ _ fun i hi => ?_
  have hi := List.mem_range.1 hi
  have h1 := Int.emod_nonneg ((i : Int) + idx) (show (L : Int) ≠ 0 by omega)
  have h2 := Int.emod_lt_of_pos ((i : Int) + idx) (show (0 : Int) < L by omega)
  obtain ⟨t, ht⟩ := Int.eq_ofNat_of_zero_le h1
  have htb : t < b.length := by omega
  rw [ht, pyGet_ofNat (List.getElem?_eq_getElem htb), ok_bind]
  have e : (L : Int) - 1 - i = ((L - 1 - i : Nat) : Int) := by omega
  rw [e, pyGet_ofNat (List.getElem?_eq_getElem (show L - 1 - i < (b[t]).length by
    rw [hr _ (List.getElem_mem htb)]; omega))]
  exact ⟨_, rfl⟩

/-- Outcome of a step on any object with buffers of the right shape. -/
theorem conv_some (hK : 2 ≤ c.K) {b : List (List Y)} (hb : b.length = c.K - 1) (hr : ∀ r ∈ b, r.length = c.K - 1) {idx : Int}
    (h0 : 0 ≤ idx) (h1 : idx < ((c.K - 1 : Nat) : Int)) (si : Int) (x : X) :
    ∃ o e, Conv.pstep c x (some ⟨b, idx, si⟩) =
      .ok (o, some ⟨e, (idx + 1) % ((c.K - 1 : Nat) : Int), Conv.nextStride c.S si⟩) ∧ (o.isSome ↔ si = (c.S : Int) - 1) ∧
      pySet b (idx % ((c.K - 1 : Nat) : Int)) ((Conv.taps c x).drop 1) = .ok e ∧ (∀ r ∈ e, r.length = c.K - 1) := by
  have hst : Conv.stateless c = false := by simp [Conv.stateless]; omega
  have ht0 : 0 < (Conv.taps c x).length := by simp [Conv.taps]; omega
  have hrest : ((Conv.taps c x).drop 1).length = c.K - 1 := by simp [Conv.taps]
  obtain ⟨t, rfl⟩ := Int.eq_ofNat_of_zero_le h0
  have htl : t < b.length := by omega
  have hset : pySet b (t : Int) ((Conv.taps c x).drop 1) = .ok (b.set t ((Conv.taps c x).drop 1)) := pySet_ofNat _ htl
  have hout : ∃ o, Conv.output c ⟨b, t, si⟩ (Conv.taps c x)[0] = .ok o ∧ (o.isSome ↔ si = (c.S : Int) - 1) := by
    unfold Conv.output
    by_cases hs : si = (c.S : Int) - 1
    · obtain ⟨ps, hps⟩ := conv_pick hb (by omega) hr t si
      rw [if_pos hs, hps, ok_bind]
      exact ⟨_, rfl, by simp [hs]⟩
    · rw [if_neg hs]
      exact ⟨none, rfl, by simp [hs]⟩
  obtain ⟨o, ho, hs⟩ := hout
  refine ⟨o, b.set t ((Conv.taps c x).drop 1), ?_, hs, ?_, fun r hr' => ?_⟩
  · unfold Conv.pstep
    rw [hst]
    have hw : Conv.writeBack c ⟨b, t, si⟩ ((Conv.taps c x).drop 1) =
        .ok (b.set t ((Conv.taps c x).drop 1), ((t : Int) + 1) % ((c.K - 1 : Nat) : Int)) := by
      unfold Conv.writeBack
      rw [if_pos (by omega), hset, ok_bind]; rfl
    have hg : pyGet (Conv.taps c x) 0 = .ok (Conv.taps c x)[0] := pyGet_ofNat (i := 0) (List.getElem?_eq_getElem ht0)
    simp only [hg, ho, hw, bind, Except.bind, pure, Except.pure, Bool.false_eq_true, if_false]
  · rw [Int.emod_eq_of_lt h0 h1, hset]
  · rcases List.mem_or_eq_of_mem_set hr' with hr' | rfl
    · exact hr _ hr'
    · exact hrest

theorem conv_core (hK : 2 ≤ c.K) (hS : 0 < c.S) {m k : Nat} {b b' : List (List Y)} {idx si : Int} (h0 : 0 ≤ idx)
    (h1 : idx < ((c.K - 1 : Nat) : Int)) (hm : -(m : Int) ≤ si) (hs : si ≤ (c.S : Int) - 1) (h : Agree (c.K - 1) k idx b b')
    (hr : ∀ r ∈ b, r.length = c.K - 1) (hr' : ∀ r ∈ b', r.length = c.K - 1) (x x' : X) : ∃ o o' i' j',
      Conv.pstep c x (some ⟨b, idx, si⟩) = .ok (o, some i') ∧ Conv.pstep c x' (some ⟨b', idx, si⟩) = .ok (o', some j') ∧
      (o.isSome ↔ si = (c.S : Int) - 1) ∧ (o'.isSome ↔ si = (c.S : Int) - 1) ∧
      (si ≠ (c.S : Int) - 1 → i'.strideIndex = si + 1) ∧ i'.buffer ≠ [] ∧
      ConvRel c m (c.K - 1) i' j' ∧ (x = x' → ConvRel c m (k - 1) i' j' ∧ (k = 0 → o = o')) := by
  obtain ⟨o, e, p1, p2, p3, p4⟩ := conv_some c hK h.len hr h0 h1 si x
  obtain ⟨o', e', q1, q2, q3, q4⟩ := conv_some c hK h.len' hr' h0 h1 si x'
  obtain ⟨f, f', w1, w2, w3, w4⟩ := h.write (by omega) ((Conv.taps c x).drop 1) ((Conv.taps c x').drop 1)
  rw [p3] at w1
  rw [q3] at w2
  obtain rfl := Except.ok.inj w1
  obtain rfl := Except.ok.inj w2
  obtain ⟨n1, n2, n3⟩ := nextStride_quiet hS hm hs
  have hx0 := Int.emod_nonneg (idx + 1) (show ((c.K - 1 : Nat) : Int) ≠ 0 by omega)
  have hx1 := Int.emod_lt_of_pos (idx + 1) (show (0 : Int) < ((c.K - 1 : Nat) : Int) by omega)
  refine ⟨o, o', _, _, p1, q1, p2, q2, n3, ?_, ?_, ?_⟩
  · intro h0; have := w3.len; simp only at h0; rw [h0] at this; simp at this; omega
  · exact .inr ⟨rfl, hx0, hx1, rfl, n1, n2, w3.wrap, p4, q4⟩
  · rintro rfl
    refine ⟨.inr ⟨rfl, hx0, hx1, rfl, n1, n2, (w4 rfl).wrap, p4, q4⟩, ?_⟩
    rintro rfl
    have := h.eq (by omega)
    subst this
    rw [p1] at q1
    exact (Prod.mk.inj (Except.ok.inj q1)).1

theorem conv_forgets (hK : 2 ≤ c.K) (hS : 0 < c.S) (hP : c.P < c.K) (m : Nat) :
    Exact (Conv.mod c) (c.K - 1) (c.S + m) (ConvRel c m) (convQuiet c) := by
  have hstart : convStart c ≤ (c.S : Int) - 1 := by unfold convStart; omega
  have hne : ∀ {b : List (List Y)}, b.length = c.K - 1 → b ≠ [] := by
    rintro b hb rfl; simp at hb; omega
  refine ⟨?_, ?_⟩
  · intro k i j h
    unfold convQuiet
    rcases h with ⟨h1, h2, h3⟩ | ⟨_, _, _, h4, h5, h6, h7, _⟩
    · rw [if_pos h1, if_pos h2]; exact ⟨rfl, by omega⟩
    · rw [if_neg (hne h7.len), if_neg (hne h7.len'), h4]; exact ⟨rfl, by omega⟩
  · intro k i j h x x'
    have hst : Conv.stateless c = false := by simp [Conv.stateless]; omega
    have key : ∀ (i : Conv.St Y) (x : X) (st : Conv.St Y) (o : Option Y) (i' : Conv.St Y),
        ((i.buffer = [] ∧ st = Conv.initState c ((Conv.taps c x).drop 1)) ∨ (i.buffer ≠ [] ∧ st = i)) →
        Conv.pstep c x (some st) = .ok (o, some i') → (Conv.mod c).step i true x = .ok (o, i') := by
      intro i x st o i' hi hp
      have e : Conv.pstep c x ((Conv.leaf c).get i) = .ok (o, some i') := by
        rcases hi with ⟨h1, h2⟩ | ⟨h1, rfl⟩
        · have : (Conv.leaf c).get i = none := by simp [h1]
          rw [this, ← hp]
          subst h2
          unfold Conv.pstep
          rw [hst]
          rfl
        · have : (Conv.leaf c).get st = some st := if_pos (List.length_pos_iff.2 h1)
          rw [this, hp]
      show ((Conv.leaf c).pstep x ((Conv.leaf c).get i) >>= _) = _
      have e' : (Conv.leaf c).pstep x ((Conv.leaf c).get i) = .ok (o, some i') := e
      rw [e']; rfl
    rcases h with ⟨h1, h2, h3⟩ | ⟨h1, h2, h3, h4, h5, h6, h7, h8, h9⟩
    · have hrow : ∀ y : X, (∀ r ∈ List.replicate (c.K - 1) (Conv.padRest c ((Conv.taps c y).drop 1)), r.length = c.K - 1) := by
        intro y r hr
        rw [(List.mem_replicate.1 hr).2]
        unfold Conv.padRest
        cases c.fill <;> simp [Conv.taps]
      obtain ⟨o, o', i', j', g1, g2, g3, g4, g5, g6, g7, g8⟩ := conv_core c hK hS (m := m) (k := c.K - 1) (idx := 0)
        (si := convStart c) (le_refl _) (by omega) h3 hstart (Agree.trivial 0 (by simp) (by simp)) (hrow x) (hrow x') x x'
      refine ⟨o, o', i', j', key i x _ _ _ (.inl ⟨h1, rfl⟩) g1, key j x' _ _ _ (.inl ⟨h2, rfl⟩) g2, ?_, ?_, ?_, g7, ?_⟩
      · rw [g3]; simp only [convQuiet, if_pos h1]; omega
      · rw [g4]; simp only [convQuiet, if_pos h1]; omega
      · intro hq
        simp only [convQuiet, if_pos h1, if_neg g6] at hq ⊢
        rw [g5 (by omega)]; omega
      · rintro rfl
        rw [g1] at g2
        simp only [Except.ok.injEq, Prod.mk.injEq, Option.some.injEq] at g2
        obtain ⟨rfl, rfl⟩ := g2
        refine ⟨?_, fun _ => rfl⟩
        rcases g7 with ⟨h, _⟩ | ⟨a1, a2, a3, a4, a5, a6, a7, a8, a9⟩
        · exact absurd h g6
        · exact .inr ⟨a1, a2, a3, a4, a5, a6, Agree.refl _ _ _ _ a7.len, a8, a9⟩
    · obtain ⟨o, o', i', j', g1, g2, g3, g4, g5, g6, g7, g8⟩ := conv_core c hK hS h2 h3 h5 h6 h7 h8 h9 x x'
      refine ⟨o, o', i', j', key i x _ _ _ (.inr ⟨hne h7.len, rfl⟩) g1,
        key j x' _ _ _ (.inr ⟨hne h7.len', by rw [h1, h4]⟩) g2, ?_, ?_, ?_, g7, g8⟩
      · rw [g3]; simp only [convQuiet, if_neg (hne h7.len)]; omega
      · rw [g4]; simp only [convQuiet, if_neg (hne h7.len)]; omega
      · intro hq
        simp only [convQuiet, if_neg (hne h7.len), if_neg g6] at hq ⊢
        rw [g5 (by omega)]; omega

end Conv

/-! ### Pooling -/

section Pool
variable (c : Pool.Cfg X Y)

/-- The first value of the stride counter: pooling.py:163-166. -/
def poolStart : Int := (c.S : Int) - Pool.bufLen c + c.P

def PoolRel (m k : Nat) (i j : Pool.St Y) : Prop :=
  (i.buffer = [] ∧ j.buffer = [] ∧ -(m : Int) ≤ poolStart c) ∨
    (i.index = j.index ∧ 0 ≤ i.index ∧ i.index < (c.K : Int) ∧ i.strideIndex = j.strideIndex ∧
      -(m : Int) ≤ i.strideIndex ∧ i.strideIndex ≤ (c.S : Int) - 1 ∧ Agree c.K (k + 1) i.index i.buffer j.buffer)

def poolQuiet (i : Pool.St Y) : Nat := ((c.S : Int) - 1 - if i.buffer = [] then poolStart c else i.strideIndex).toNat

theorem pool_some (hd : c.dil = 1) (hK : 1 ≤ c.K) {b : List Y} (hb : b.length = c.K) {idx : Int}
    (h0 : 0 ≤ idx) (h1 : idx < (c.K : Int)) (si : Int) (x : X) :
    ∃ e, pySet b (idx % (c.K : Int)) (c.spatial x) = .ok e ∧ Pool.pstep c x (some ⟨b, idx, si⟩) =
      .ok (if si = (c.S : Int) - 1 then some (c.pool e) else none,
        some ⟨e, (idx + 1) % (c.K : Int), Conv.nextStride c.S si⟩) := by
  obtain ⟨t, rfl⟩ := Int.eq_ofNat_of_zero_le h0
  have htl : t < b.length := by omega
  have hset : pySet b (t : Int) (c.spatial x) = .ok (b.set t (c.spatial x)) := pySet_ofNat _ htl
  refine ⟨b.set t (c.spatial x), by rw [Int.emod_eq_of_lt h0 h1, hset], ?_⟩
  unfold Pool.pstep
  simp only [hset, bind, Except.bind, pure, Except.pure, Pool.select, if_pos hd]
  by_cases hs : si = (c.S : Int) - 1
  · simp [hs]
  · simp [hs]

theorem pool_core (hd : c.dil = 1) (hK : 1 ≤ c.K) (hS : 0 < c.S) {m k : Nat} {b b' : List Y} {idx si : Int} (h0 : 0 ≤ idx)
    (h1 : idx < (c.K : Int)) (hm : -(m : Int) ≤ si) (hs : si ≤ (c.S : Int) - 1) (h : Agree c.K (k + 1) idx b b')
    (x x' : X) : ∃ o o' i' j',
      Pool.pstep c x (some ⟨b, idx, si⟩) = .ok (o, some i') ∧ Pool.pstep c x' (some ⟨b', idx, si⟩) = .ok (o', some j') ∧
      (o.isSome ↔ si = (c.S : Int) - 1) ∧ (o'.isSome ↔ si = (c.S : Int) - 1) ∧
      (si ≠ (c.S : Int) - 1 → i'.strideIndex = si + 1) ∧ i'.buffer ≠ [] ∧
      PoolRel c m (c.K - 1) i' j' ∧ (x = x' → PoolRel c m (k - 1) i' j' ∧ (k = 0 → o = o')) := by
  obtain ⟨e, p3, p1⟩ := pool_some c hd hK h.len h0 h1 si x
  obtain ⟨e', q3, q1⟩ := pool_some c hd hK h.len' h0 h1 si x'
  obtain ⟨f, f', w1, w2, w3, w4⟩ := h.write (by omega) (c.spatial x) (c.spatial x')
  rw [p3] at w1
  rw [q3] at w2
  obtain rfl := Except.ok.inj w1
  obtain rfl := Except.ok.inj w2
  obtain ⟨n1, n2, n3⟩ := nextStride_quiet hS hm hs
  have hx0 := Int.emod_nonneg (idx + 1) (show (c.K : Int) ≠ 0 by omega)
  have hx1 := Int.emod_lt_of_pos (idx + 1) (show (0 : Int) < (c.K : Int) by omega)
  refine ⟨_, _, _, _, p1, q1, ?_, ?_, n3, ?_, ?_, ?_⟩
  · split <;> simp [*]
  · split <;> simp [*]
  · intro h0; have := w3.len; simp only at h0; rw [h0] at this; simp at this; omega
  · exact .inr ⟨rfl, hx0, hx1, rfl, n1, n2, by rw [show c.K - 1 + 1 = c.K by omega]; exact w3.wrap⟩
  · rintro rfl
    refine ⟨.inr ⟨rfl, hx0, hx1, rfl, n1, n2, ((w4 rfl).mono (by omega)).wrap⟩, ?_⟩
    rintro rfl
    have := (w4 rfl).eq (by omega)
    subst this
    rfl

theorem pool_forgets (hd : c.dil = 1) (hK : 1 ≤ c.K) (hS : 0 < c.S) (hP : c.P < c.K) (m : Nat) :
    Exact (Pool.mod c) (c.K - 1) (c.S + m) (PoolRel c m) (poolQuiet c) := by
  have hlen : Pool.bufLen c = c.K := by simp [Pool.bufLen, hd]; omega
  have hstart : poolStart c ≤ (c.S : Int) - 1 := by unfold poolStart; rw [hlen]; omega
  have hne : ∀ {b : List Y}, b.length = c.K → b ≠ [] := by
    rintro b hb rfl; simp at hb; omega
  refine ⟨?_, ?_⟩
  · intro k i j h
    unfold poolQuiet
    rcases h with ⟨h1, h2, h3⟩ | ⟨_, _, _, h4, h5, h6, h7⟩
    · rw [if_pos h1, if_pos h2]; exact ⟨rfl, by omega⟩
    · rw [if_neg (hne h7.len), if_neg (hne h7.len'), h4]; exact ⟨rfl, by omega⟩
  · intro k i j h x x'
    have key : ∀ (i : Pool.St Y) (x : X) (st : Pool.St Y) (o : Option Y) (i' : Pool.St Y),
        ((i.buffer = [] ∧ st = Pool.initState c (c.spatial x)) ∨ (i.buffer ≠ [] ∧ st = i)) →
        Pool.pstep c x (some st) = .ok (o, some i') → (Pool.mod c).step i true x = .ok (o, i') := by
      intro i x st o i' hi hp
      have e : Pool.pstep c x ((Pool.leaf c).get i) = .ok (o, some i') := by
        rcases hi with ⟨h1, h2⟩ | ⟨h1, rfl⟩
        · have : (Pool.leaf c).get i = none := by simp [h1]
          rw [this, ← hp]
          subst h2
          rfl
        · have : (Pool.leaf c).get st = some st := if_pos (List.length_pos_iff.2 h1)
          rw [this, hp]
      show ((Pool.leaf c).pstep x ((Pool.leaf c).get i) >>= _) = _
      have e' : (Pool.leaf c).pstep x ((Pool.leaf c).get i) = .ok (o, some i') := e
      rw [e']; rfl
    rcases h with ⟨h1, h2, h3⟩ | ⟨h1, h2, h3, h4, h5, h6, h7⟩
    · obtain ⟨o, o', i', j', g1, g2, g3, g4, g5, g6, g7, g8⟩ := pool_core c hd hK hS (m := m) (k := c.K - 1) (idx := 0)
        (si := poolStart c) (b := List.replicate (Pool.bufLen c) (c.fillOut (c.spatial x)))
        (b' := List.replicate (Pool.bufLen c) (c.fillOut (c.spatial x'))) (le_refl _) (by omega) h3 hstart
        (by rw [show c.K - 1 + 1 = c.K by omega]; exact Agree.trivial 0 (by simp [hlen]) (by simp [hlen])) x x'
      refine ⟨o, o', i', j', key i x _ _ _ (.inl ⟨h1, rfl⟩) g1, key j x' _ _ _ (.inl ⟨h2, rfl⟩) g2, ?_, ?_, ?_, g7, ?_⟩
      · rw [g3]; simp only [poolQuiet, if_pos h1]; omega
      · rw [g4]; simp only [poolQuiet, if_pos h1]; omega
      · intro hq
        simp only [poolQuiet, if_pos h1, if_neg g6] at hq ⊢
        rw [g5 (by omega)]; omega
      · rintro rfl
        rw [g1] at g2
        simp only [Except.ok.injEq, Prod.mk.injEq, Option.some.injEq] at g2
        obtain ⟨rfl, rfl⟩ := g2
        refine ⟨?_, fun _ => rfl⟩
        rcases g7 with ⟨h, _⟩ | ⟨a1, a2, a3, a4, a5, a6, a7⟩
        · exact absurd h g6
        · exact .inr ⟨a1, a2, a3, a4, a5, a6, Agree.refl _ _ _ _ a7.len⟩
    · obtain ⟨o, o', i', j', g1, g2, g3, g4, g5, g6, g7, g8⟩ := pool_core c hd hK hS h2 h3 h5 h6 h7 x x'
      refine ⟨o, o', i', j', key i x _ _ _ (.inr ⟨hne h7.len, rfl⟩) g1,
        key j x' _ _ _ (.inr ⟨hne h7.len', by rw [h1, h4]⟩) g2, ?_, ?_, ?_, g7, g8⟩
      · rw [g3]; simp only [poolQuiet, if_neg (hne h7.len)]; omega
      · rw [g4]; simp only [poolQuiet, if_neg (hne h7.len)]; omega
      · intro hq
        simp only [poolQuiet, if_neg (hne h7.len), if_neg g6] at hq ⊢
        rw [g5 (by omega)]; omega

end Pool

end CoInf.Forget
