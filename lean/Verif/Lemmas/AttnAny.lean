/-
The attention modules forget, whatever the arithmetic.
-/
import Verif.Model.AttnAny
import Verif.Lemmas.Attention
import Verif.Lemmas.Forget

set_option autoImplicit false

namespace CoInf.AttnAny
open Spec Forget

/-! ### Exact arithmetic is an instance -/

section field
variable {F X Y B E : Type} [Field F] [Fintype E] (c : Attn.Cfg F X Y B E)

/-- The operations of `Verif.Model.Attention`. -/
@[reducible] def fieldCfg : Cfg X Y (B → E → F) (B → F) where
  N := c.N
  ops :=
    { w := Attn.w c
      addA := (· + ·), subA := (· - ·), sumA := List.sum
      scale := fun a v => fun i e => a i * v i e
      addR := (· + ·), subR := (· - ·), mix := Attn.mix
      div := fun av dd => fun i e => av i e / dd i
      row := Attn.attnRow c
      zeroA := 0, zeroR := 0 }
  q := Attn.sq c
  k := c.k
  v := c.v
  out := c.out

def toRetro (s : Attn.RetroSt F B E) : RetroSt (B → E → F) (B → F) := ⟨s.d, s.AV, s.Q, s.K, s.V⟩

def toSingle (s : Attn.SingleSt F B E) : SingleSt (B → E → F) := ⟨s.Q, s.K, s.V⟩

theorem retroDefault_instance : retroDefault (fieldCfg c) = (Attn.retroDefault c).map toRetro := by
  unfold retroDefault Attn.retroDefault
  split <;> rfl

theorem retroSdpa_instance (s : Attn.RetroSt F B E) (x : X) :
    retroSdpa (fieldCfg c) (toRetro s) x = (Attn.retroSdpa c s x).map fun r => (r.1, toRetro r.2) := by
  unfold retroSdpa Attn.retroSdpa
  simp only [bind, Except.bind, pure, Except.pure, toRetro]
  cases pyGet s.K 0 with
  | error e => rfl
  | ok k0 =>
  cases Attn.rollSet s.Q (Attn.sq c x) with
  | error e => rfl
  | ok Qn =>
  cases Attn.rollSet s.K (c.k x) with
  | error e => rfl
  | ok Kn =>
  cases pyGet s.V 0 with
  | error e => rfl
  | ok v0 =>
  cases Attn.rollSet s.V (c.v x) with
  | error e => rfl
  | ok Vn => rfl

theorem singleDefault_instance (qi : Int) : singleDefault (fieldCfg c) qi = (Attn.singleDefault c qi).map toSingle := by
  unfold singleDefault Attn.singleDefault
  split <;> rfl

theorem singleSdpa_instance (s : Attn.SingleSt F B E) (x : X) :
    singleSdpa (fieldCfg c) (toSingle s) x = (Attn.singleSdpa c s x).map fun r => (r.1, toSingle r.2) := by
  obtain ⟨Q, K, V⟩ := s
  unfold singleSdpa Attn.singleSdpa
  simp only [toSingle]
  cases Attn.rollSet K (c.k x) with
  | error e => rfl
  | ok Kn =>
  cases Attn.rollSet V (c.v x) with
  | error e => rfl
  | ok Vn =>
  cases Q with
  | nil => rfl
  | cons a Q =>
    simp only [List.isEmpty_cons, Bool.false_eq_true, if_false]
    cases Attn.rollSet (a :: Q) (Attn.sq c x) <;> rfl
end field

/-! ### The common part -/

section base
variable {X O : Type} (b : Attn.Base X O)

/-- The relation on objects: same counter, related states.  `m` bounds the wait for the first output. -/
def BaseRel (SR : Nat → b.S → b.S → Prop) (m k : Nat) (i j : b.mod.Inst) : Prop :=
  (i = none ∧ j = none ∧ b.N ≤ m + 1) ∨
    ∃ s s' idx, i = some (s, idx) ∧ j = some (s', idx) ∧ idx ≤ 0 ∧ -(m : Int) - 1 ≤ idx ∧ SR k s s'

/-- Frames until the next output. -/
def baseQuiet (i : b.mod.Inst) : Nat :=
  match i with
  | none => b.N - 1
  | some st => (-st.2 - 1).toNat

theorem base_core {n : Nat} {SR : Nat → b.S → b.S → Prop}
    (hstep : ∀ {k s s'}, SR k s s' → ∀ x x', ∃ o o' t t', b.sdpa s x = .ok (o, t) ∧ b.sdpa s' x' = .ok (o', t') ∧ SR n t t' ∧
      (x = x' → SR (k - 1) t t' ∧ (k = 0 → o = o')))
    {m k : Nat} {s s' : b.S} {idx : Int} (h0 : idx ≤ 0) (hm : -(m : Int) - 1 ≤ idx) (hr : SR k s s') {i j : b.mod.Inst}
    (hi : Attn.start b i = .ok (s, idx)) (hj : Attn.start b j = .ok (s', idx)) (x x' : X) :
    ∃ o o' i' j', b.mod.step i true x = .ok (o, i') ∧ b.mod.step j true x' = .ok (o', j') ∧
      (o.isSome ↔ (-idx - 1).toNat = 0) ∧ (o'.isSome ↔ (-idx - 1).toNat = 0) ∧
      ((-idx - 1).toNat ≠ 0 → baseQuiet b i' + 1 = (-idx - 1).toNat) ∧ BaseRel b SR m n i' j' ∧
      (x = x' → BaseRel b SR m (k - 1) i' j' ∧ (k = 0 → o = o')) := by
  obtain ⟨o, o', t, t', g1, g2, g3, g4⟩ := hstep hr x x'
  have e1 : b.mod.step i true x = .ok (if (if idx < 0 then idx + 1 else idx) < 0 then none else some o,
      some (t, if idx < 0 then idx + 1 else idx)) := by
    show Attn.step b i true x = _
    simp only [Attn.step, Attn.pstep, hi, g1, if_true]
  have e2 : b.mod.step j true x' = .ok (if (if idx < 0 then idx + 1 else idx) < 0 then none else some o',
      some (t', if idx < 0 then idx + 1 else idx)) := by
    show Attn.step b j true x' = _
    simp only [Attn.step, Attn.pstep, hj, g2, if_true]
  refine ⟨_, _, _, _, e1, e2, ?_, ?_, ?_, ?_, ?_⟩
  · by_cases h : (if idx < 0 then idx + 1 else idx) < 0
    · rw [if_pos h]; simp; split at h <;> omega
    · rw [if_neg h]; simp; split at h <;> omega
  · by_cases h : (if idx < 0 then idx + 1 else idx) < 0
    · rw [if_pos h]; simp; split at h <;> omega
    · rw [if_neg h]; simp; split at h <;> omega
  · intro h
    simp only [baseQuiet]
    split <;> omega
  · exact .inr ⟨t, t', _, rfl, rfl, by split <;> omega, by split <;> omega, g3⟩
  · intro hx
    obtain ⟨g5, g6⟩ := g4 hx
    exact ⟨.inr ⟨t, t', _, rfl, rfl, by split <;> omega, by split <;> omega, g5⟩, fun hk => by rw [g6 hk]⟩

theorem base_forgets {n : Nat} {SR : Nat → b.S → b.S → Prop} (hN : 1 ≤ b.N) {d : b.S} (hd : b.dflt = .ok d) (hdd : ∀ k, SR k d d)
    (hstep : ∀ {k s s'}, SR k s s' → ∀ x x', ∃ o o' t t', b.sdpa s x = .ok (o, t) ∧ b.sdpa s' x' = .ok (o', t') ∧ SR n t t' ∧
      (x = x' → SR (k - 1) t t' ∧ (k = 0 → o = o'))) (m : Nat) :
    Exact b.mod n (m + 1) (BaseRel b SR m) (baseQuiet b) where
  quiet_eq := by
    intro k i j hr
    rcases hr with ⟨rfl, rfl, h⟩ | ⟨s, s', idx, rfl, rfl, h0, hm, _⟩
    · exact ⟨rfl, by simp only [baseQuiet]; omega⟩
    · exact ⟨rfl, by simp only [baseQuiet]; omega⟩
  step := by
    intro k i j hr x x'
    rcases hr with ⟨rfl, rfl, h⟩ | ⟨s, s', idx, rfl, rfl, h0, hm, hr⟩
    · have hq : baseQuiet b none = (-(-(b.N : Int)) - 1).toNat := by simp only [baseQuiet]; omega
      rw [hq]
      have hs : Attn.start b none = .ok (d, -(b.N : Int)) := by simp only [Attn.start, hd, Except.map]
      exact base_core b hstep (by omega) (by omega) (hdd k) hs hs x x'
    · exact base_core b hstep h0 hm hr rfl rfl x x'
end base

/-! ### Memories -/

/-- Memories of `L` entries that differ at most in the oldest `a`. -/
structure Mem {α : Type} (L a : Nat) (l l' : List α) : Prop where
  len : l.length = L
  len' : l'.length = L
  agree : l.drop a = l'.drop a

theorem Mem.full {α : Type} {L : Nat} {l l' : List α} (h : l.length = L) (h' : l'.length = L) {a : Nat} (ha : L ≤ a) : Mem L a l l' :=
  ⟨h, h', by rw [List.drop_eq_nil_of_le (by omega), List.drop_eq_nil_of_le (by omega)]⟩

theorem Mem.eq {α : Type} {L a : Nat} {l l' : List α} (h : Mem L a l l') (ha : a = 0) : l = l' := by
  subst ha; simpa using h.agree

theorem Mem.mono {α : Type} {L a a' : Nat} {l l' : List α} (h : Mem L a l l') (ha : a ≤ a') : Mem L a' l l' :=
  ⟨h.len, h.len', by
    obtain ⟨t, rfl⟩ := Nat.exists_eq_add_of_le ha
    rw [← List.drop_drop, ← List.drop_drop, h.agree]⟩

/-- One more entry. -/
theorem Mem.roll {α : Type} {L a : Nat} {l l' : List α} (h : Mem L a l l') (hL : 0 < L) (x x' : α) :
    Attn.rollSet l x = .ok (l.drop 1 ++ [x]) ∧ Attn.rollSet l' x' = .ok (l'.drop 1 ++ [x']) ∧
      Mem L L (l.drop 1 ++ [x]) (l'.drop 1 ++ [x']) ∧ (x = x' → Mem L (a - 1) (l.drop 1 ++ [x]) (l'.drop 1 ++ [x'])) := by
  have h1 := h.len
  have h2 := h.len'
  have e1 : (l.drop 1 ++ [x]).length = L := by simp; omega
  have e2 : (l'.drop 1 ++ [x']).length = L := by simp; omega
  refine ⟨Attn.rollSet_ok (by rintro rfl; simp at h1; omega) x, Attn.rollSet_ok (by rintro rfl; simp at h2; omega) x',
    .full e1 e2 (le_refl _), fun hx => ⟨e1, e2, ?_⟩⟩
  subst hx
  rcases Nat.eq_zero_or_pos a with rfl | ha
  · rw [h.eq rfl]
  · by_cases hL' : a ≤ L
    · rw [List.drop_append_of_le_length (by simp; omega), List.drop_append_of_le_length (by simp; omega), List.drop_drop,
        List.drop_drop, show 1 + (a - 1) = a by omega, h.agree]
    · rw [List.drop_eq_nil_of_le (by omega), List.drop_eq_nil_of_le (by omega)]

/-! ### Retroactive -/

section
variable {X Y R A : Type} (c : Cfg X Y R A)

/-- `k` further common frames are needed. -/
structure RetroRel (k : Nat) (s s' : RetroSt R A) : Prop where
  d : Mem (c.N - 1) k s.d s'.d
  AV : Mem (c.N - 1) k s.AV s'.AV
  Q : Mem (c.N - 1) (k - (c.N - 1)) s.Q s'.Q
  K : Mem c.N (k - (c.N - 2)) s.K s'.K
  V : Mem c.N (k - (c.N - 2)) s.V s'.V

theorem mem_update {α β : Type} (f g : α → β → α) {N k : Nat} (hN : 2 ≤ N) {d d' : List α} {l l' r r' : List β} {z z' : α}
    (hd : Mem (N - 1) k d d') (hl : l.length = N - 1) (hl' : l'.length = N - 1) (hr : r.length = N - 1) (hr' : r'.length = N - 1)
    (h1 : k ≤ N - 2 → l = l' ∧ r = r') (h2 : k ≤ N - 1 → z = z') :
    Mem (N - 1) (k - 1) ((List.zipWith f (List.zipWith g d l) r ++ [z]).drop 1)
      ((List.zipWith f (List.zipWith g d' l') r' ++ [z']).drop 1) := by
  have hdl := hd.len
  have hdl' := hd.len'
  have e1 : ((List.zipWith f (List.zipWith g d l) r ++ [z]).drop 1).length = N - 1 := by simp; omega
  have e2 : ((List.zipWith f (List.zipWith g d' l') r' ++ [z']).drop 1).length = N - 1 := by simp; omega
  refine ⟨e1, e2, ?_⟩
  by_cases hk : k ≤ N - 2
  · obtain ⟨rfl, rfl⟩ := h1 hk
    obtain rfl := h2 (by omega)
    rcases Nat.eq_zero_or_pos k with rfl | hk0
    · rw [hd.eq rfl]
    · rw [List.drop_drop, List.drop_drop, show 1 + (k - 1) = k by omega,
        List.drop_append_of_le_length (by simp; omega), List.drop_append_of_le_length (by simp; omega)]
      simp only [List.drop_zipWith, hd.agree]
  · by_cases hk' : k = N - 1
    · obtain rfl := h2 (by omega)
      rw [List.drop_drop, List.drop_drop, show 1 + (k - 1) = N - 1 by omega,
        List.drop_append_of_le_length (by simp; omega), List.drop_append_of_le_length (by simp; omega),
        List.drop_eq_nil_of_le (by simp; omega), List.drop_eq_nil_of_le (by simp; omega)]
    · rw [List.drop_eq_nil_of_le (by omega), List.drop_eq_nil_of_le (by omega)]

theorem retro_step (hN : 2 ≤ c.N) {k : Nat} {s s' : RetroSt R A} (h : RetroRel c k s s') (x x' : X) :
    ∃ o o' t t', retroSdpa c s x = .ok (o, t) ∧ retroSdpa c s' x' = .ok (o', t') ∧ RetroRel c (2 * c.N - 2) t t' ∧
      (x = x' → RetroRel c (k - 1) t t' ∧ (k = 0 → o = o')) := by
  obtain ⟨q1, q2, q3, q4⟩ := h.Q.roll (by omega) (c.q x) (c.q x')
  obtain ⟨k1, k2, k3, k4⟩ := h.K.roll (by omega) (c.k x) (c.k x')
  obtain ⟨v1, v2, v3, v4⟩ := h.V.roll (by omega) (c.v x) (c.v x')
  have gk : ∀ l : List R, l.length = c.N → ∃ a, pyGet l 0 = .ok a := fun l hl => by
    cases l with
    | nil => simp at hl; omega
    | cons a l => exact ⟨a, rfl⟩
  obtain ⟨k0, g1⟩ := gk _ h.K.len
  obtain ⟨k0', g1'⟩ := gk _ h.K.len'
  obtain ⟨v0, g2⟩ := gk _ h.V.len
  obtain ⟨v0', g2'⟩ := gk _ h.V.len'
  have e1 : retroSdpa c s x = .ok ((retroCore c s (c.q x) (c.k x) (c.v x) k0 v0 (s.Q.drop 1 ++ [c.q x]) (s.K.drop 1 ++ [c.k x])
      (s.V.drop 1 ++ [c.v x])).1.map c.out, (retroCore c s (c.q x) (c.k x) (c.v x) k0 v0 (s.Q.drop 1 ++ [c.q x])
      (s.K.drop 1 ++ [c.k x]) (s.V.drop 1 ++ [c.v x])).2) := by
    simp only [retroSdpa, g1, q1, k1, g2, v1, bind, Except.bind, pure, Except.pure]
  have e2 : retroSdpa c s' x' = .ok ((retroCore c s' (c.q x') (c.k x') (c.v x') k0' v0' (s'.Q.drop 1 ++ [c.q x'])
      (s'.K.drop 1 ++ [c.k x']) (s'.V.drop 1 ++ [c.v x'])).1.map c.out, (retroCore c s' (c.q x') (c.k x') (c.v x') k0' v0'
      (s'.Q.drop 1 ++ [c.q x']) (s'.K.drop 1 ++ [c.k x']) (s'.V.drop 1 ++ [c.v x'])).2) := by
    simp only [retroSdpa, g1', q2, k2, g2', v2, bind, Except.bind, pure, Except.pure]
  have a1 := h.d.len
  have a2 := h.d.len'
  have a3 := h.AV.len
  have a4 := h.AV.len'
  have a5 := h.Q.len
  have a6 := h.Q.len'
  refine ⟨_, _, _, _, e1, e2, ?_, fun hx => ⟨?_, fun hk => ?_⟩⟩
  · refine ⟨.full ?_ ?_ (by omega), .full ?_ ?_ (by omega), q3.mono (by omega), k3.mono (by omega), v3.mono (by omega)⟩ <;>
      (simp [retroCore]; omega)
  · subst hx
    have hK : k ≤ c.N - 2 → s.Q = s'.Q ∧ k0 = k0' ∧ v0 = v0' := fun hk => by
      refine ⟨h.Q.eq (by omega), ?_, ?_⟩
      · rw [h.K.eq (by omega), g1'] at g1; exact (Except.ok.inj g1).symm
      · rw [h.V.eq (by omega), g2'] at g2; exact (Except.ok.inj g2).symm
    have hB : k ≤ c.N - 1 → s.K.drop 1 ++ [c.k x] = s'.K.drop 1 ++ [c.k x] ∧ s.V.drop 1 ++ [c.v x] = s'.V.drop 1 ++ [c.v x] :=
      fun hk => ⟨(k4 rfl).eq (by omega), (v4 rfl).eq (by omega)⟩
    refine ⟨?_, ?_, (q4 rfl).mono (by omega), (k4 rfl).mono (by omega), (v4 rfl).mono (by omega)⟩
    · refine mem_update _ _ hN h.d (by simp [a5]) (by simp [a6]) (by simp [a5]) (by simp [a6]) (fun hk => ?_) (fun hk => ?_)
      · obtain ⟨r1, r2, r3⟩ := hK hk
        rw [r1, r2]; exact ⟨rfl, rfl⟩
      · rw [(hB hk).1]
    · refine mem_update _ _ hN h.AV (by simp [a5]) (by simp [a6]) (by simp [a5]) (by simp [a6]) (fun hk => ?_) (fun hk => ?_)
      · obtain ⟨r1, r2, r3⟩ := hK hk
        rw [r1, r2, r3]; exact ⟨rfl, rfl⟩
      · rw [(hB hk).1, (hB hk).2]
  · subst hx hk
    have es : s = s' := by
      cases s; cases s'
      have := h.d.eq rfl; have := h.AV.eq rfl; have := h.Q.eq (by omega); have := h.K.eq (by omega); have := h.V.eq (by omega)
      simp_all
    subst es
    rw [g1] at g1'; rw [g2] at g2'
    rw [Except.ok.inj g1', Except.ok.inj g2']

theorem retro_forgets (hN : 2 ≤ c.N) (fwd : List X → Except Err (List (List Y))) (m : Nat) :
    Exact (retroBase c fwd).mod (2 * c.N - 2) (m + 1) (BaseRel (retroBase c fwd) (RetroRel c) m) (baseQuiet (retroBase c fwd)) := by
  have hd : (retroBase c fwd).dflt = .ok ⟨List.replicate (c.N - 1) c.ops.zeroA, List.replicate (c.N - 1) c.ops.zeroR,
      List.replicate (c.N - 1) c.ops.zeroR, List.replicate c.N c.ops.zeroR, List.replicate c.N c.ops.zeroR⟩ := by
    show retroDefault c = _
    unfold retroDefault; rw [if_neg (by omega)]
  refine base_forgets (retroBase c fwd) (by show 1 ≤ c.N; omega) hd ?_ (retro_step c hN) m
  intro k
  exact ⟨⟨by simp, by simp, rfl⟩, ⟨by simp, by simp, rfl⟩, ⟨by simp, by simp, rfl⟩, ⟨by simp, by simp, rfl⟩, ⟨by simp, by simp, rfl⟩⟩

/-! ### Single output -/

/-- `k` further common frames are needed. -/
structure SingleRel (nq k : Nat) (s s' : SingleSt R) : Prop where
  Q : Mem nq k s.Q s'.Q
  K : Mem c.N (k + 1) s.K s'.K
  V : Mem c.N (k + 1) s.V s'.V

theorem single_step (hN : 1 ≤ c.N) {nq k : Nat} {s s' : SingleSt R} (h : SingleRel c nq k s s') (x x' : X) :
    ∃ o o' t t', singleSdpa c s x = .ok (o, t) ∧ singleSdpa c s' x' = .ok (o', t') ∧ SingleRel c nq (max (c.N - 1) nq) t t' ∧
      (x = x' → SingleRel c nq (k - 1) t t' ∧ (k = 0 → o = o')) := by
  obtain ⟨k1, k2, k3, k4⟩ := h.K.roll (by omega) (c.k x) (c.k x')
  obtain ⟨v1, v2, v3, v4⟩ := h.V.roll (by omega) (c.v x) (c.v x')
  have a1 := h.Q.len
  have a2 := h.Q.len'
  rcases Nat.eq_zero_or_pos nq with rfl | hq
  · have z1 : s.Q = [] := List.eq_nil_of_length_eq_zero a1
    have z2 : s'.Q = [] := List.eq_nil_of_length_eq_zero a2
    refine ⟨_, _, _, _, by simp only [singleSdpa, k1, v1, z1]; rfl, by simp only [singleSdpa, k2, v2, z2]; rfl, ?_, fun hx => ⟨?_, fun hk => ?_⟩⟩
    · exact ⟨⟨rfl, rfl, rfl⟩, k3.mono (by omega), v3.mono (by omega)⟩
    · exact ⟨⟨rfl, rfl, rfl⟩, (k4 (by rw [hx])).mono (by omega), (v4 (by rw [hx])).mono (by omega)⟩
    · subst hx
      rw [(k4 rfl).eq (by omega), (v4 rfl).eq (by omega)]
  · obtain ⟨q1, q2, q3, q4⟩ := h.Q.roll hq (c.q x) (c.q x')
    have z1 : s.Q.isEmpty = false := by cases hs : s.Q <;> simp_all
    have z2 : s'.Q.isEmpty = false := by cases hs : s'.Q <;> simp_all
    refine ⟨_, _, _, _, by simp only [singleSdpa, k1, v1, z1, q1]; rfl, by simp only [singleSdpa, k2, v2, z2, q2]; rfl, ?_, fun hx => ⟨?_, fun hk => ?_⟩⟩
    · exact ⟨q3.mono (by omega), k3.mono (by omega), v3.mono (by omega)⟩
    · exact ⟨q4 (by rw [hx]), (k4 (by rw [hx])).mono (by omega), (v4 (by rw [hx])).mono (by omega)⟩
    · subst hx
      rw [(k4 rfl).eq (by omega), (v4 rfl).eq (by omega), h.Q.eq hk]

theorem single_forgets (hN : 1 ≤ c.N) (qi : Int) (hq : 0 ≤ Attn.nq c.N qi) (fwd : List X → Except Err (List Y)) (m : Nat) :
    Exact (singleBase c qi fwd).mod (max (c.N - 1) (Attn.nq c.N qi).toNat) (m + 1)
      (BaseRel (singleBase c qi fwd) (SingleRel c (Attn.nq c.N qi).toNat) m) (baseQuiet (singleBase c qi fwd)) := by
  have hd : (singleBase c qi fwd).dflt = .ok ⟨List.replicate (Attn.nq c.N qi).toNat c.ops.zeroR,
      List.replicate c.N c.ops.zeroR, List.replicate c.N c.ops.zeroR⟩ := by
    show singleDefault c qi = _
    unfold singleDefault; rw [if_neg (by omega)]
  refine base_forgets (singleBase c qi fwd) hN hd ?_ (single_step c hN) m
  intro k
  exact ⟨⟨by simp, by simp, rfl⟩, ⟨by simp, by simp, rfl⟩, ⟨by simp, by simp, rfl⟩⟩
end

end CoInf.AttnAny
