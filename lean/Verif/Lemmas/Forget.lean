/-
Modules forget: a simulation that is closed under Sequential.
-/
import Verif.Spec.Forget
import Verif.Model.Pool
import Verif.Model.Container
import Verif.Lemmas.Ring
import Verif.Lemmas.Sequential
import Mathlib.Tactic.Ring

set_option autoImplicit false

namespace CoInf.Forget
open Spec
variable {X Y Z : Type}

/-- `Rel k i j`: the objects give outputs at the same steps, and after `k` more common frames the same outputs; after
different frames, `n` common ones are enough.  An output comes within `quiet i + 1` steps, and `quiet i < p`. -/
structure Forgets (M : CoMod (.stream X) (.stream Y)) (n p : Nat) (Rel : Nat → M.Inst → M.Inst → Prop)
    (quiet : M.Inst → Nat) : Prop where
  quiet_lt : ∀ {k i j}, Rel k i j → quiet i < p
  step : ∀ {k i j}, Rel k i j → ∀ x x', ∃ o o' i' j', M.step i true x = .ok (o, i') ∧ M.step j true x' = .ok (o', j') ∧
    o.isSome = o'.isSome ∧ (o = none → quiet i' < quiet i) ∧ Rel n i' j' ∧
    (x = x' → Rel (k - 1) i' j' ∧ (k = 0 → o = o'))

/-- The same for modules of which the next output is known exactly: it comes after `quiet i` further frames. -/
structure Exact (M : CoMod (.stream X) (.stream Y)) (n p : Nat) (Rel : Nat → M.Inst → M.Inst → Prop)
    (quiet : M.Inst → Nat) : Prop where
  quiet_eq : ∀ {k i j}, Rel k i j → quiet i = quiet j ∧ quiet i < p
  step : ∀ {k i j}, Rel k i j → ∀ x x', ∃ o o' i' j', M.step i true x = .ok (o, i') ∧ M.step j true x' = .ok (o', j') ∧
    (o.isSome ↔ quiet i = 0) ∧ (o'.isSome ↔ quiet i = 0) ∧ (quiet i ≠ 0 → quiet i' + 1 = quiet i) ∧ Rel n i' j' ∧
    (x = x' → Rel (k - 1) i' j' ∧ (k = 0 → o = o'))

theorem Exact.forgets {M : CoMod (.stream X) (.stream Y)} {n p : Nat} {Rel : Nat → M.Inst → M.Inst → Prop} {quiet : M.Inst → Nat}
    (h : Exact M n p Rel quiet) : Forgets M n p Rel quiet where
  quiet_lt := fun hr => (h.quiet_eq hr).2
  step := fun hr x x' => by
    obtain ⟨o, o', i', j', h1, h2, h3, h4, h5, h6⟩ := h.step hr x x'
    refine ⟨o, o', i', j', h1, h2, by rw [Bool.eq_iff_iff, h3, h4], fun ho => ?_, h6⟩
    subst ho
    have := h5 fun h0 => by simpa using h3.2 h0
    omega

variable {M : CoMod (.stream X) (.stream Y)} {n p : Nat} {Rel : Nat → M.Inst → M.Inst → Prop} {quiet : M.Inst → Nat}

theorem Forgets.callSteps_diff (h : Forgets M n p Rel quiet) : ∀ {k i j} (zs zs' : List X), Rel k i j → zs.length = zs'.length →
    ∃ as as' i' j', callSteps M i zs = .ok (as, i') ∧ callSteps M j zs' = .ok (as', j') ∧ as.length = zs.length ∧
      as.map Option.isSome = as'.map Option.isSome ∧ Rel (if zs = [] then k else n) i' j'
  | k, i, j, [], [], hr, _ => ⟨[], [], i, j, rfl, rfl, rfl, rfl, hr⟩
  | k, i, j, z :: zs, z' :: zs', hr, hl => by
    obtain ⟨o, o', i1, j1, h1, h2, h3, _, h5, _⟩ := h.step hr z z'
    obtain ⟨as, as', i2, j2, g1, g2, g3, g4, g5⟩ := callSteps_diff h zs zs' h5 (by simpa using hl)
    refine ⟨o :: as, o' :: as', i2, j2, by simp only [callSteps, h1, g1, bind, Except.bind, pure, Except.pure],
      by simp only [callSteps, h2, g2, bind, Except.bind, pure, Except.pure], by simp [g3], ?_, ?_⟩
    · simp [h3, g4]
    · simpa using (show Rel n i2 j2 by split at g5 <;> exact g5)

theorem Forgets.callSteps_same (h : Forgets M n p Rel quiet) : ∀ {k i j} (xs : List X), Rel k i j →
    ∃ as as' i' j', callSteps M i xs = .ok (as, i') ∧ callSteps M j xs = .ok (as', j') ∧ as.length = xs.length ∧
      as.map Option.isSome = as'.map Option.isSome ∧ Rel (k - xs.length) i' j' ∧ (k = 0 → as = as')
  | k, i, j, [], hr => ⟨[], [], i, j, rfl, rfl, rfl, rfl, hr, fun _ => rfl⟩
  | k, i, j, z :: zs, hr => by
    obtain ⟨o, o', i1, j1, h1, h2, h3, _, _, h5⟩ := h.step hr z z
    obtain ⟨h5, h6⟩ := h5 rfl
    obtain ⟨as, as', i2, j2, g1, g2, g3, g4, g5, g6⟩ := callSteps_same h zs h5
    refine ⟨o :: as, o' :: as', i2, j2, by simp only [callSteps, h1, g1, bind, Except.bind, pure, Except.pure],
      by simp only [callSteps, h2, g2, bind, Except.bind, pure, Except.pure], by simp [g3], ?_, ?_, fun hk => ?_⟩
    · simp [h3, g4]
    · rw [List.length_cons, Nat.add_comm, ← Nat.sub_sub]; exact g5
    · rw [h6 hk, g6 (by omega)]

theorem callSteps_app (M : CoMod (.stream X) (.stream Y)) : ∀ {i i' : M.Inst} {xs : List X} {os} (ys : List X),
    callSteps M i xs = .ok (os, i') → callSteps M i (xs ++ ys) = (callSteps M i' ys).map fun r => (os ++ r.1, r.2)
  | i, i', [], os, ys, h => by
    simp only [callSteps, Except.ok.injEq, Prod.mk.injEq] at h
    obtain ⟨rfl, rfl⟩ := h
    cases hc : callSteps M i ys <;> simp [hc, Except.map]
  | i, i', x :: xs, os, ys, h => by
    simp only [callSteps, bind, Except.bind, pure, Except.pure, List.cons_append] at h ⊢
    cases hs : M.step i true x with
    | error e => rw [hs] at h; cases h
    | ok r =>
      rw [hs] at h
      simp only at h ⊢
      cases hc : callSteps M r.2 xs with
      | error e => rw [hc] at h; cases h
      | ok q =>
        rw [hc] at h
        simp only [Except.ok.injEq, Prod.mk.injEq] at h
        obtain ⟨rfl, rfl⟩ := h
        rw [callSteps_app M ys hc]
        cases callSteps M q.2 ys <;> rfl

theorem Forgets.recovers (h : Forgets M n p Rel quiet) {i j : M.Inst} (hr : Rel n i j) : Recovers M n i j := by
  intro zs zs' xs ys hz hx
  obtain ⟨as, as', i1, j1, h1, h2, h3, h4, h5⟩ := h.callSteps_diff zs zs' hr hz
  have h5 : Rel n i1 j1 := by split at h5 <;> exact h5
  obtain ⟨bs, bs', i2, j2, g1, g2, g3, g4, g5, _⟩ := h.callSteps_same xs h5
  rw [hx, Nat.sub_self] at g5
  obtain ⟨cs, cs', i3, j3, k1, k2, _, _, _, k6⟩ := h.callSteps_same ys g5
  refine ⟨as ++ bs, as' ++ bs', cs, i3, j3, ?_, ?_, by simp [h3, g3, hx], by simp [h4, g4]⟩
  · rw [List.append_assoc, callSteps_app M _ h1, callSteps_app M _ g1, k1]; simp [Except.map]
  · rw [List.append_assoc, callSteps_app M _ h2, callSteps_app M _ g2, k2, k6 rfl]; simp [Except.map]

/-! ### Rings -/

/-- Two rings of length `L` whose next slot to be written is `idx`: only the oldest `k` entries may differ. -/
structure Agree {α : Type} (L k : Nat) (idx : Int) (b b' : List α) : Prop where
  len : b.length = L
  len' : b'.length = L
  agree : ∀ s : Nat, k ≤ s → s < L → b[((idx + s) % L).toNat]? = b'[((idx + s) % L).toNat]?

theorem Agree.mono {α : Type} {L k k' : Nat} {idx : Int} {b b' : List α} (h : Agree L k idx b b') (hk : k ≤ k') :
    Agree L k' idx b b' :=
  ⟨h.len, h.len', fun s hs => h.agree s (by omega)⟩

theorem Agree.wrap {α : Type} {L k : Nat} {idx : Int} {b b' : List α} (h : Agree L k idx b b') :
    Agree L k (idx % L) b b' :=
  ⟨h.len, h.len', fun s hs hl => by
    have := h.agree s hs hl
    rwa [Int.emod_add_emod]⟩

theorem Agree.eq {α : Type} {L : Nat} {idx : Int} {b b' : List α} (h : Agree L 0 idx b b') (hL : 0 < L) : b = b' := by
  refine List.ext_getElem? fun m => ?_
  by_cases hm : m < L
  · have := h.agree (((m : Int) - idx) % L).toNat (Nat.zero_le _) (by
      have := Int.emod_lt_of_pos ((m : Int) - idx) (show (0 : Int) < L by omega)
      have := Int.emod_nonneg ((m : Int) - idx) (show (L : Int) ≠ 0 by omega)
      omega)
    rw [Int.toNat_of_nonneg (Int.emod_nonneg _ (by omega)), Int.add_emod_emod,
      show idx + ((m : Int) - idx) = m by ring, Int.emod_eq_of_lt (by omega) (by omega)] at this
    simpa using this
  · rw [List.getElem?_eq_none (by rw [h.len]; omega), List.getElem?_eq_none (by rw [h.len']; omega)]

/-- Writing. -/
theorem Agree.write {α : Type} {L k : Nat} {idx : Int} {b b' : List α} (h : Agree L k idx b b') (hL : 0 < L) (x x' : α) :
    ∃ c c', pySet b (idx % L) x = .ok c ∧ pySet b' (idx % L) x' = .ok c' ∧ Agree L L (idx + 1) c c' ∧
      (x = x' → Agree L (k - 1) (idx + 1) c c') := by
  have h0 := Int.emod_nonneg idx (show (L : Int) ≠ 0 by omega)
  have h1 := Int.emod_lt_of_pos idx (show (0 : Int) < L by omega)
  obtain ⟨t, ht⟩ := Int.eq_ofNat_of_zero_le h0
  have htL : t < L := by omega
  refine ⟨b.set t x, b'.set t x', ?_, ?_, ⟨by rw [List.length_set, h.len], by rw [List.length_set, h.len'],
    fun s hs hl => by omega⟩, ?_⟩
  · rw [ht]; exact pySet_ofNat _ (by rw [h.len]; exact htL)
  · rw [ht]; exact pySet_ofNat _ (by rw [h.len']; exact htL)
  · rintro rfl
    refine ⟨by rw [List.length_set, h.len], by rw [List.length_set, h.len'], fun s hs hl => ?_⟩
    by_cases hlast : s + 1 = L
    · have e : ((idx + 1 + s) % L).toNat = t := by
        rw [show idx + 1 + (s : Int) = idx + (L : Int) by rw [← hlast]; push_cast; ring, Int.add_emod_right, ht]; rfl
      rw [e, List.getElem?_set_self (by rw [h.len]; exact htL), List.getElem?_set_self (by rw [h.len']; exact htL)]
    · have e : idx + 1 + (s : Int) = idx + ((s + 1 : Nat) : Int) := by push_cast; ring
      have hne : ((idx + ((s + 1 : Nat) : Int)) % L).toNat ≠ t := by
        intro h2
        have h3 := Int.emod_nonneg (idx + ((s + 1 : Nat) : Int)) (show (L : Int) ≠ 0 by omega)
        have h4 : (idx + ((s + 1 : Nat) : Int)) % L = idx % L := by omega
        have h5 := Int.emod_emod_of_dvd (((s + 1 : Nat) : Int)) (dvd_refl (L : Int))
        have h6 : (((s + 1 : Nat) : Int)) % L = 0 := by
          have := congrArg (fun z => (z - idx) % (L : Int)) h4
          simp only [Int.emod_sub_emod] at this
          simpa using this
        rw [Int.emod_eq_of_lt (by omega) (by omega)] at h6
        omega
      rw [e, List.getElem?_set_ne (Ne.symm hne), List.getElem?_set_ne (Ne.symm hne)]
      exact h.agree (s + 1) (by omega) (by omega)

theorem Agree.refl {α : Type} (L k : Nat) (idx : Int) (b : List α) (h : b.length = L) : Agree L k idx b b :=
  ⟨h, h, fun _ _ _ => rfl⟩

theorem Agree.trivial {α : Type} {L : Nat} (idx : Int) {b b' : List α} (h : b.length = L) (h' : b'.length = L) :
    Agree L L idx b b' :=
  ⟨h, h', fun s hs hl => by omega⟩

/-! ### Delay -/

section Delay
variable (c : Delay.Cfg X)

/-- The first index: delay.py:70-75. -/
def delayStart : Int := if c.shrink = .on then -2 * (c.d : Int) else -(c.d : Int)

/-- `m` bounds how far the object may be from its first output. -/
def DelayRel (m k : Nat) (i j : Delay.St X) : Prop :=
  c.d = 0 ∨ (i.1 = [] ∧ j.1 = [] ∧ -(m : Int) ≤ delayStart c) ∨
    (i.2 = j.2 ∧ -(m : Int) ≤ i.2 ∧ i.2 < c.d ∧ Agree c.d k i.2 i.1 j.1)

def delayQuiet (i : Delay.St X) : Nat := if c.d = 0 then 0 else if i.1 = [] then (-(delayStart c)).toNat else (-i.2).toNat

theorem delay_core (hd : 0 < c.d) {m k : Nat} {b b' : List X} {idx : Int} (hm : -(m : Int) ≤ idx) (hi : idx < c.d)
    (h : Agree c.d k idx b b') (x x' : X) : ∃ o o' i' j', Delay.pstep c x (some (b, idx)) = .ok (o, some i') ∧
      Delay.pstep c x' (some (b', idx)) = .ok (o', some j') ∧ (o.isSome ↔ 0 ≤ idx) ∧ (o'.isSome ↔ 0 ≤ idx) ∧
      (idx < 0 → i'.2 = idx + 1 ∨ (i'.2 = 0 ∧ idx + 1 = c.d)) ∧ i'.1 ≠ [] ∧
      DelayRel c m c.d i' j' ∧ (x = x' → DelayRel c m (k - 1) i' j' ∧ (k = 0 → o = o')) := by
  obtain ⟨e, e', h1, h2, h3, h4⟩ := h.write hd x x'
  let nx : Int := if idx + 1 > 0 then (idx + 1) % c.d else idx + 1
  have hnx : -(m : Int) ≤ nx ∧ nx < c.d := by
    simp only [nx]
    split
    · have := Int.emod_nonneg (idx + 1) (show (c.d : Int) ≠ 0 by omega)
      have := Int.emod_lt_of_pos (idx + 1) (show (0 : Int) < c.d by omega)
      omega
    · omega
  have hag : ∀ {q : Nat}, Agree c.d q (idx + 1) e e' → Agree c.d q nx e e' := by
    intro q hq; simp only [nx]; split
    · exact hq.wrap
    · exact hq
  have hout : ∃ o o', (if idx ≥ 0 then (pyGet b idx).map some else .ok none) = .ok o ∧
      (if idx ≥ 0 then (pyGet b' idx).map some else .ok none) = .ok o' ∧ (o.isSome ↔ 0 ≤ idx) ∧ (o'.isSome ↔ 0 ≤ idx) ∧
      (k = 0 → o = o') := by
    by_cases h0 : 0 ≤ idx
    · obtain ⟨t, rfl⟩ := Int.eq_ofNat_of_zero_le h0
      have ht : t < b.length := by rw [h.len]; omega
      have ht' : t < b'.length := by rw [h.len']; omega
      refine ⟨some b[t], some b'[t], ?_, ?_, by simp, by simp, fun hk => ?_⟩
      · rw [if_pos h0, pyGet_ofNat (List.getElem?_eq_getElem ht)]; rfl
      · rw [if_pos h0, pyGet_ofNat (List.getElem?_eq_getElem ht')]; rfl
      · subst hk
        have := h.eq hd
        subst this; rfl
    · exact ⟨none, none, if_neg h0, if_neg h0, by simp [h0], by simp [h0], fun _ => rfl⟩
  obtain ⟨o, o', g1, g2, g3, g4, g5⟩ := hout
  refine ⟨o, o', (e, nx), (e', nx), ?_, ?_, g3, g4, fun hneg => ?_, ?_, ?_, ?_⟩
  · unfold Delay.pstep
    rw [if_neg (by omega)]
    by_cases h0 : idx ≥ 0
    · rw [if_pos h0] at g1
      simp only [if_pos h0, g1, h1, bind, Except.bind, pure, Except.pure]; rfl
    · rw [if_neg h0] at g1
      cases g1
      simp only [if_neg h0, h1, bind, Except.bind, pure, Except.pure]; rfl
  · unfold Delay.pstep
    rw [if_neg (by omega)]
    by_cases h0 : idx ≥ 0
    · rw [if_pos h0] at g2
      simp only [if_pos h0, g2, h2, bind, Except.bind, pure, Except.pure]; rfl
    · rw [if_neg h0] at g2
      cases g2
      simp only [if_neg h0, h2, bind, Except.bind, pure, Except.pure]; rfl
  · simp only [nx]
    split
    · by_cases h7 : idx + 1 < c.d
      · left; exact Int.emod_eq_of_lt (by omega) h7
      · right; have : idx + 1 = c.d := by omega
        rw [this]; simp
    · left; rfl
  · intro h0; have := h3.len; simp only at h0; rw [h0] at this; simp at this; omega
  · exact .inr (.inr ⟨rfl, hnx.1, hnx.2, hag h3⟩)
  · intro hx
    exact ⟨.inr (.inr ⟨rfl, hnx.1, hnx.2, hag (h4 hx)⟩), g5⟩

theorem delay_forgets (m : Nat) : Exact (Delay.mod c) c.d (m + 1) (DelayRel c m) (delayQuiet c) where
  quiet_eq := by
    intro k i j h
    unfold delayQuiet
    by_cases hd : c.d = 0
    · simp [hd]
    rw [if_neg hd, if_neg hd]
    rcases h with h | ⟨h1, h2, h3⟩ | ⟨h1, h2, h3, h4⟩
    · exact absurd h hd
    · rw [if_pos h1, if_pos h2]; exact ⟨rfl, by omega⟩
    · have hi : i.1 ≠ [] := by intro h0; have := h4.len; rw [h0] at this; simp at this; omega
      have hj : j.1 ≠ [] := by intro h0; have := h4.len'; rw [h0] at this; simp at this; omega
      rw [if_neg hi, if_neg hj, h1]; exact ⟨rfl, by omega⟩
  step := by
    intro k i j h x x'
    by_cases hd : c.d = 0
    · refine ⟨some x, some x', i, j, if_pos hd, if_pos hd, ?_, ?_, ?_, .inl hd, fun hx => ⟨.inl hd, fun _ => by rw [hx]⟩⟩ <;>
        simp [delayQuiet, hd]
    have hd' : 0 < c.d := by omega
    have key : ∀ (i : Delay.St X) (x : X) (b : List X) (idx : Int) (o : Option X) (i' : Delay.St X),
        ((i.1 = [] ∧ (b, idx) = Delay.initState c x) ∨ (i.1 ≠ [] ∧ i = (b, idx))) →
        Delay.pstep c x (some (b, idx)) = .ok (o, some i') → (Delay.mod c).step i true x = .ok (o, i') := by
      intro i x b idx o i' hi hp
      show (if c.d = 0 then _ else (Delay.leaf c).forwardStep i true x) = _
      rw [if_neg hd]
      have e : Delay.pstep c x ((Delay.leaf c).get i) = .ok (o, some i') := by
        rcases hi with ⟨h1, h2⟩ | ⟨h1, rfl⟩
        · have : (Delay.leaf c).get i = none := by simp [h1]
          rw [this, ← hp]
          obtain ⟨rfl, rfl⟩ := Prod.mk.inj h2
          unfold Delay.pstep
          rw [if_neg hd, if_neg hd]
          rfl
        · have : (Delay.leaf c).get (b, idx) = some (b, idx) := if_pos (List.length_pos_iff.2 h1)
          rw [this, hp]
      show ((Delay.leaf c).pstep x ((Delay.leaf c).get i) >>= _) = _
      have e' : (Delay.leaf c).pstep x ((Delay.leaf c).get i) = .ok (o, some i') := e
      rw [e']; rfl
    rcases h with h | ⟨h1, h2, h3⟩ | ⟨h1, h2, h3, h4⟩
    · exact absurd h hd
    · -- both fresh
      have hs : delayStart c < 0 := by unfold delayStart; split <;> omega
      obtain ⟨o, o', i', j', g1, g2, g3, g4, g5, g6, g7, g8⟩ := delay_core c hd' h3 (by omega : delayStart c < c.d)
        (Agree.trivial (L := c.d) (delayStart c) (by simp) (by simp) :
          Agree c.d c.d (delayStart c) (List.replicate c.d (c.fill x)) (List.replicate c.d (c.fill x'))) x x'
      refine ⟨o, o', i', j', key i x _ _ _ _ (.inl ⟨h1, rfl⟩) g1, key j x' _ _ _ _ (.inl ⟨h2, rfl⟩) g2, ?_, ?_, ?_, g7, ?_⟩
      · rw [g3]; simp only [delayQuiet, if_neg hd, if_pos h1]; omega
      · rw [g4]; simp only [delayQuiet, if_neg hd, if_pos h1]; omega
      · intro hq
        simp only [delayQuiet, if_neg hd, if_pos h1, if_neg g6] at hq ⊢
        rcases g5 hs with g5 | g5 <;> omega
      · rintro rfl
        rw [g1] at g2
        simp only [Except.ok.injEq, Prod.mk.injEq, Option.some.injEq] at g2
        obtain ⟨rfl, rfl⟩ := g2
        refine ⟨?_, fun _ => rfl⟩
        rcases g7 with h | ⟨h, _⟩ | ⟨a, b, d, e⟩
        · exact absurd h hd
        · exact absurd h g6
        · exact .inr (.inr ⟨a, b, d, Agree.refl _ _ _ _ e.len⟩)
    · have hi : i.1 ≠ [] := by intro h0; have := h4.len; rw [h0] at this; simp at this; omega
      have hj : j.1 ≠ [] := by intro h0; have := h4.len'; rw [h0] at this; simp at this; omega
      obtain ⟨o, o', i', j', g1, g2, g3, g4, g5, g6, g7, g8⟩ := delay_core c hd' h2 h3 h4 x x'
      refine ⟨o, o', i', j', key i x _ _ _ _ (.inr ⟨hi, rfl⟩) g1,
        key j x' _ _ _ _ (.inr ⟨hj, by rw [h1]⟩) g2, ?_, ?_, ?_, g7, g8⟩
      · rw [g3]; simp only [delayQuiet, if_neg hd, if_neg hi]; omega
      · rw [g4]; simp only [delayQuiet, if_neg hd, if_neg hi]; omega
      · intro hq
        simp only [delayQuiet, if_neg hd, if_neg hi, if_neg g6] at hq ⊢
        rcases g5 (by omega) with g5 | g5 <;> omega

end Delay

/-! ### Sequential -/

section Seq
variable {c : Chain (.stream Y) (.stream Z)} {m : CoMod (.stream X) (.stream Y)} {n1 p1 n2 p2 : Nat}
  {R1 : Nat → m.Inst → m.Inst → Prop} {q1 : m.Inst → Nat} {R2 : Nat → c.Inst → c.Inst → Prop} {q2 : c.Inst → Nat}

/-- Common frames needed before `b` common frames have reached the second member: the first one still needs `a` to
agree, and gives an output within `q + 1` steps, later within `p1`. -/
def cost (p1 n2 a b q : Nat) : Nat := if a = 0 then (if b = 0 then 0 else q + 1 + p1 * (b - 1)) else a + p1 * n2

def SeqRel (p1 n2 : Nat) (R1 : Nat → m.Inst → m.Inst → Prop) (q1 : m.Inst → Nat) (R2 : Nat → c.Inst → c.Inst → Prop)
    (k : Nat) (i j : m.Inst × c.Inst) : Prop :=
  ∃ a b, R1 a i.1 j.1 ∧ R2 b i.2 j.2 ∧ b ≤ n2 ∧ cost p1 n2 a b (q1 i.1) ≤ k

theorem cost_le {p1 n2 a b q : Nat} (hq : q < p1) (hb : b ≤ n2) : cost p1 n2 a b q ≤ a + p1 * n2 := by
  unfold cost
  split
  · split
    · omega
    · next hb0 =>
      obtain ⟨b', rfl⟩ := Nat.exists_eq_succ_of_ne_zero hb0
      have : p1 * (b' + 1) ≤ p1 * n2 := Nat.mul_le_mul_left _ hb
      rw [Nat.mul_add] at this
      simp only [Nat.succ_eq_add_one, Nat.add_sub_cancel]
      omega
  · exact le_refl _

theorem seq_forgets (h1 : Forgets m n1 p1 R1 q1) (h2 : Forgets (Sequential.mod c) n2 p2 R2 q2) :
    Forgets (Sequential.mod (.cons m c)) (n1 + p1 * n2) (p1 * p2) (SeqRel p1 n2 R1 q1 R2) (fun i => q1 i.1 + p1 * q2 i.2) := by
  refine ⟨?_, ?_⟩
  · rintro k ⟨i1, i2⟩ ⟨j1, j2⟩ ⟨a, b, r1, r2, _⟩
    have l1 : q1 i1 < p1 := h1.quiet_lt r1
    have l2 : q2 i2 < p2 := h2.quiet_lt r2
    have : p1 * (q2 i2 + 1) ≤ p1 * p2 := Nat.mul_le_mul_left _ l2
    rw [Nat.mul_add] at this
    show q1 i1 + p1 * q2 i2 < _
    omega
  · rintro k ⟨i1, i2⟩ ⟨j1, j2⟩ ⟨a, b, r1, r2, hb, hc⟩ x x'
    have r1 : R1 a i1 j1 := r1
    have r2 : R2 b i2 j2 := r2
    have hc : cost p1 n2 a b (q1 i1) ≤ k := hc
    obtain ⟨o, o', i1', j1', s1, s2, s3, s4, s5, s6⟩ := h1.step r1 x x'
    have l5 := h1.quiet_lt s5
    have hdiff : ∀ {b' i2' j2'}, R2 b' i2' j2' → b' ≤ n2 →
        SeqRel p1 n2 R1 q1 R2 (n1 + p1 * n2) (i1', i2') (j1', j2') := fun hr hb' => ⟨n1, _, s5, hr, hb', cost_le l5 hb'⟩
    have l1 := h1.quiet_lt r1
    cases o with
    | none =>
      have ho' : o' = none := by cases o' with
        | none => rfl
        | some _ => simp at s3
      subst ho'
      refine ⟨none, none, (i1', i2), (j1', j2), ?_, ?_, rfl, fun _ => ?_, hdiff r2 hb, fun hx => ⟨?_, fun _ => rfl⟩⟩
      · show Chain.step (.cons m c) (i1, i2) true x = _
        simp only [Chain.step, s1, ok_bind]; rfl
      · show Chain.step (.cons m c) (j1, j2) true x' = _
        simp only [Chain.step, s2, ok_bind]; rfl
      · have := s4 rfl
        show q1 i1' + p1 * q2 i2 < q1 i1 + p1 * q2 i2
        omega
      · obtain ⟨t1, t2⟩ := s6 hx
        refine ⟨a - 1, b, t1, r2, hb, ?_⟩
        have hlt := s4 rfl
        have lt1 := h1.quiet_lt t1
        show cost p1 n2 (a - 1) b (q1 i1') ≤ k - 1
        by_cases ha : a = 0
        · subst ha
          unfold cost at hc ⊢
          simp only [if_true, Nat.zero_sub] at hc ⊢
          show (if b = 0 then 0 else q1 i1' + 1 + p1 * (b - 1)) ≤ k - 1
          have hc' : (if b = 0 then 0 else q1 i1 + 1 + p1 * (b - 1)) ≤ k := hc
          split
          · omega
          · next hb0 => rw [if_neg hb0] at hc'; omega
        · have hc' : a + p1 * n2 ≤ k := by unfold cost at hc; rwa [if_neg ha] at hc
          have := cost_le (a := a - 1) lt1 hb
          omega
    | some y =>
      obtain ⟨y', rfl⟩ : ∃ y', o' = some y' := by cases o' with
        | none => simp at s3
        | some y' => exact ⟨y', rfl⟩
      obtain ⟨z, z', i2', j2', u1, u2, u3, u4, u5, u6⟩ := h2.step r2 y y'
      have lu := h2.quiet_lt u5
      refine ⟨z, z', (i1', i2'), (j1', j2'), ?_, ?_, u3, fun hz => ?_, hdiff u5 (le_refl _), fun hx => ?_⟩
      · show Chain.step (.cons m c) (i1, i2) true x = _
        have u1' : Chain.step c i2 true y = .ok (z, i2') := u1
        simp only [Chain.step, s1, ok_bind, u1']; rfl
      · show Chain.step (.cons m c) (j1, j2) true x' = _
        have u2' : Chain.step c j2 true y' = .ok (z', j2') := u2
        simp only [Chain.step, s2, ok_bind, u2']; rfl
      · have := u4 hz
        have h3 : p1 * (q2 i2' + 1) ≤ p1 * q2 i2 := Nat.mul_le_mul_left _ this
        rw [Nat.mul_add] at h3
        show q1 i1' + p1 * q2 i2' < q1 i1 + p1 * q2 i2
        omega
      · obtain ⟨t1, t2⟩ := s6 hx
        have lt1 := h1.quiet_lt t1
        by_cases ha : a = 0
        · subst ha
          have hy : y = y' := Option.some.inj (t2 rfl)
          obtain ⟨v1, v2⟩ := u6 hy
          have hc' : (if b = 0 then 0 else q1 i1 + 1 + p1 * (b - 1)) ≤ k := hc
          refine ⟨⟨0, b - 1, t1, v1, by omega, ?_⟩, fun hk => v2 ?_⟩
          · show (if b - 1 = 0 then 0 else q1 i1' + 1 + p1 * (b - 1 - 1)) ≤ k - 1
            split
            · omega
            · next hb1 =>
              rw [if_neg (by omega)] at hc'
              have : p1 * (b - 1) = p1 * (b - 1 - 1) + p1 := by
                obtain ⟨b', rfl⟩ : ∃ b', b = b' + 2 := ⟨b - 2, by omega⟩
                show p1 * (b' + 1) = p1 * b' + p1
                ring
              omega
          · by_contra hb0
            rw [if_neg hb0] at hc'; omega
        · have hc' : a + p1 * n2 ≤ k := by unfold cost at hc; rwa [if_neg ha] at hc
          refine ⟨⟨a - 1, n2, t1, u5, le_refl _, ?_⟩, fun hk => by omega⟩
          have := cost_le (a := a - 1) lt1 (le_refl n2)
          show cost p1 n2 (a - 1) n2 (q1 i1') ≤ k - 1
          omega

theorem single_forgets (h : Forgets m n1 p1 R1 q1) : Forgets (Sequential.mod (.single m)) n1 p1 R1 q1 := ⟨h.1, h.2⟩

end Seq

/-! ### Modules without memory -/

theorem pure_forgets {M : CoMod (.stream X) (.stream Y)} (f : X → Y) (h : ∀ i u x, M.step i u x = .ok (some (f x), i)) :
    Forgets M 0 1 (fun _ _ _ => True) (fun _ => 0) where
  quiet_lt := fun _ => Nat.zero_lt_one
  step := fun {_ i j} _ x x' => ⟨_, _, i, j, h i true x, h j true x', rfl, (fun h => by cases h), trivial,
    fun hx => ⟨trivial, fun _ => by rw [hx]⟩⟩

end CoInf.Forget
