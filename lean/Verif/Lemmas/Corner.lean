import Verif.Lemmas.Dilated

/-! Corner configurations of convolutions: kernel size one with a stride, padding not below the kernel
size. -/

namespace CoInf
open Spec
variable {X Y : Type}

/-- An object that has consumed nothing is the new object. -/
theorem Tame.reach_nil {M : CoMod (.stream X) (.stream Y)} (T : Tame M) {h i} (hr : Reach M h i) :
    h = [] → i = M.init := by
  induction hr with
  | init => intro; rfl
  | clean _ _ => intro; exact T.clean _
  | step u x _ hs ih =>
    intro h
    cases u with
    | true => simp at h
    | false => rw [T.step_false hs]; exact ih h
  | steps u xs hx _ hs ih =>
    intro h
    cases u with
    | true => simp [hx] at h
    | false => rw [T.steps_false hs]; exact ih h
  | fwd _ hf ih => intro h; rw [T.fwd_state hf]; exact ih h

theorem loop_of_step {L : Leaf X Y} {φ : List X → List Y} {P : List X → Option L.St → Prop}
    (hstep : ∀ {h s} (x : X), P h s → ∃ o s', L.pstep x s = .ok (o, s') ∧
      φ (h ++ [x]) = φ h ++ o.toList ∧ P (h ++ [x]) s') (xs : List X) : ∀ {h s}, P h s →
    ∃ ys s', L.loop s xs = .ok (ys, s') ∧ φ (h ++ xs) = φ h ++ ys ∧ P (h ++ xs) s' := by
  induction xs with
  | nil => intro h s hs; exact ⟨[], s, rfl, by simp, by simpa using hs⟩
  | cons x xs ih =>
    intro h s hs
    obtain ⟨o, s1, h1, h2, h3⟩ := hstep x hs
    obtain ⟨ys, s2, k1, k2, k3⟩ := ih h3
    refine ⟨o.toList ++ ys, s2, ?_, ?_, by simpa using k3⟩
    · simp [Leaf.loop, h1, k1, bind, Except.bind, pure, Except.pure]
    · rw [← List.append_assoc, ← h2, ← k2]; simp

theorem mapM_exists {α β : Type} (l : List α) (f : α → Except Err β) (h : ∀ a ∈ l, ∃ b, f a = .ok b) :
    ∃ bs, l.mapM f = .ok bs := by
  induction l with
  | nil => exact ⟨[], rfl⟩
  | cons a l ih =>
    obtain ⟨b, hb⟩ := h a (by simp)
    obtain ⟨bs, hbs⟩ := ih fun a' h' => h a' (by simp [h'])
    refine ⟨b :: bs, ?_⟩
    rw [List.mapM_cons, hb, hbs]; rfl

theorem endPads_eq (L : Leaf X Y) {xs : List X} (hx : xs ≠ []) :
    L.endPads xs = .ok (List.replicate L.padding (L.makePad (xs.getLast hx))) := by
  unfold Leaf.endPads
  rw [List.getLast?_eq_some_getLast hx]
  cases L.padding <;> rfl

namespace Conv
variable [Zero X] [AddCommMonoid Y] (c : Cfg X Y)

/-- Shape of the state and value of the stride counter when the padding is at least the kernel size. -/
structure Wide (n : Nat) (st : St Y) : Prop where
  len : st.buffer.length = c.K - 1
  rows : ∀ r ∈ st.buffer, r.length = c.K - 1
  index : ∃ k : Nat, st.index = k ∧ (1 < c.K → k < c.K - 1)
  stride : st.strideIndex = if n = 0 then (c.S : Int) - c.K + c.P else ((c.S : Int) - c.K + c.P + n) % c.S

theorem rest_length (x : X) : (rest c x).length = c.K - 1 := by simp [rest, taps]

theorem padRest_length (l : List Y) : (padRest c l).length = l.length := by
  unfold padRest; split <;> simp

theorem wide_init (hK : 1 ≤ c.K) (x : X) : Wide c 0 (initState c (rest c x)) where
  len := by simp [initState]
  rows := by
    intro r hr
    rw [(List.mem_replicate.1 hr).2, padRest_length, rest_length]
  index := ⟨0, rfl, fun h => by omega⟩
  stride := by simp only [initState, if_true]; omega

theorem wide_step (hK : 1 ≤ c.K) (hS : 1 ≤ c.S) (hP : c.K ≤ c.P) {n : Nat} {st : St Y} (h : Wide c n st)
    (x : X) : ∃ o st', pstep c x (some st) = .ok (o, some st') ∧ Wide c (n + 1) st' ∧
      (o.isSome ↔ 1 ≤ n ∧ (c.P - c.K + n + 1) % c.S = 0) := by
  have hs : stateless c = false := by
    unfold stateless; simp only [decide_eq_false_iff_not]; omega
  obtain ⟨k, hk, hk'⟩ := h.index
  have htap : pyGet (taps c x) 0 = .ok (c.w (c.K - 1) x) := by
    refine pyGet_ofNat (i := 0) ?_
    simp [taps, List.getElem?_range (show 0 < c.K by omega)]
  -- the stride counter
  have hstr : nextStride c.S st.strideIndex = ((c.S : Int) - c.K + c.P + ((n + 1 : Nat) : Int)) % c.S := by
    rw [h.stride]
    unfold nextStride
    by_cases hn : n = 0
    · subst hn
      simp only [if_true]
      rw [if_pos (by omega)]
      congr 1
    · rw [if_neg hn]
      have := Int.emod_nonneg ((c.S : Int) - c.K + c.P + n) (show (c.S : Int) ≠ 0 by omega)
      simp only
      rw [if_pos (by omega), Int.emod_add_emod]
      congr 1
      push_cast
      omega
  have hvalid : st.strideIndex = (c.S : Int) - 1 ↔ 1 ≤ n ∧ (c.P - c.K + n + 1) % c.S = 0 := by
    rw [h.stride]
    by_cases hn : n = 0
    · subst hn
      simp only [if_true]
      constructor
      · intro h; omega
      · rintro ⟨h, _⟩; omega
    · rw [if_neg hn]
      obtain ⟨q, hq⟩ := Nat.exists_eq_add_of_le hP
      have e1 : (c.S : Int) - c.K + c.P + n = (c.S : Int) - 1 + ((q + n + 1 : Nat) : Int) := by omega
      have e2 : c.P - c.K + n + 1 = q + n + 1 := by omega
      rw [e1, e2]
      constructor
      · intro h
        refine ⟨by omega, ?_⟩
        have h1 : ((c.S : Int) - 1 + ((q + n + 1 : Nat) : Int) + 1) % c.S = 0 := by
          rw [← Int.emod_add_emod, h]; simp
        have h2 : (((q + n + 1 : Nat) : Int)) % c.S = 0 := by
          have : (c.S : Int) - 1 + ((q + n + 1 : Nat) : Int) + 1 = ((q + n + 1 : Nat) : Int) + c.S := by omega
          rw [this, Int.add_emod_right] at h1
          exact h1
        omega
      · rintro ⟨_, h⟩
        obtain ⟨m, hm⟩ := Nat.dvd_of_mod_eq_zero h
        rw [hm]
        push_cast
        rw [Int.add_mul_emod_self_left]
        exact Int.emod_eq_of_lt (by omega) (by omega)
  -- the output is computed without an error
  have hout : ∃ o, output c st (c.w (c.K - 1) x) = .ok o ∧ (o.isSome ↔ 1 ≤ n ∧ (c.P - c.K + n + 1) % c.S = 0) := by
    unfold output
    by_cases hv : st.strideIndex = (c.S : Int) - 1
    · rw [if_pos hv]
      obtain ⟨ps, hps⟩ : ∃ ps, pick st (c.K - 1) = .ok ps := by
        unfold pick
        refine mapM_exists _ _ fun i hi => ?_
        have hi' := List.mem_range.1 hi
        have e : ((i : Int) + st.index) % ((c.K - 1 : Nat) : Int) = (((i + k) % (c.K - 1) : Nat) : Int) := by
          rw [hk]; push_cast; rfl
        have hlt : (i + k) % (c.K - 1) < st.buffer.length := by rw [h.len]; exact Nat.mod_lt _ (by omega)
        have hrow := h.rows _ (List.getElem_mem hlt)
        rw [e, pyGet_ofNat (List.getElem?_eq_getElem hlt), ok_bind]
        have e2 : ((c.K - 1 : Nat) : Int) - 1 - i = ((c.K - 1 - 1 - i : Nat) : Int) := by omega
        have hlt2 : c.K - 1 - 1 - i < (st.buffer[(i + k) % (c.K - 1)]).length := by rw [hrow]; omega
        rw [e2]
        exact ⟨_, pyGet_ofNat (List.getElem?_eq_getElem hlt2)⟩
      rw [hps, ok_bind]
      exact ⟨_, rfl, by simpa using hvalid.1 hv⟩
    · rw [if_neg hv]
      refine ⟨none, rfl, ?_⟩
      rw [← hvalid]; simp [hv]
  obtain ⟨o, ho, hiff⟩ := hout
  have hwb : ∃ b j, writeBack c st (rest c x) = .ok (b, j) ∧ b.length = c.K - 1 ∧
      (∀ r ∈ b, r.length = c.K - 1) ∧ ∃ k : Nat, j = k ∧ (1 < c.K → k < c.K - 1) := by
    unfold writeBack
    by_cases h1 : c.K > 1
    · rw [if_pos h1, hk, pySet_ofNat _ (by rw [h.len]; exact hk' h1), ok_bind]
      refine ⟨_, _, rfl, by simp [h.len], ?_, ?_⟩
      · intro r hr
        rcases List.mem_or_eq_of_mem_set hr with hr | hr
        · exact h.rows r hr
        · rw [hr, rest_length]
      · refine ⟨(k + 1) % (c.K - 1), by push_cast; rfl, fun _ => Nat.mod_lt _ (by omega)⟩
    · rw [if_neg h1]
      exact ⟨_, _, rfl, h.len, h.rows, k, hk, fun h2 => absurd h2 h1⟩
  obtain ⟨b, j, hb, hbl, hbr, hj⟩ := hwb
  refine ⟨o, ⟨b, j, nextStride c.S st.strideIndex⟩, ?_, ⟨hbl, hbr, hj, ?_⟩, hiff⟩
  · unfold pstep
    rw [if_neg (by simp [hs]), htap, ok_bind]
    simp only
    rw [ho, ok_bind]
    have : writeBack c st ((taps c x).drop 1) = .ok (b, j) := hb
    rw [this, ok_bind]
    rfl
  · rw [if_neg (by omega), hstr]

/-- Number of outputs of a clip on a wide configuration. -/
theorem wide_loop (hK : 1 ≤ c.K) (hS : 1 ≤ c.S) (hP : c.K ≤ c.P) (xs : List X) : ∀ {n st}, 1 ≤ n → Wide c n st →
    ∃ ys st', (leaf c).loop (some st) xs = .ok (ys, some st') ∧ Wide c (n + xs.length) st' ∧
      ys.length + (c.P - c.K + n) / c.S = (c.P - c.K + n + xs.length) / c.S := by
  induction xs with
  | nil => intro n st hn h; exact ⟨[], st, rfl, h, by simp⟩
  | cons x xs ih =>
    intro n st hn h
    obtain ⟨o, st1, h1, h2, h3⟩ := wide_step c hK hS hP h x
    obtain ⟨ys, st2, k1, k2, k3⟩ := ih (n := n + 1) (by omega) h2
    refine ⟨o.toList ++ ys, st2, ?_, ?_, ?_⟩
    · rw [Leaf.loop]
      rw [show (leaf c).pstep x (some st) = .ok (o, some st1) from h1, ok_bind]
      simp only
      rw [k1, ok_bind]
      rfl
    · have : n + (x :: xs).length = n + 1 + xs.length := by simp; omega
      rw [this]; exact k2
    · have e : c.P - c.K + n + (x :: xs).length = c.P - c.K + (n + 1) + xs.length := by simp; omega
      rw [e, ← k3]
      have hd : (c.P - c.K + (n + 1)) / c.S = (c.P - c.K + n) / c.S + if c.S ∣ c.P - c.K + n + 1 then 1 else 0 :=
        Nat.succ_div
      rw [hd, List.length_append]
      cases o with
      | none =>
        have : ¬ c.S ∣ c.P - c.K + n + 1 := by
          intro hdvd
          have := h3.2 ⟨hn, Nat.mod_eq_zero_of_dvd hdvd⟩
          simp at this
        rw [if_neg this]; simp
      | some y =>
        have := Nat.dvd_of_mod_eq_zero (h3.1 rfl).2
        rw [if_pos this]; simp; omega

/-- Number of outputs of a clip with end padding on a new module. -/
theorem wide_steps (hK : 1 ≤ c.K) (hS : 1 ≤ c.S) (hP : c.K ≤ c.P) (u : Bool) (xs : List X) (hx : xs ≠ []) :
    ∃ ys i', (mod c).steps (mod c).init true u xs = .ok (optList ys, i') ∧
      ys.length + (c.P - c.K + 1) / c.S = (xs.length + 2 * c.P - c.K) / c.S := by
  obtain ⟨x, t, rfl⟩ : ∃ x t, xs = x :: t := by
    cases xs with
    | nil => exact absurd rfl hx
    | cons x t => exact ⟨x, t, rfl⟩
  obtain ⟨o, st1, h1, h2, h3⟩ := wide_step c hK hS hP (wide_init c hK x) x
  have ho : o = none := by
    cases o with
    | none => rfl
    | some y => have := h3.1 rfl; omega
  subst ho
  obtain ⟨ys, st2, k1, k2, k3⟩ := wide_loop c hK hS hP t (n := 0 + 1) (by omega) h2
  have hnone : pstep c x none = pstep c x (some (initState c (rest c x))) := by
    have hs : stateless c = false := by
      unfold stateless; simp only [decide_eq_false_iff_not]; omega
    unfold pstep
    rw [if_neg (by simp [hs]), if_neg (by simp [hs])]
    rfl
  have hloop : (leaf c).loop none (x :: t) = .ok (ys, some st2) := by
    rw [Leaf.loop]
    rw [show (leaf c).pstep x none = .ok (none, some st1) from hnone.trans h1, ok_bind]
    simp only
    rw [k1, ok_bind]
    rfl
  obtain ⟨zs, st3, m1, m2, m3⟩ := wide_loop c hK hS hP
    (List.replicate c.P (c.fill.make 0 ((x :: t).getLast hx))) (n := 0 + 1 + t.length) (by omega) k2
  have hends : (leaf c).endPads (x :: t) = .ok (List.replicate c.P (c.fill.make 0 ((x :: t).getLast hx))) := by
    exact endPads_eq (leaf c) hx
  have hpad : (leaf c).padState ((leaf c).save u (some st2) (leaf c).init) (some st2) = some st2 := by
    unfold Leaf.padState Leaf.save
    cases u with
    | false => simp
    | true =>
      simp only [if_true]
      by_cases hl : st2.buffer.length > 0
      · rw [if_pos hl]
      · rw [if_neg hl]
  refine ⟨ys ++ zs, (leaf c).save u (some st2) (leaf c).init, ?_, ?_⟩
  · show Leaf.forwardSteps _ _ _ _ _ = _
    unfold Leaf.forwardSteps
    rw [show (leaf c).get (mod c).init = none from rfl, hloop, ok_bind]
    simp only [if_true]
    rw [hends, ok_bind, hpad, m1, ok_bind]
    rfl
  · rw [List.length_append]
    rw [List.length_replicate] at m3
    have e0 : c.P - c.K + (0 + 1) = c.P - c.K + 1 := by omega
    have e1 : c.P - c.K + (0 + 1 + t.length) = c.P - c.K + (0 + 1) + t.length := by omega
    have e2 : c.P - c.K + (0 + 1 + t.length) + c.P = (x :: t).length + 2 * c.P - c.K := by simp; omega
    rw [e2, e1] at m3
    rw [e0] at k3 m3
    omega

end Conv
end CoInf
