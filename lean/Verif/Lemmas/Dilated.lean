import Verif.Lemmas.Observe

/-! Dilated pooling: what goes wrong, and kernel size one. -/

namespace CoInf
open Spec
variable {X Y : Type}

namespace Pool

/-- Sum pooling of integers with dilation. -/
def dilSum (K d : Nat) : Cfg Int Int where
  K := K
  S := 1
  P := 0
  dil := d
  spatial := id
  pool := List.sum
  fillIn := fun _ => 0
  fillOut := fun _ => 0
  refPad := 0

/-- State after `n` frames of value one. -/
structure DilInv (K d n : Nat) (st : St Int) : Prop where
  len : st.buffer.length = d * (K - 1) + 1
  high : ∀ j, K ≤ j → st.buffer.getD j 0 = 0
  le : ∀ j, st.buffer.getD j 0 ≤ 1
  index : st.index = ((n % K : Nat) : Int)
  stride : st.strideIndex = strideAt (d * (K - 1) + 1) 1 0 n

theorem dil_step {K d n : Nat} (hK : 2 ≤ K) (hd : 2 ≤ d) {st : St Int} (h : DilInv K d n st) :
    ∃ o st', pstep (dilSum K d) 1 (some st) = .ok (o, some st') ∧ DilInv K d (n + 1) st' ∧
      (d * (K - 1) ≤ n → ∃ v, o = some v ∧ ((n + 1) % K = 0 → v < K)) := by
  have hB : K ≤ d * (K - 1) := by
    have : 2 * (K - 1) ≤ d * (K - 1) := Nat.mul_le_mul_right _ hd
    omega
  have hslot : n % K < st.buffer.length := by
    rw [h.len]; have := Nat.mod_lt n (show 0 < K by omega); omega
  set b := st.buffer.set (n % K) 1 with hb
  have hset : pySet st.buffer st.index 1 = .ok b := by rw [h.index, pySet_ofNat _ hslot]
  have hbl : b.length = d * (K - 1) + 1 := by rw [hb, List.length_set, h.len]
  have hhigh : ∀ j, K ≤ j → b.getD j 0 = 0 := by
    intro j hj
    have : n % K ≠ j := by have := Nat.mod_lt n (show 0 < K by omega); omega
    rw [hb, List.getD_eq_getElem?_getD, List.getElem?_set_ne this, ← List.getD_eq_getElem?_getD, h.high j hj]
  have hle : ∀ j, b.getD j 0 ≤ 1 := by
    intro j
    by_cases hj : n % K = j
    · subst hj; rw [hb, List.getD_eq_getElem?_getD, List.getElem?_set_self hslot]; simp
    · rw [hb, List.getD_eq_getElem?_getD, List.getElem?_set_ne hj, ← List.getD_eq_getElem?_getD]; exact h.le j
  have hidx : (st.index + 1) % (K : Int) = (((n + 1) % K : Nat) : Int) := by
    rw [h.index]; push_cast; rw [Int.emod_add_emod]
  have hsn : Conv.nextStride 1 st.strideIndex = strideAt (d * (K - 1) + 1) 1 0 (n + 1) := by
    rw [h.stride, ← strideAt_succ (by omega)]; rfl
  have hdil : d ≠ 1 := by omega
  have hsel : select (dilSum K d) b ((st.index + 1) % (K : Int)) =
      .ok ((List.range K).map fun i => b.getD ((i * d + (n + 1) % K) % (d * (K - 1) + 1)) 0) := by
    unfold select
    rw [if_neg (by exact hdil)]
    refine mapM_ok _ _ _ fun i _ => ?_
    have e : ((((i * d : Nat) : Int) + (st.index + 1) % (K : Int)) % (b.length : Int)) =
        (((i * d + (n + 1) % K) % (d * (K - 1) + 1) : Nat) : Int) := by
      rw [hidx, hbl]; push_cast; rfl
    have hlt : (i * d + (n + 1) % K) % (d * (K - 1) + 1) < b.length := by
      rw [hbl]; exact Nat.mod_lt _ (by omega)
    show pyGet b _ = _
    rw [show (dilSum K d).dil = d from rfl, e]
    refine pyGet_ofNat ?_
    rw [List.getD_eq_getElem?_getD, List.getElem?_eq_getElem hlt]; rfl
  have hinv : DilInv K d (n + 1) ⟨b, (st.index + 1) % (K : Int), Conv.nextStride 1 st.strideIndex⟩ :=
    ⟨hbl, hhigh, hle, hidx, hsn⟩
  by_cases hv : st.strideIndex = ((1 : Nat) : Int) - 1
  · refine ⟨some ((List.range K).map fun i => b.getD ((i * d + (n + 1) % K) % (d * (K - 1) + 1)) 0).sum, _,
      ?_, hinv, fun _ => ⟨_, rfl, fun hm => ?_⟩⟩
    · have hset' : pySet st.buffer st.index ((dilSum K d).spatial 1) = .ok b := hset
      unfold pstep
      simp only
      rw [hset', ok_bind]
      rw [if_pos (by exact hv)]
      have hsel' : select (dilSum K d) b ((st.index + 1) % ((dilSum K d).K : Int)) = _ := hsel
      rw [hsel']
      rfl
    · rw [hm]
      obtain ⟨k, rfl⟩ : ∃ k, K = k + 1 := ⟨K - 1, by omega⟩
      rw [List.range_succ, List.map_append, List.sum_append]
      have h1 : ((List.range k).map fun i => b.getD ((i * d + 0) % (d * (k + 1 - 1) + 1)) 0).sum ≤ k := by
        have : ∀ l : List Nat, ((l.map fun i => b.getD ((i * d + 0) % (d * (k + 1 - 1) + 1)) 0).sum : Int) ≤ l.length := by
          intro l
          induction l with
          | nil => simp
          | cons a l ih =>
            rw [List.map_cons, List.sum_cons, List.length_cons]
            have := hle ((a * d + 0) % (d * (k + 1 - 1) + 1))
            omega
        simpa using this (List.range k)
      have h2 : b.getD ((k * d + 0) % (d * (k + 1 - 1) + 1)) 0 = 0 := by
        have e : (k * d + 0) % (d * (k + 1 - 1) + 1) = d * k := by
          rw [Nat.add_zero, Nat.add_sub_cancel, Nat.mul_comm k d]
          exact Nat.mod_eq_of_lt (by omega)
        rw [e]
        exact hhigh _ (by simpa using hB)
      rw [List.map_cons, List.map_nil, List.sum_cons, List.sum_nil, h2]
      omega
  · refine ⟨none, _, ?_, hinv, fun hn => ?_⟩
    · have hset' : pySet st.buffer st.index ((dilSum K d).spatial 1) = .ok b := hset
      unfold pstep
      simp only
      rw [hset', ok_bind]
      rw [if_neg (by exact hv)]
      rfl
    · exfalso
      apply hv
      rw [h.stride, strideAt_valid (by omega)]
      exact ⟨by omega, Nat.mod_one _⟩

theorem dil_init {K d : Nat} : DilInv K d 0 (initState (dilSum K d) 1) where
  len := by simp [initState, bufLen, dilSum]
  high := by
    intro j _
    simp only [initState, dilSum, List.getD_eq_getElem?_getD, List.getElem?_replicate]
    split <;> rfl
  le := by
    intro j
    simp only [initState, dilSum, List.getD_eq_getElem?_getD, List.getElem?_replicate]
    split <;> simp
  index := by simp [initState]
  stride := by
    rw [strideAt_zero (by omega)]
    simp [initState, bufLen, dilSum]

theorem dil_run {K d : Nat} (hK : 2 ≤ K) (hd : 2 ≤ d) (n : Nat) : ∀ {m i}, 0 < m → DilInv K d m i →
    ∃ os i', callSteps (mod (dilSum K d)) i (List.replicate n 1) = .ok (os, i') ∧ DilInv K d (m + n) i' := by
  induction n with
  | zero => intro m i hm hi; exact ⟨[], i, rfl, hi⟩
  | succ n ih =>
    intro m i hm hi
    obtain ⟨o, st', h1, h2, _⟩ := dil_step hK hd hi
    obtain ⟨os, i', h3, h4⟩ := ih (m := m + 1) (by omega) h2
    have hpos : i.buffer.length > 0 := by rw [hi.len]; omega
    have hstep : (mod (dilSum K d)).step i true 1 = .ok (o, st') := by
      show Leaf.forwardStep _ _ _ _ = _
      simp only [Leaf.forwardStep, leaf, hpos, if_true]
      rw [h1]; rfl
    refine ⟨o :: os, i', ?_, by have : m + (n + 1) = m + 1 + n := by omega
                                rw [this]; exact h4⟩
    rw [List.replicate_succ, callSteps, hstep, ok_bind]
    simp only [h3, ok_bind]
    rfl

theorem callSteps_append {M : CoMod (.stream X) (.stream Y)} (xs : List X) : ∀ {i os i' ys os' i''},
    callSteps M i xs = .ok (os, i') → callSteps M i' ys = .ok (os', i'') →
    callSteps M i (xs ++ ys) = .ok (os ++ os', i'') := by
  induction xs with
  | nil => intro i os i' ys os' i'' h h'; cases h; exact h'
  | cons x xs ih =>
    intro i os i' ys os' i'' h h'
    rw [callSteps] at h
    cases h1 : M.step i true x with
    | error e => rw [h1, err_bind] at h; cases h
    | ok p =>
      rw [h1, ok_bind] at h
      simp only at h
      cases h2 : callSteps M p.2 xs with
      | error e => rw [h2, err_bind] at h; cases h
      | ok q =>
        rw [h2, ok_bind] at h
        cases h
        rw [List.cons_append, callSteps, h1, ok_bind]
        simp only
        rw [ih h2 h', ok_bind]
        rfl

/-- A run of ones whose last output is smaller than the kernel size. -/
theorem dil_bad {K d : Nat} (hK : 2 ≤ K) (hd : 2 ≤ d) : ∃ (n : Nat) (os : List (Option Int)) (i' : St Int) (v : Int),
    callSteps (mod (dilSum K d)) (mod (dilSum K d)).init (List.replicate n 1) = .ok (os ++ [some v], i') ∧ v < K := by
  -- the first frame initialises the state
  obtain ⟨o0, st0, h1, h2, _⟩ := dil_step hK hd dil_init
  have hstep : (mod (dilSum K d)).step (mod (dilSum K d)).init true 1 = .ok (o0, st0) := by
    show Leaf.forwardStep _ _ _ _ = _
    have : pstep (dilSum K d) 1 none = pstep (dilSum K d) 1 (some (initState (dilSum K d) 1)) := rfl
    simp only [Leaf.forwardStep, leaf]
    rw [show (if ([] : List Int).length > 0 then some (⟨[], 0, 0⟩ : St Int) else none) = none from rfl, this, h1]
    rfl
  have hfirst : callSteps (mod (dilSum K d)) (mod (dilSum K d)).init [1] = .ok ([o0], st0) := by
    rw [callSteps, hstep, ok_bind]; rfl
  -- run until just before a multiple of `K` beyond the warm-up
  set T := K * (d * (K - 1) + 1) with hT
  have hTge : 2 * (d * (K - 1) + 1) ≤ T := Nat.mul_le_mul_right _ hK
  have h3 : 2 * 1 ≤ d * (K - 1) := Nat.mul_le_mul hd (by omega)
  obtain ⟨os, i1, h4, h5⟩ := dil_run hK hd (T - 2) (m := 0 + 1) (by omega) h2
  obtain ⟨o, st', h6, h7, h8⟩ := dil_step hK hd h5
  obtain ⟨v, rfl, hv⟩ := h8 (by omega)
  have hpos : i1.buffer.length > 0 := by rw [h5.len]; omega
  have hlast : callSteps (mod (dilSum K d)) i1 [1] = .ok ([some v], st') := by
    have : (mod (dilSum K d)).step i1 true 1 = .ok (some v, st') := by
      show Leaf.forwardStep _ _ _ _ = _
      simp only [Leaf.forwardStep, leaf, hpos, if_true]
      rw [h6]; rfl
    rw [callSteps, this, ok_bind]; rfl
  have hall := callSteps_append _ (callSteps_append _ hfirst h4) hlast
  refine ⟨T, [o0] ++ os, st', v, ?_, hv ?_⟩
  · have e : List.replicate T (1 : Int) = [1] ++ List.replicate (T - 2) 1 ++ [1] := by
      have : T = 1 + (T - 2) + 1 := by omega
      rw [show ([1] : List Int) = List.replicate 1 1 from rfl, List.replicate_append_replicate,
        List.replicate_append_replicate, ← this]
    rw [e]; exact hall
  · have : 0 + 1 + (T - 2) + 1 = T := by omega
    rw [this, hT]
    exact Nat.mul_mod_right _ _

theorem pySet_length {b b' : List Y} {i : Int} {a : Y} (h : pySet b i a = .ok b') :
    b'.length = b.length := by
  unfold pySet at h
  generalize (if i < 0 then i + (b.length : Int) else i) = j at h
  simp only at h
  by_cases h1 : j < 0
  · rw [if_pos h1] at h; cases h
  · rw [if_neg h1] at h
    by_cases h2 : j.toNat < b.length
    · rw [if_pos h2] at h; cases h; simp
    · rw [if_neg h2] at h; cases h

theorem pstep_K1 (c : Cfg X Y) (hK : c.K = 1) (x : X) {st : St Y} (hl : st.buffer.length = 1) :
    pstep c x (some st) = pstep { c with dil := 1 } x (some st) := by
  have hsel : ∀ (b : List Y) (n : Int), b.length = 1 → select c b n = select { c with dil := 1 } b n := by
    intro b n hbl
    match b, hbl with
    | [y], _ =>
      unfold select
      rw [if_pos rfl]
      split
      · rfl
      · rw [hK]
        simp [pyGet, List.range_succ, List.mapM_cons, pure, Except.pure, bind, Except.bind]
  unfold pstep
  simp only
  cases hset : pySet st.buffer st.index (c.spatial x) with
  | error e => rfl
  | ok b =>
    have hbl : b.length = 1 := by
      rw [pySet_length hset, hl]
    rw [ok_bind, ok_bind, hsel _ _ hbl]

/-- With kernel size one the dilation is irrelevant. -/
theorem leafRel_K1 (c : Cfg X Y) (hK : c.K = 1) (hc : Ok { c with dil := 1 }) :
    LeafRel (leaf c) (phi { c with dil := 1 }) (Inv { c with dil := 1 }) := by
  have H := leafRel _ hc
  have hb : bufLen c = bufLen { c with dil := 1 } := by simp [bufLen, hK]
  have hp : ∀ (x : X) (h : List X) (s : Option (St Y)), Inv { c with dil := 1 } h s →
      pstep c x s = pstep { c with dil := 1 } x s := by
    intro x h s hs
    cases s with
    | none =>
      show pstep c x (some (initState c (c.spatial x))) =
        pstep { c with dil := 1 } x (some (initState { c with dil := 1 } (c.spatial x)))
      have : initState { c with dil := 1 } (c.spatial x) = initState c (c.spatial x) := by
        simp only [initState, hb]
      rw [this]
      exact pstep_K1 c hK x (by simp [initState, bufLen, hK])
    | some st =>
      rcases hs with ⟨_, h0⟩ | ⟨x0, st', _, h0, hr, _⟩
      · cases h0
      · cases h0
        exact pstep_K1 c hK x (by rw [hr.len]; exact hK)
  exact {
    phi_nil := H.phi_nil
    none := H.none
    init := H.init
    clean := H.clean
    getset := H.getset
    pstep := by
      intro h s x hs
      have := H.pstep x hs
      show ∃ o s', pstep c x s = _ ∧ _
      rw [hp x h s hs]
      exact this }

end Pool
end CoInf
