import Verif.Model.Conv
import Verif.Spec.Conv
import Verif.Lemmas.Ring
import Verif.Lemmas.Refine

set_option linter.unusedSectionVars false

namespace CoInf.Conv
open Spec
variable {X Y : Type} [Zero X] [Zero Y] [Add Y] (c : Cfg X Y)

/-- Configurations in which streaming is meaningful: torch requires `K, S ≥ 1`; a zero frame is
mapped to zero by the (linear) kernel slices. -/
structure Ok : Prop where
  hK : 1 ≤ c.K
  hS : 1 ≤ c.S
  hP : c.P + 1 ≤ c.K
  lin : ∀ k, c.w k 0 = 0

/-- `x_rest`. -/
def rest (x : X) : List Y := (taps c x).drop 1

theorem rest_get (x : X) (j : Nat) (hj : j < c.K - 1) : (rest c x)[j]? = some (c.w (c.K - 2 - j) x) := by
  have h1 : c.K - 1 - (1 + j) = c.K - 2 - j := by omega
  have h2 : 1 + j < c.K := by omega
  simp only [rest, taps, List.getElem?_drop, List.getElem?_map, List.getElem?_range h2,
    Option.map_some, h1]

theorem rest_fill (hc : Ok c) (x : X) :
    padRest c (rest c x) =
      rest c (c.fill.make 0 x) := by
  unfold padRest
  cases c.fill with
  | replicate => rfl
  | zeros =>
    simp only [rest, taps, Fill.make, hc.lin, List.map_drop, List.map_map]
    rfl

theorem taps_zero (hc : Ok c) (x : X) : pyGet (taps c x) 0 = .ok (c.w (c.K - 1) x) := by
  have := hc.hK
  have h0 : (taps c x)[0]? = some (c.w (c.K - 1) x) := by
    simp [taps, show 0 < c.K by omega]
  exact pyGet_ofNat (i := 0) h0

theorem pick_eq (hc : Ok c) (h : List X) (p0 : X) (st : St Y)
    (hr : Ring (c.K - 1) ((List.replicate (c.K - 1) p0 ++ h).map (rest c)) st.buffer)
    (hi : 1 < c.K → st.index = ((h.length % (c.K - 1) : Nat) : Int)) :
    pick st (c.K - 1) = .ok ((lastN (c.K - 1) (List.replicate (c.K - 1) p0 ++ h)).mapIdx c.w) := by
  have hK := hc.hK
  set Z := List.replicate (c.K - 1) p0 ++ h with hZ
  have hZl : Z.length = (c.K - 1) + h.length := by simp [hZ]
  have hkey : ∀ i, (hi' : i < c.K - 1) →
      (do let row ← pyGet st.buffer (((i : Int) + st.index) % ((c.K - 1 : Nat) : Int))
          pyGet row (((c.K - 1 : Nat) : Int) - 1 - i) : Except Err Y) =
      .ok (c.w i (Z[Z.length - (c.K - 1) + i]'(by omega))) := by
    intro i hi'
    have e1 : ((i : Int) + st.index) % ((c.K - 1 : Nat) : Int) =
        (((Z.length + i) % (c.K - 1) : Nat) : Int) := by
      rw [hi (by omega), hZl]
      push_cast
      rw [Int.add_emod_emod]
      have : (((c.K - 1 : Nat) : Int) + h.length + i) = (i + h.length) + ((c.K - 1 : Nat) : Int) := by ring
      rw [this, Int.add_emod_right]
    have e2 : ((c.K - 1 : Nat) : Int) - 1 - i = ((c.K - 1 - 1 - i : Nat) : Int) := by omega
    have hg := hr.get i hi'
    simp only [List.length_map] at hg
    have hlt : Z.length - (c.K - 1) + i < Z.length := by omega
    rw [List.getElem?_map, List.getElem?_eq_getElem hlt] at hg
    rw [e1, pyGet_ofNat hg, e2]
    simp only [bind, Except.bind]
    apply pyGet_ofNat
    rw [rest_get c _ _ (by omega)]
    congr 2
    omega
  unfold pick
  rw [mapM_ok (List.range (c.K - 1)) _
    (fun i => if hi' : i < c.K - 1 then c.w i (Z[Z.length - (c.K - 1) + i]'(by omega)) else 0)]
  · congr 1
    apply List.ext_getElem
    · rw [List.length_map, List.length_range, List.length_mapIdx, lastN_length _ _ (by omega)]
    · intro i h1 h2
      simp only [List.length_map, List.length_range] at h1
      simp only [List.getElem_map, List.getElem_range, h1, dif_pos, List.getElem_mapIdx]
      congr 1
      simp [lastN]
  · intro i hi'
    have : i < c.K - 1 := by simpa using hi'
    rw [hkey i this, dif_pos this]

/-- Closed form of the buffer index. -/
def idxAt (n : Nat) : Int := if 1 < c.K then ((n % (c.K - 1) : Nat) : Int) else 0

/-- State invariant. -/
def Inv (h : List X) (s : Option (St Y)) : Prop :=
  (h = [] ∧ s = none) ∨
  ∃ x0 st, h.head? = some x0 ∧ s = some st ∧
    Ring (c.K - 1) ((List.replicate (c.K - 1) (c.fill.make 0 x0) ++ h).map (rest c)) st.buffer ∧
    st.index = idxAt c h.length ∧
    st.strideIndex = strideAt c.K c.S c.P h.length

/-- The stream function of a convolution, with the order of the additions. -/
abbrev phiR : List X → List Y := streamOut c.K c.S c.P (c.fill.make 0) (corrSeq c.w c.bias)

theorem step_coreR (hc : Ok c) (hs : stateless c = false) {h : List X} {x x0 : X} {st : St Y}
    (hx0 : (h ++ [x]).head? = some x0)
    (hr : Ring (c.K - 1) ((List.replicate (c.K - 1) (c.fill.make 0 x0) ++ h).map (rest c)) st.buffer)
    (hi : st.index = idxAt c h.length)
    (hsi : st.strideIndex = strideAt c.K c.S c.P h.length) :
    ∃ o s', pstep c x (some st) = .ok (o, s') ∧ phiR c (h ++ [x]) = phiR c h ++ o.toList ∧
      Inv c (h ++ [x]) s' ∧ s' ≠ none := by
  have hK := hc.hK
  have hS := hc.hS
  have hP := hc.hP
  set p0 := c.fill.make 0 x0 with hp0
  set Z := List.replicate (c.K - 1) p0 ++ h with hZ
  have hZl : Z.length = (c.K - 1) + h.length := by simp [hZ]
  have hphi := streamOut_snoc (K := c.K) (S := c.S) (P := c.P) (L := c.K - 1) hS hP (by omega)
    (c.fill.make 0) (corrSeq c.w c.bias) h x p0 (by
      intro a ha
      rw [hx0] at ha
      cases ha; rfl)
  rw [← hZ] at hphi
  -- the buffer update
  have hnext : ∃ b, writeBack c st (rest c x) = .ok (b, idxAt c (h ++ [x]).length) ∧
      Ring (c.K - 1) ((List.replicate (c.K - 1) p0 ++ (h ++ [x])).map (rest c)) b := by
    by_cases h1 : c.K > 1
    · have hslot : h.length % (c.K - 1) < st.buffer.length := by
        rw [hr.len]; exact Nat.mod_lt _ (by omega)
      refine ⟨st.buffer.set (h.length % (c.K - 1)) (rest c x), ?_, ?_⟩
      · rw [writeBack, if_pos h1, hi, idxAt, if_pos h1, pySet_ofNat _ hslot]
        simp only [bind, Except.bind, pure, Except.pure]
        congr 2
        rw [idxAt, if_pos h1, List.length_append, List.length_singleton]
        push_cast
        rw [Int.emod_add_emod]
      · have := hr.write (rest c x)
        rw [List.length_map, hZl, Nat.add_mod_left] at this
        simpa [hZ] using this
    · have hK1 : c.K - 1 = 0 := by omega
      refine ⟨st.buffer, ?_, ?_⟩
      · rw [writeBack, if_neg h1, hi, idxAt, idxAt, if_neg h1, if_neg h1]
      · have := hr.write (rest c x)
        rw [hK1] at this hr ⊢
        have hb : st.buffer = [] := List.eq_nil_of_length_eq_zero hr.len
        simpa [hb, hZ, hK1] using this
  obtain ⟨b, hb1, hb2⟩ := hnext
  have hpick := pick_eq c hc h p0 st (by rw [← hZ]; exact hr)
    (by intro h1; rw [hi, idxAt, if_pos h1])
  have hsn : nextStride c.S st.strideIndex = strideAt c.K c.S c.P (h ++ [x]).length := by
    rw [hsi, List.length_append, List.length_singleton, ← strideAt_succ hS]
    rfl
  have hinv : Inv c (h ++ [x]) (some ⟨b, idxAt c (h ++ [x]).length, nextStride c.S st.strideIndex⟩) :=
    Or.inr ⟨x0, _, hx0, rfl, hb2, rfl, hsn⟩
  by_cases hv : st.strideIndex = (c.S : Int) - 1
  · refine ⟨some (corrSeq c.w c.bias (lastN c.K (Z ++ [x]))), _, ?_, ?_, hinv, by simp⟩
    · have hout : addBias c (c.w (c.K - 1) x + ((lastN (c.K - 1) Z).mapIdx c.w).sum) =
          corrSeq c.w c.bias (lastN c.K (Z ++ [x])) := by
        have e : lastN c.K (Z ++ [x]) = lastN (c.K - 1) Z ++ [x] := by
          unfold lastN
          rw [List.length_append, List.length_singleton]
          have : Z.length + 1 - c.K = Z.length - (c.K - 1) := by omega
          rw [this, List.drop_append_of_le_length (by omega)]
        have hl : (lastN (c.K - 1) Z).length + 1 - 1 = c.K - 1 := by rw [lastN_length _ _ (by omega)]; rfl
        simp only [e, corrSeq, addBias, List.getLast?_concat, List.dropLast_concat, List.length_append, List.length_singleton, hl]
        cases c.bias <;> rfl
      unfold pstep
      rw [hs]
      have e1 : (taps c x).drop 1 = rest c x := rfl
      have e2 : output c st (c.w (c.K - 1) x) = .ok (some (corrSeq c.w c.bias (lastN c.K (Z ++ [x])))) := by
        rw [output, if_pos hv, hpick, ← hout]; rfl
      simp [taps_zero c hc x, e1, e2, hb1, bind, Except.bind, pure, Except.pure]
    · rw [phiR, hphi, ← hsi, if_pos hv]; rfl
  · refine ⟨none, _, ?_, ?_, hinv, by simp⟩
    · unfold pstep
      rw [hs]
      have e1 : (taps c x).drop 1 = rest c x := rfl
      have e2 : output c st (c.w (c.K - 1) x) = .ok none := by
        rw [output, if_neg hv]
      simp [taps_zero c hc x, e1, e2, hb1, bind, Except.bind, pure, Except.pure]
    · rw [phiR, hphi, ← hsi, if_neg hv]; rfl

theorem forward_singleR (hs : stateless c = true) (x : X) :
    forward c [x] = .ok [corrSeq c.w c.bias [x]] := by
  simp only [stateless, decide_eq_true_eq] at hs
  obtain ⟨h1, h2, h3⟩ := hs
  simp only [forward, List.head?_cons, List.getLast?_singleton, torchConv, h1, h2, h3]
  simp [addBias, corrSeq]
  cases c.bias <;> rfl

theorem pstep_okR (hc : Ok c) {h : List X} {s : Option (St Y)} (x : X)
    (hInv : (stateless c = true ∧ s = none) ∨ (stateless c = false ∧ Inv c h s)) :
    ∃ o s', pstep c x s = .ok (o, s') ∧ phiR c (h ++ [x]) = phiR c h ++ o.toList ∧
      ((stateless c = true ∧ s' = none) ∨ (stateless c = false ∧ Inv c (h ++ [x]) s')) ∧
      (s' = none → s = none) := by
  rcases hInv with ⟨hs, rfl⟩ | ⟨hs, hI⟩
  · refine ⟨some (corrSeq c.w c.bias [x]), none, ?_, ?_, Or.inl ⟨hs, rfl⟩, fun _ => rfl⟩
    · unfold pstep
      rw [hs, forward_singleR c hs]
      simp [bind, Except.bind, pure, Except.pure, pyGet]
    · simp only [stateless, decide_eq_true_eq] at hs
      obtain ⟨h1, h2, h3⟩ := hs
      rw [phiR, h1, h2, h3]
      have hlen : ∀ l : List X, streamOut 1 1 0 (c.fill.make 0) (corrSeq c.w c.bias) l =
          l.map fun x => corrSeq c.w c.bias [x] := by
        intro l
        have hp : padStart 0 (c.fill.make 0) l = l := by cases l <;> simp [padStart]
        rw [streamOut, hp, slide]
        apply List.ext_getElem
        · simp [windowCount]; cases l <;> simp
        · intro i h1 h2
          simp only [List.length_map] at h2
          simp [List.take_one, h2]
      rw [hlen, hlen]; simp
  · rcases hI with ⟨rfl, rfl⟩ | ⟨x0, st, h1, rfl, h2, h3, h4⟩
    · have heq : pstep c x none = pstep c x (some (initState c (rest c x))) := by
        simp only [pstep, hs]; rfl
      rw [heq]
      obtain ⟨o, s', k1, k2, k3, k4⟩ := step_coreR c hc hs (h := []) (x := x) (x0 := x)
        (st := initState c (rest c x)) rfl
        (by
          simp only [initState, List.append_nil, List.map_replicate]
          rw [rest_fill c hc]
          exact Ring.init _ _)
        (by simp [initState, idxAt])
        (by
          rw [List.length_nil, strideAt_zero hc.hP]
          have := hc.hK
          simp only [initState]; omega)
      exact ⟨o, s', k1, k2, Or.inr ⟨hs, k3⟩, fun e => absurd e k4⟩
    · obtain ⟨o, s', k1, k2, k3, k4⟩ := step_coreR c hc hs (h := h) (x := x) (x0 := x0) (st := st)
        (by cases h <;> simp_all) h2 h3 h4
      exact ⟨o, s', k1, k2, Or.inr ⟨hs, k3⟩, fun e => absurd e k4⟩

/-- Configurations for which stepping with stored state is exact. -/
structure Good : Prop extends Ok c where
  hKS : 1 < c.K ∨ c.S = 1

/-- The pure state relation, with the stateless shortcut. -/
def Rel (h : List X) (s : Option (St Y)) : Prop :=
  (stateless c = true ∧ s = none) ∨ (stateless c = false ∧ Inv c h s)

theorem rel_none : Rel c [] none := by
  unfold Rel
  cases stateless c
  · exact Or.inr ⟨rfl, Or.inl ⟨rfl, rfl⟩⟩
  · exact Or.inl ⟨rfl, rfl⟩

theorem rel_nil {s : Option (St Y)} (h : Rel c [] s) : s = none := by
  rcases h with ⟨_, h⟩ | ⟨_, h⟩
  · exact h
  · rcases h with ⟨_, h⟩ | ⟨x0, st, h, _⟩
    · exact h
    · cases h

theorem phi_nilR (hc : Ok c) : phiR c [] = [] := by
  have h1 : 0 < c.K := hc.hK
  simp [phiR, streamOut, padStart, slide, windowCount, h1]

theorem leafRelR (hc : Good c) : LeafRel (leaf c) (phiR c) (Rel c) where
  phi_nil := phi_nilR c hc.toOk
  none := rel_none c
  init := by simpa using rel_none c
  clean := fun i => by simpa using rel_none c
  pstep := fun x hs => pstep_okR c hc.toOk x hs
  getset := by
    intro h st i hs
    have hK : 1 < c.K ∨ stateless c = true := by
      rcases hc.hKS with h1 | h1
      · exact Or.inl h1
      · have := hc.hK
        have := hc.hP
        by_cases hk : 1 < c.K
        · exact Or.inl hk
        · exact Or.inr (by simp [stateless, h1]; omega)
    rcases hs with ⟨_, h0⟩ | ⟨h1, h0⟩
    · cases h0
    · rcases h0 with ⟨_, h0⟩ | ⟨x0, st', _, h0, hr, _⟩
      · cases h0
      · cases h0
        have : 0 < st.buffer.length := by
          rw [hr.len]
          rcases hK with hK | hK
          · omega
          · rw [hK] at h1; cases h1
        simp [this]

theorem simRelR (hc : Good c) :
    SimRel (mod c) (phiR c) (fun h i => Rel c h ((leaf c).get i)) := by
  have H := leafRelR c hc
  exact {
    phi_nil := H.phi_nil
    init := H.init
    clean := fun {_ i} _ => H.clean i
    step := fun u x hi => H.forwardStep u x hi
    steps := fun u xs _ hi => H.forwardSteps u xs hi
    fwd_state := fun {h i xs ys i'} hi hf => by
      simp only [Except.map] at hf
      split at hf
      · cases hf
      · cases hf; exact hi
    fwd_indep := fun xs hi => by
      simp only [Except.map]
      cases forward c xs <;> rfl }

theorem pImplementsR (hc : Ok c) : PImplements (mod c) (phiR c) :=
  ⟨Rel c, rel_none c, fun {h s} x hs => by
    obtain ⟨o, s', h1, h2, h3, _⟩ := pstep_okR c hc x hs
    exact ⟨o, s', h1, h2, h3⟩⟩

end CoInf.Conv

namespace CoInf.Conv
open Spec
variable {X Y : Type} [Zero X] [AddCommMonoid Y] (c : Cfg X Y)

omit [Zero X] in
theorem addBias_eq (y : Y) : addBias c y = y + c.bias.getD 0 := by
  unfold addBias; cases c.bias <;> simp

omit [Zero X] in
/-- Without rounding the order does not matter. -/
theorem corrSeq_eq (w : Nat → X → Y) (bias : Option Y) (win : List X) : corrSeq w bias win = corr w bias win := by
  rcases List.eq_nil_or_concat win with rfl | ⟨l, x, rfl⟩
  · cases bias <;> simp [corrSeq, corr]
  · have e : (w l.length x + (l.mapIdx w).sum) = ((l ++ [x]).mapIdx w).sum := by
      rw [List.mapIdx_concat, List.sum_append, List.sum_singleton, add_comm]
    rw [List.concat_eq_append, corr, ← e]
    cases bias <;> simp [corrSeq]

/-- The stream function of a convolution. -/
abbrev phi : List X → List Y := streamOut c.K c.S c.P (c.fill.make 0) (corr c.w c.bias)

theorem phiR_eq : phiR c = phi c := by
  have : corrSeq c.w c.bias = corr c.w c.bias := funext fun win => corrSeq_eq c.w c.bias win
  unfold phiR phi
  rw [this]

theorem pstep_ok (hc : Ok c) {h : List X} {s : Option (St Y)} (x : X)
    (hInv : (stateless c = true ∧ s = none) ∨ (stateless c = false ∧ Inv c h s)) :
    ∃ o s', pstep c x s = .ok (o, s') ∧ phi c (h ++ [x]) = phi c h ++ o.toList ∧
      ((stateless c = true ∧ s' = none) ∨ (stateless c = false ∧ Inv c (h ++ [x]) s')) ∧
      (s' = none → s = none) := by
  rw [← phiR_eq]; exact pstep_okR c hc x hInv

theorem phi_nil (hc : Ok c) : phi c [] = [] := by rw [← phiR_eq]; exact phi_nilR c hc

theorem leafRel (hc : Good c) : LeafRel (leaf c) (phi c) (Rel c) := by rw [← phiR_eq]; exact leafRelR c hc

theorem simRel (hc : Good c) : SimRel (mod c) (phi c) (fun h i => Rel c h ((leaf c).get i)) := by
  rw [← phiR_eq]; exact simRelR c hc

theorem pImplements (hc : Ok c) : PImplements (mod c) (phi c) := by rw [← phiR_eq]; exact pImplementsR c hc

/-- torch's convolution formula is the sliding window. -/
theorem torchConv_eq (zs : List X) (h : c.K ≤ zs.length) :
    torchConv c zs = .ok (slide c.K c.S (corr c.w c.bias) zs) := by
  unfold torchConv slide windowCount
  rw [if_neg (by omega), if_neg (by omega)]
  congr 1
  apply List.map_congr_left
  intro j hj
  have hb : j * c.S + c.K ≤ zs.length := by
    apply windowCount_bound
    unfold windowCount
    rw [if_neg (by omega)]
    simpa using hj
  rw [addBias_eq, corr]
  congr 2
  apply List.ext_getElem
  · simp; omega
  · intro k h1 h2
    simp only [List.length_map, List.length_range] at h1
    have : j * c.S + k < zs.length := by omega
    simp [this]

theorem forward_eq (hm : c.padMode = c.fill) {xs : List X} {ys : List Y}
    (h : forward c xs = .ok ys) : xs ≠ [] ∧ ys = clipOut c.K c.S c.P (c.fill.make 0) (corr c.w c.bias) xs := by
  cases xs with
  | nil => simp [forward] at h
  | cons a t =>
    refine ⟨by simp, ?_⟩
    have hl : (a :: t).getLast? = some ((a :: t).getLast (by simp)) := List.getLast?_eq_some_getLast _
    unfold forward at h
    rw [hl] at h
    simp only [List.head?_cons, hm] at h
    have hk : ¬ (List.replicate c.P (c.fill.make 0 a) ++ a :: t ++
        List.replicate c.P (c.fill.make 0 ((a :: t).getLast (by simp)))).length < c.K := by
      intro hlt
      rw [torchConv, if_pos hlt] at h
      cases h
    rw [torchConv_eq c _ (by omega)] at h
    cases h
    unfold clipOut padEnd padStart
    have : (List.replicate c.P (c.fill.make 0 a) ++ a :: t).getLast? =
        some ((a :: t).getLast (by simp)) := by
      rw [List.getLast?_append_of_ne_nil _ (by simp), hl]
    simp only [this]

theorem padRel (hc : Good c) (hm : c.padMode = c.fill) :
    PadRel (mod c) (phi c) (fun h i => Rel c h ((leaf c).get i)) where
  finish := by
    intro h i xs ys i0 hi hx hf
    obtain ⟨zs, i', h1, h2, h3⟩ := (leafRel c hc).forwardSteps_pad true xs hx hi (Or.inl rfl)
    simp only [Except.map] at hf
    split at hf
    · cases hf
    · rename_i ys' hfw
      cases hf
      obtain ⟨hne, he⟩ := forward_eq c hm hfw
      refine ⟨zs, i', ?_, h1⟩
      rw [he, clipOut_eq _ _ _ _ _ hne, ← h2, phi, List.getLast_append_of_ne_nil _ hx]
  clean_probe := by
    intro i xs ys i0 hi hx hf
    obtain ⟨zs, i', h1, h2, h3⟩ := (leafRel c hc).forwardSteps_pad false xs hx hi
      (Or.inr (Or.inl (rel_nil c hi)))
    simp only [Except.map] at hf
    split at hf
    · cases hf
    · rename_i ys' hfw
      cases hf
      obtain ⟨hne, he⟩ := forward_eq c hm hfw
      refine ⟨i', ?_⟩
      rw [phi_nil c hc.toOk, List.nil_append, List.nil_append] at h2
      rw [he, clipOut_eq _ _ _ _ _ hne]
      subst h2
      exact h1

end CoInf.Conv
