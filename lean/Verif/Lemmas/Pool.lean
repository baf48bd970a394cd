import Verif.Model.Pool
import Verif.Spec.Conv
import Verif.Lemmas.Ring
import Verif.Lemmas.Refine

namespace CoInf.Pool
open Spec
variable {X Y : Type} (c : Cfg X Y)

/-- Configurations with temporal dilation 1 in which the fill of a frame and of a spatially pooled
frame agree. -/
structure Ok : Prop where
  hK : 1 ≤ c.K
  hS : 1 ≤ c.S
  hP : c.P + 1 ≤ c.K
  hd : c.dil = 1
  hfill : ∀ x, c.spatial (c.fillIn x) = c.fillOut (c.spatial x)
  hpool : OrderFree c.pool

/-- One window: pool every frame in space, then pool in time. -/
def win (l : List X) : Y := c.pool (l.map c.spatial)

/-- The stream function of a pooling module. -/
abbrev phi : List X → List Y := streamOut c.K c.S c.P c.fillIn (win c)

theorem bufLen_eq (hc : Ok c) : bufLen c = c.K := by
  have := hc.hK
  simp [bufLen, hc.hd]; omega

def Inv (h : List X) (s : Option (St Y)) : Prop :=
  (h = [] ∧ s = none) ∨
  ∃ x0 st, h.head? = some x0 ∧ s = some st ∧
    Ring c.K ((List.replicate c.K (c.fillIn x0) ++ h).map c.spatial) st.buffer ∧
    st.index = ((h.length % c.K : Nat) : Int) ∧
    st.strideIndex = strideAt c.K c.S c.P h.length

theorem step_core (hc : Ok c) {h : List X} {x x0 : X} {st : St Y}
    (hx0 : (h ++ [x]).head? = some x0)
    (hr : Ring c.K ((List.replicate c.K (c.fillIn x0) ++ h).map c.spatial) st.buffer)
    (hi : st.index = ((h.length % c.K : Nat) : Int))
    (hsi : st.strideIndex = strideAt c.K c.S c.P h.length) :
    ∃ o s', pstep c x (some st) = .ok (o, s') ∧ phi c (h ++ [x]) = phi c h ++ o.toList ∧
      Inv c (h ++ [x]) s' ∧ s' ≠ none := by
  have hK := hc.hK
  have hS := hc.hS
  have hP := hc.hP
  set p0 := c.fillIn x0 with hp0
  have hphi := streamOut_snoc (K := c.K) (S := c.S) (P := c.P) (L := c.K) hS hP (by omega)
    c.fillIn (win c) h x p0 (by
      intro a ha
      rw [hx0] at ha
      cases ha; rfl)
  have hslot : h.length % c.K < st.buffer.length := by
    rw [hr.len]; exact Nat.mod_lt _ (by omega)
  have hset : pySet st.buffer st.index (c.spatial x) =
      .ok (st.buffer.set (h.length % c.K) (c.spatial x)) := by
    rw [hi, pySet_ofNat _ hslot]
  have hring : Ring c.K ((List.replicate c.K p0 ++ h ++ [x]).map c.spatial)
      (st.buffer.set (h.length % c.K) (c.spatial x)) := by
    have := hr.write (c.spatial x)
    rw [List.length_map, List.length_append, List.length_replicate, Nat.add_mod_left] at this
    simpa using this
  have hidx : (st.index + 1) % (c.K : Int) = (((h ++ [x]).length % c.K : Nat) : Int) := by
    rw [hi, List.length_append, List.length_singleton]
    push_cast
    rw [Int.emod_add_emod]
  have hsn : Conv.nextStride c.S st.strideIndex = strideAt c.K c.S c.P (h ++ [x]).length := by
    rw [hsi, List.length_append, List.length_singleton, ← strideAt_succ hS]
    rfl
  have hinv : Inv c (h ++ [x]) (some ⟨st.buffer.set (h.length % c.K) (c.spatial x),
      (st.index + 1) % (c.K : Int), Conv.nextStride c.S st.strideIndex⟩) :=
    Or.inr ⟨x0, _, hx0, rfl, by rw [← List.append_assoc]; exact hring, hidx, hsn⟩
  by_cases hv : st.strideIndex = (c.S : Int) - 1
  · refine ⟨some (win c (lastN c.K (List.replicate c.K p0 ++ h ++ [x]))), _, ?_, ?_, hinv, by simp⟩
    · have hpool : c.pool (st.buffer.set (h.length % c.K) (c.spatial x)) =
          win c (lastN c.K (List.replicate c.K p0 ++ h ++ [x])) := by
        rw [win, ← lastN_map]
        exact hc.hpool _ _ hring.perm
      simp [pstep, hset, hv, select, hc.hd, hpool, bind, Except.bind, pure, Except.pure]
    · rw [phi, hphi, ← hsi, if_pos hv]; rfl
  · refine ⟨none, _, ?_, ?_, hinv, by simp⟩
    · simp [pstep, hset, hv, bind, Except.bind, pure, Except.pure]
    · rw [phi, hphi, ← hsi, if_neg hv]; rfl

theorem inv_nil {s : Option (St Y)} (h : Inv c [] s) : s = none := by
  rcases h with ⟨_, h⟩ | ⟨x0, st, h, _⟩
  · exact h
  · cases h

theorem phi_nil (hc : Ok c) : phi c [] = [] := by
  have h1 : 0 < c.K := hc.hK
  simp [phi, streamOut, padStart, slide, windowCount, h1]

theorem leafRel (hc : Ok c) : LeafRel (leaf c) (phi c) (Inv c) where
  phi_nil := phi_nil c hc
  none := Or.inl ⟨rfl, rfl⟩
  init := Or.inl ⟨rfl, by simp⟩
  clean := fun i => Or.inl ⟨rfl, by simp⟩
  pstep := by
    intro h s x hI
    have hb := bufLen_eq c hc
    rcases hI with ⟨rfl, rfl⟩ | ⟨x0, st, h1, rfl, h2, h3, h4⟩
    · have heq : (leaf c).pstep x .none = pstep c x (some (initState c (c.spatial x))) := rfl
      rw [heq]
      obtain ⟨o, s', k1, k2, k3, k4⟩ := step_core c hc (h := []) (x := x) (x0 := x)
        (st := initState c (c.spatial x)) rfl
        (by
          simp only [initState, List.append_nil, List.map_replicate, hc.hfill, hb]
          exact Ring.init _ _)
        (by simp [initState])
        (by rw [List.length_nil, strideAt_zero hc.hP]; simp only [initState, hb])
      exact ⟨o, s', k1, k2, k3, fun e => absurd e k4⟩
    · obtain ⟨o, s', k1, k2, k3, k4⟩ := step_core c hc (h := h) (x := x) (x0 := x0) (st := st)
        (by cases h <;> simp_all) h2 h3 h4
      exact ⟨o, s', k1, k2, k3, fun e => absurd e k4⟩
  getset := by
    intro h st i hs
    rcases hs with ⟨_, h0⟩ | ⟨x0, st', _, h0, hr, _⟩
    · cases h0
    · cases h0
      have : 0 < st.buffer.length := by rw [hr.len]; exact hc.hK
      simp [this]

theorem simRel (hc : Ok c) :
    SimRel (mod c) (phi c) (fun h i => Inv c h ((leaf c).get i)) := by
  have H := leafRel c hc
  exact {
    phi_nil := H.phi_nil
    init := H.init
    clean := fun {_ i} _ => H.clean i
    step := fun u x hi => H.forwardStep u x hi
    steps := fun u xs _ hi => H.forwardSteps u xs hi
    fwd_state := fun {h i xs ys i'} hi hf => by
      simp only [Except.map] at hf
      split at hf
      · cases hf
      · cases hf; exact hi
    fwd_indep := fun xs hi => by
      simp only [Except.map]
      cases forward c xs <;> rfl }

theorem pImplements (hc : Ok c) : PImplements (mod c) (phi c) :=
  ⟨Inv c, (leafRel c hc).none, fun {h s} x hs => by
    obtain ⟨o, s', h1, h2, h3, _⟩ := (leafRel c hc).pstep x hs
    exact ⟨o, s', h1, h2, h3⟩⟩

/-- Two sliding windows over lists with the same image agree. -/
theorem slide_map {Z : Type} (K S : Nat) (g : X → Z) (f : List Z → Y) (zs : List X) :
    slide K S (fun l => f (l.map g)) zs = slide K S f (zs.map g) := by
  simp [slide, List.map_drop, List.map_take]

theorem forward_eq (hc : Ok c) (hpad : c.P = 0 ∨ ∀ x, c.spatial (c.fillIn x) = c.refPad)
    {xs : List X} {ys : List Y} (h : forward c xs = .ok ys) :
    xs ≠ [] ∧ ys = clipOut c.K c.S c.P c.fillIn (win c) xs := by
  have hb := bufLen_eq c hc
  cases xs with
  | nil => simp [forward] at h
  | cons a t =>
    refine ⟨by simp, ?_⟩
    set xs := a :: t with hxs
    have hne : xs ≠ [] := by simp [hxs]
    unfold forward at h
    rw [if_neg hne] at h
    simp only [hb, hc.hd, Nat.mul_one] at h
    split at h
    · cases h
    · rename_i hlen
      cases h
      rw [clipOut_eq _ _ _ _ _ hne, streamOut]
      have : win c = fun l => c.pool (l.map c.spatial) := rfl
      rw [this, slide_map]
      have e : (padStart c.P c.fillIn (xs ++ List.replicate c.P (c.fillIn (xs.getLast hne)))).map
          c.spatial = List.replicate c.P c.refPad ++ xs.map c.spatial ++
            List.replicate c.P c.refPad := by
        rw [padStart_append _ _ _ _ hne, List.map_append, List.map_replicate]
        rcases hpad with hpad | hpad
        · simp [hxs, padStart, hpad]
        · simp [hxs, padStart, hpad]
      rw [e]
      unfold slide windowCount
      rw [if_neg hlen]
      apply List.map_congr_left
      intro j hj
      have hbd : j * c.S + c.K ≤ (List.replicate c.P c.refPad ++ xs.map c.spatial ++
            List.replicate c.P c.refPad).length := by
        apply windowCount_bound
        unfold windowCount
        rw [if_neg hlen]
        simpa using hj
      congr 1
      generalize (List.replicate c.P c.refPad ++ xs.map c.spatial ++
            List.replicate c.P c.refPad) = zs at hbd ⊢
      have e2 : ∀ k ∈ List.range c.K, zs[j * c.S + k]? = some (zs[j * c.S + k]?.getD c.refPad) := by
        intro k hk
        simp only [List.mem_range] at hk
        rw [List.getElem?_eq_getElem (by omega)]; rfl
      rw [List.filterMap_congr e2, show (fun k => some (zs[j * c.S + k]?.getD c.refPad)) =
        some ∘ (fun k => zs[j * c.S + k]?.getD c.refPad) from rfl, List.filterMap_eq_map]
      apply List.ext_getElem
      · simp; omega
      · intro k h1 h2
        simp only [List.length_map, List.length_range] at h1
        have : j * c.S + k < zs.length := by omega
        simp [this]

theorem padRel (hc : Ok c) (hpad : c.P = 0 ∨ ∀ x, c.spatial (c.fillIn x) = c.refPad) :
    PadRel (mod c) (phi c) (fun h i => Inv c h ((leaf c).get i)) where
  finish := by
    intro h i xs ys i0 hi hx hf
    obtain ⟨zs, i', h1, h2, h3⟩ := (leafRel c hc).forwardSteps_pad true xs hx hi (Or.inl rfl)
    simp only [Except.map] at hf
    split at hf
    · cases hf
    · rename_i ys' hfw
      cases hf
      obtain ⟨hne, he⟩ := forward_eq c hc hpad hfw
      refine ⟨zs, i', ?_, h1⟩
      rw [he, clipOut_eq _ _ _ _ _ hne, ← h2, phi, List.getLast_append_of_ne_nil _ hx]
  clean_probe := by
    intro i xs ys i0 hi hx hf
    obtain ⟨zs, i', h1, h2, h3⟩ := (leafRel c hc).forwardSteps_pad false xs hx hi
      (Or.inr (Or.inl (inv_nil c hi)))
    simp only [Except.map] at hf
    split at hf
    · cases hf
    · rename_i ys' hfw
      cases hf
      obtain ⟨hne, he⟩ := forward_eq c hc hpad hfw
      refine ⟨i', ?_⟩
      rw [phi_nil c hc, List.nil_append, List.nil_append] at h2
      rw [he, clipOut_eq _ _ _ _ _ hne]
      subst h2
      exact h1

end CoInf.Pool
