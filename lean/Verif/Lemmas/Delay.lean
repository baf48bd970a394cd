import Verif.Model.Delay
import Verif.Lemmas.Ring
import Verif.Lemmas.Refine

namespace CoInf.Delay
open Spec
variable {X : Type} (c : Cfg X)

/-- Number of suppressed outputs at the start. -/
def lead : Nat := if c.shrink = .on then c.d else 0

theorem delayed_snoc (d e : Nat) (h : List X) (x : X) :
    delayed d e (h ++ [x]) = delayed d e h ++
      (if d + e ≤ h.length then ((h ++ [x])[h.length - d]?).toList else []) := by
  unfold delayed
  simp only [List.length_append, List.length_singleton]
  by_cases h1 : d ≤ h.length
  · have e1 : h.length + 1 - d = (h.length - d) + 1 := by omega
    have hlt : h.length - d < (h ++ [x]).length := by simp; omega
    rw [e1, List.take_succ_eq_append_getElem hlt]
    have e2 : (h ++ [x]).take (h.length - d) = h.take (h.length - d) :=
      List.take_append_of_le_length (by omega)
    rw [e2, List.drop_append]
    congr 1
    have e3 : (h.take (h.length - d)).length = h.length - d := by simp
    rw [e3, List.getElem?_eq_getElem hlt]
    by_cases h2 : d + e ≤ h.length
    · have : e - (h.length - d) = 0 := by omega
      simp [h2, this]
    · rw [if_neg h2, List.drop_eq_nil_of_le]
      simp; omega
  · have e1 : h.length + 1 - d = 0 := by omega
    have e2 : h.length - d = 0 := by omega
    have h2 : ¬ d + e ≤ h.length := by omega
    simp [e1, e2, h2]

/-- State invariant of `Delay` for `d > 0`. -/
def Inv (h : List X) (s : Option (St X)) : Prop :=
  (h = [] ∧ s = none) ∨
  ∃ b idx pad, h ≠ [] ∧ s = some (b, idx) ∧ Ring c.d (List.replicate c.d pad ++ h) b ∧
    idx = (let r : Int := (h.length : Int) - c.d - lead c; if r ≤ 0 then r else r % c.d)

theorem step_core (hd : 0 < c.d) {h b : List X} {pad x : X} {idx : Int}
    (hr : Ring c.d (List.replicate c.d pad ++ h) b)
    (hi : idx = (let r : Int := (h.length : Int) - c.d - lead c; if r ≤ 0 then r else r % c.d)) :
    ∃ o s', pstep c x (some (b, idx)) = .ok (o, s') ∧
      delayed c.d (lead c) (h ++ [x]) = delayed c.d (lead c) h ++ o.toList ∧
      Inv c (h ++ [x]) s' ∧ s' ≠ none := by
  have hd0 : c.d ≠ 0 := by omega
  have hdz : (c.d : Int) ≠ 0 := by omega
  have hlead : lead c = 0 ∨ lead c = c.d := by unfold lead; split <;> simp
  have hmod : idx % c.d = ((h.length % c.d : Nat) : Int) := by
    have h1 : idx % c.d = ((h.length : Int) - c.d - lead c) % c.d := by
      rw [hi]; simp only; split
      · rfl
      · rw [Int.emod_emod]
    rw [h1, Int.natCast_emod]
    rcases hlead with h2 | h2 <;> rw [h2]
    · simp
    · simp
  have hlen : (List.replicate c.d pad ++ h).length = c.d + h.length := by simp
  have hslot : h.length % c.d < b.length := by rw [hr.len]; exact Nat.mod_lt _ hd
  have hset : pySet b (idx % c.d) x = .ok (b.set (h.length % c.d) x) := by
    rw [hmod, pySet_ofNat _ hslot]
  have hring : Ring c.d (List.replicate c.d pad ++ (h ++ [x])) (b.set (h.length % c.d) x) := by
    have := hr.write x
    rw [hlen, Nat.add_mod_left] at this
    simpa using this
  have hnext : (if idx + 1 > 0 then (idx + 1) % (c.d : Int) else idx + 1) =
      (let r : Int := ((h ++ [x]).length : Int) - c.d - lead c; if r ≤ 0 then r else r % c.d) := by
    rw [hi]
    simp only [List.length_append, List.length_singleton]
    have e : ((h.length + 1 : Nat) : Int) - c.d - lead c = ((h.length : Int) - c.d - lead c) + 1 := by
      omega
    rw [e]
    generalize (h.length : Int) - c.d - lead c = r
    by_cases hr0 : r ≤ 0
    · simp only [hr0, if_true]
      split <;> split <;> first | rfl | omega
    · have h0 : 0 ≤ r % c.d := Int.emod_nonneg _ hdz
      simp only [hr0, if_false]
      rw [if_pos (by omega), if_neg (by omega), Int.emod_add_emod]
  by_cases hv : c.d + lead c ≤ h.length
  · -- output present
    have hnn : idx ≥ 0 := by
      rw [hi]; simp only; split
      · omega
      · exact Int.emod_nonneg _ hdz
    have hidx : idx = ((h.length % c.d : Nat) : Int) := by
      rw [← hmod, Int.emod_eq_of_lt hnn]
      rw [hi]; simp only; split
      · omega
      · exact Int.emod_lt_of_pos _ (by omega)
    have hz : (List.replicate c.d pad ++ h)[h.length]? = (h ++ [x])[h.length - c.d]? := by
      rw [List.getElem?_append_right (by simp; omega), List.length_replicate,
        List.getElem?_append_left (by omega)]
    have hlt : h.length - c.d < (h ++ [x]).length := by simp; omega
    have hget : b[h.length % c.d]? = some ((h ++ [x])[h.length - c.d]) := by
      rw [hr.slot h.length (by rw [hlen]; omega) (by rw [hlen]; omega), hz,
        List.getElem?_eq_getElem hlt]
    refine ⟨some ((h ++ [x])[h.length - c.d]), _, ?_, ?_, Or.inr ⟨_, _, pad, by simp, rfl, hring, hnext⟩, by simp⟩
    · have hg : pyGet b idx = .ok ((h ++ [x])[h.length - c.d]) := by
        rw [hidx]; exact pyGet_ofNat hget
      simp [pstep, hd0, hnn, hg, hset, bind, Except.bind, pure, Except.pure, Except.map]
    · rw [delayed_snoc, if_pos hv, List.getElem?_eq_getElem hlt]
  · have hneg : ¬ (idx ≥ 0) := by
      rw [hi]; simp only; split
      · omega
      · omega
    refine ⟨none, _, ?_, ?_, Or.inr ⟨_, _, pad, by simp, rfl, hring, hnext⟩, by simp⟩
    · simp [pstep, hd0, hneg, hset, bind, Except.bind, pure, Except.pure]
    · rw [delayed_snoc, if_neg hv]; simp

theorem leafRel (hd : 0 < c.d) : LeafRel (leaf c) (delayed c.d (lead c)) (Inv c) where
  phi_nil := by simp [delayed]
  none := Or.inl ⟨rfl, rfl⟩
  init := Or.inl ⟨rfl, by simp⟩
  clean := fun i => Or.inl ⟨rfl, by simp⟩
  pstep := by
    intro h s x hs
    have hd0 : c.d ≠ 0 := by omega
    rcases hs with ⟨rfl, rfl⟩ | ⟨b, idx, pad, _, rfl, hr, hi⟩
    · have heq : (leaf c).pstep x .none = pstep c x (some (initState c x)) := by
        simp [leaf, pstep, hd0]
      rw [heq]
      have := step_core c hd (h := []) (x := x) (pad := c.fill x) (b := (initState c x).1)
        (idx := (initState c x).2) (by simpa [initState] using Ring.init c.d (c.fill x))
        (by
          simp only [initState, lead, List.length_nil]
          split
          · simp; omega
          · simp)
      obtain ⟨o, s', h1, h2, h3, h4⟩ := this
      exact ⟨o, s', h1, h2, h3, fun e => absurd e h4⟩
    · obtain ⟨o, s', h1, h2, h3, h4⟩ := step_core c hd (x := x) hr hi
      exact ⟨o, s', h1, h2, h3, fun e => absurd e h4⟩
  getset := by
    intro h st i hs
    rcases hs with ⟨_, h0⟩ | ⟨b, idx, pad, _, h0, hr, hi⟩
    · cases h0
    · cases h0
      have : 0 < b.length := by rw [hr.len]; exact hd
      simp [leaf, this]

theorem simRel (hd : 0 < c.d) : SimRel (mod c) (delayed c.d (lead c)) (fun h i => Inv c h ((leaf c).get i)) := by
  have H := leafRel c hd
  have hd0 : c.d ≠ 0 := by omega
  exact {
    phi_nil := H.phi_nil
    init := H.init
    clean := fun {_ i} _ => H.clean i
    step := fun u x hi => by simpa [mod, hd0] using H.forwardStep u x hi
    steps := fun u xs _ hi => by simpa [mod, hd0] using H.forwardSteps u xs hi
    fwd_state := fun hi hf => by cases hf; exact hi
    fwd_indep := fun xs hi => rfl }

/-- `Delay(0)` is the identity. -/
theorem simRel_zero (hd : c.d = 0) : SimRel (mod c) id (fun _ _ => True) where
  phi_nil := rfl
  init := trivial
  clean := fun _ => trivial
  step := fun {h i} u x _ => ⟨some x, i, by simp [mod, hd], by simp, trivial⟩
  steps := fun {h i} u xs hx _ => ⟨xs, i, by
    cases xs with
    | nil => exact absurd rfl hx
    | cons a l => simp [mod, hd, optList], by simp, trivial⟩
  fwd_state := fun _ _ => trivial
  fwd_indep := fun _ _ => rfl

theorem implements : Implements (mod c) (delayed c.d (lead c)) := by
  rcases Nat.eq_zero_or_pos c.d with h | h
  · have : delayed c.d (lead c) = (id : List X → List X) := by
      funext xs; simp [delayed, lead, h]
    rw [this]
    exact ⟨_, simRel_zero c h⟩
  · exact ⟨_, simRel c h⟩

theorem pImplements : PImplements (mod c) (delayed c.d (lead c)) := by
  rcases Nat.eq_zero_or_pos c.d with h | h
  · have e : delayed c.d (lead c) = (id : List X → List X) := by
      funext xs; simp [delayed, lead, h]
    rw [e]
    refine ⟨fun _ s => True, trivial, fun {h' s} x _ => ⟨some x, s, ?_, rfl, trivial⟩⟩
    show pstep c x s = _
    simp [pstep, h]
  · have H := leafRel c h
    exact ⟨Inv c, H.none, fun {h' s} x hs => by
      obtain ⟨o, s', h1, h2, h3, _⟩ := H.pstep x hs
      exact ⟨o, s', h1, h2, h3⟩⟩

end CoInf.Delay

namespace CoInf.Skip
open Spec
variable {X : Type}

/-- Invariant of `Skip n`. -/
def Inv (n : Nat) (h : List X) (s : Option Int) : Prop :=
  (h = [] ∧ s = none) ∨ s = some (if n ≤ h.length then 0 else (h.length : Int) - n)

theorem pstep_core (n : Nat) {h : List X} {s : Option Int} (x : X) (hs : Inv n h s) :
    ∃ o s', pstep n x s = .ok (o, s') ∧ (h ++ [x]).drop n = h.drop n ++ o.toList ∧
      Inv n (h ++ [x]) s' ∧ (s' = none → s = none) := by
  have hidx : ∃ k, k = (if n ≤ h.length then 0 else (h.length : Int) - n) ∧
      pstep n x s = if k ≥ 0 then .ok (some x, some k) else .ok (none, some (k + 1)) := by
    rcases hs with ⟨rfl, rfl⟩ | rfl
    · refine ⟨-(n : Int), ?_, rfl⟩
      simp only [List.length_nil]; split
      · have : n = 0 := by omega
        subst this; rfl
      · simp
    · exact ⟨_, rfl, rfl⟩
  obtain ⟨k, hk, hp⟩ := hidx
  rw [hp]
  by_cases hn : n ≤ h.length
  · rw [if_pos hn] at hk
    subst hk
    refine ⟨some x, some 0, by simp, ?_, Or.inr ?_, by simp⟩
    · rw [List.drop_append_of_le_length hn]; rfl
    · simp; omega
  · rw [if_neg hn] at hk
    refine ⟨none, some (k + 1), ?_, ?_, Or.inr ?_, by simp⟩
    · rw [if_neg (by omega)]
    · rw [List.drop_eq_nil_of_le (by simp; omega), List.drop_eq_nil_of_le (by omega)]; rfl
    · simp only [List.length_append, List.length_singleton]
      congr 1
      split <;> omega

theorem leafRel (n : Nat) : LeafRel (leaf n X) (List.drop n) (Inv n) where
  phi_nil := by simp
  none := Or.inl ⟨rfl, rfl⟩
  init := Or.inr (by
    simp only [List.length_nil]; split
    · have : n = 0 := by omega
      subst this; rfl
    · simp)
  clean := fun i => Or.inr (by
    simp only [List.length_nil]; split
    · have : n = 0 := by omega
      subst this; rfl
    · simp)
  pstep := fun x hs => pstep_core n x hs
  getset := fun _ _ => rfl

theorem simRel (n : Nat) : SimRel (mod n X) (List.drop n)
    (fun h i => Inv n h ((leaf n X).get i)) := by
  have H := leafRel (X := X) n
  exact {
    phi_nil := H.phi_nil
    init := H.init
    clean := fun {_ i} _ => H.clean i
    step := fun u x hi => H.forwardStep u x hi
    steps := fun u xs _ hi => H.forwardSteps u xs hi
    fwd_state := fun hi hf => by cases hf; exact hi
    fwd_indep := fun xs hi => rfl }

theorem implements (n : Nat) : Implements (mod n X) (List.drop n) := ⟨_, simRel n⟩

theorem pImplements (n : Nat) : PImplements (mod n X) (List.drop n) :=
  ⟨Inv n, (leafRel n).none, fun {h' s} x hs => by
    obtain ⟨o, s', h1, h2, h3, _⟩ := (leafRel (X := X) n).pstep x hs
    exact ⟨o, s', h1, h2, h3⟩⟩

end CoInf.Skip
