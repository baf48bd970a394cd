import Verif.Model.Transformer
import Verif.Lemmas.Retro
import Verif.Lemmas.Soft
import Verif.Lemmas.Residual
import Verif.Lemmas.Leaves

set_option autoImplicit false

namespace CoInf.Transformer
open Spec
variable {X Y : Type}

namespace Unity

/-- What `RetroactiveUnity` with delay `D` returns for the history `h`: the last `D + 1` frames in the first `D` outputs,
afterwards the last `D` frames with frame `D - 1` of the stream inserted. -/
def held (D : Nat) (h : List X) : List X :=
  if h.length ≤ 2 * D then lastN (D + 1) h
  else
    let j := (h.length - 1) % D
    (lastN D h).take (D - 1 - j) ++ h[D - 1]?.toList ++ (lastN D h).drop (D - 1 - j)

/-- All outputs. -/
def phi (D : Nat) (h : List X) : List (List X) :=
  (List.range (h.length - D)).map fun k => held D (h.take (D + k + 1))

theorem phi_length (D : Nat) (h : List X) : (phi D h).length = h.length - D := by simp [phi]

theorem phi_snoc (D : Nat) (h : List X) (x : X) :
    phi D (h ++ [x]) = phi D h ++ (if D ≤ h.length then [held D (h ++ [x])] else []) := by
  unfold phi
  simp only [List.length_append, List.length_singleton]
  by_cases hd : D ≤ h.length
  · have e : h.length + 1 - D = (h.length - D) + 1 := by omega
    rw [e, List.range_succ, List.map_append, if_pos hd]
    congr 1
    · apply List.map_congr_left
      intro k hk
      rw [List.mem_range] at hk
      rw [List.take_append_of_le_length (by omega)]
    · have : D + (h.length - D) + 1 = (h ++ [x]).length := by simp; omega
      simp only [List.map_cons, List.map_nil, this, List.take_length]
  · have e : h.length + 1 - D = 0 := by omega
    have e' : h.length - D = 0 := by omega
    simp [e, e', hd]

/-- The frames of the ring formed by the first `D` slots, once it is full. -/
def virt (D : Nat) (z : X) (h : List X) : List X := z :: h.take (D - 1) ++ h.drop D

theorem virt_length {D : Nat} (z : X) {h : List X} (hD : 1 ≤ D) (hl : D ≤ h.length) :
    (virt D z h).length = h.length := by
  simp [virt]; omega

/-- State invariant. -/
def Inv (n : Nat) (h : List X) (s : Option (List X × Int)) : Prop :=
  (h = [] ∧ s = none) ∨
  (h ≠ [] ∧ h.length ≤ n ∧ ∃ z, s = some (z :: h ++ List.replicate (n + 1 - h.length) z, (h.length : Int) - (n + 1))) ∨
  (n + 1 ≤ h.length ∧ ∃ z r y, s = some (r ++ [y], ((h.length % (n + 1) : Nat) : Int)) ∧
    Ring (n + 1) (virt (n + 1) z h) r ∧ h[n]? = some y)

theorem rollLeft_snoc (r : List X) (y : X) (k : Nat) (hk : k ≤ r.length) :
    rollLeft (r ++ [y]) k = r.drop k ++ [y] ++ r.take k := by
  unfold rollLeft
  rw [List.drop_append_of_le_length hk, List.take_append_of_le_length hk]

/-- Reading the ring one slot after the write position. -/
theorem ring_split {L : Nat} {v r : List X} (hr : Ring L v r) {j : Nat} (hj : j < L) (hv : v.length % L = (j + 1) % L) :
    r.drop (j + 1) = (lastN L v).take (L - 1 - j) ∧ r.take (j + 1) = (lastN L v).drop (L - 1 - j) := by
  have h1 := hr.rotate
  have hl := hr.len
  by_cases h2 : j + 1 < L
  · rw [List.rotate_eq_drop_append_take_mod, hl, hv, Nat.mod_eq_of_lt h2] at h1
    rw [← h1]
    have e : (r.drop (j + 1)).length = L - 1 - j := by simp [hl]; omega
    exact ⟨by rw [← e, List.take_left], by rw [← e, List.drop_left]⟩
  · have e : j + 1 = L := by omega
    rw [List.rotate_eq_drop_append_take_mod, hl, hv, e, Nat.mod_self] at h1
    simp only [List.drop_zero, List.take_zero, List.append_nil] at h1
    have e2 : L - 1 - j = 0 := by omega
    rw [e2, e, h1]
    constructor
    · rw [← h1, ← hl]; simp
    · rw [← h1, ← hl]; simp

/-- The output computed from the ring. -/
theorem held_eq {D : Nat} (hD : 1 ≤ D) (z y : X) {h : List X} (hl : D + 1 ≤ h.length) (hy : h[D - 1]? = some y) :
    (lastN D (virt D z h)).take (D - 1 - (h.length - 1) % D) ++ [y] ++
      (lastN D (virt D z h)).drop (D - 1 - (h.length - 1) % D) = held D h := by
  unfold held
  by_cases h2 : h.length ≤ 2 * D
  · rw [if_pos h2]
    obtain ⟨j, hj⟩ : ∃ j, h.length = D + j + 1 := ⟨h.length - D - 1, by omega⟩
    have hjD : j < D := by omega
    have e1 : (h.length - 1) % D = j := by
      rw [hj, show D + j + 1 - 1 = D + j by omega, Nat.add_mod_left, Nat.mod_eq_of_lt hjD]
    have e2 : lastN D (virt D z h) = (h.take (D - 1)).drop j ++ h.drop D := by
      unfold lastN
      rw [virt_length z hD (by omega), hj, show D + j + 1 - D = j + 1 by omega]
      unfold virt
      rw [List.cons_append, List.drop_succ_cons, List.drop_append_of_le_length]
      simp; omega
    have e3 : ((h.take (D - 1)).drop j).length = D - 1 - j := by simp; omega
    have hlt : D - 1 < h.length := by omega
    have hy' : h[D - 1] = y := by rw [List.getElem?_eq_getElem hlt] at hy; exact Option.some.inj hy
    rw [e1, e2, ← e3, List.take_left, List.drop_left]
    have e4 : y :: h.drop D = h.drop (D - 1) := by
      rw [List.drop_eq_getElem_cons hlt, hy', Nat.sub_add_cancel hD]
    have e5 : lastN (D + 1) h = h.drop j := by
      unfold lastN
      congr 1; omega
    rw [e5, List.append_assoc, List.singleton_append, e4]
    have e6 : h = h.take (D - 1) ++ h.drop (D - 1) := (List.take_append_drop _ _).symm
    conv_rhs => rw [e6]
    rw [List.drop_append_of_le_length]
    simp; omega
  · rw [if_neg h2, hy]
    have e : lastN D (virt D z h) = lastN D h := by
      have e1 : h = h.take D ++ h.drop D := (List.take_append_drop _ _).symm
      conv_rhs => rw [e1]
      unfold virt
      rw [lastN_append_right _ _ (by simp; omega), lastN_append_right _ _ (by simp; omega)]
    rw [e]
    rfl

theorem virt_snoc {D : Nat} (z x : X) {h : List X} (hl : D ≤ h.length) (hD : 1 ≤ D) :
    virt D z (h ++ [x]) = virt D z h ++ [x] := by
  unfold virt
  rw [List.take_append_of_le_length (by omega), List.drop_append_of_le_length hl]
  simp

theorem step_fill (fill : X → X) {n : Nat} {h : List X} (z x : X) (hl : h.length ≤ n) :
    ∃ s', pstep fill n x (some (z :: h ++ List.replicate (n + 1 - h.length) z, (h.length : Int) - (n + 1))) =
        .ok (none, some s') ∧ Inv n (h ++ [x]) (some s') := by
  obtain ⟨k, hk⟩ : ∃ k, n = h.length + k := ⟨n - h.length, by omega⟩
  have e0 : n + 1 - h.length = k + 1 := by omega
  have hidx : ((h.length : Int) - (n + 1)) % ((n : Int) + 2) = ((h.length + 1 : Nat) : Int) := by
    have : (h.length : Int) - (n + 1) = ((h.length + 1 : Nat) : Int) + ((n : Int) + 2) * (-1) := by push_cast; ring
    rw [this, Int.add_mul_emod_self_left, Int.emod_eq_of_lt (by omega) (by omega)]
  have hset : pySet (z :: h ++ List.replicate (k + 1) z) (((h.length + 1 : Nat) : Int)) x =
      .ok (z :: (h ++ [x]) ++ List.replicate k z) := by
    rw [pySet_ofNat _ (by simp)]
    simp [List.replicate_succ]
  have hni : ¬ ((h.length : Int) - (n + 1) + 1 > 0) := by omega
  have hneg : ¬ ((h.length : Int) - (n + 1) ≥ 0) := by omega
  refine ⟨(z :: (h ++ [x]) ++ List.replicate k z, (h.length : Int) - (n + 1) + 1), ?_, ?_⟩
  · simp only [pstep, e0, hidx, hset, if_neg hni, if_neg hneg]
  · by_cases hk0 : k = 0
    · subst hk0
      refine .inr (.inr ⟨by simp; omega, z, z :: h, x, ?_, ?_, ?_⟩)
      · have h1 : (h.length + 1) % (n + 1) = 0 := by rw [hk]; simp
        have h2 : (h.length : Int) - (n + 1) + 1 = 0 := by omega
        simp only [List.length_append, List.length_singleton, h1, h2]
        simp
      · have e : virt (n + 1) z (h ++ [x]) = z :: h := by
          simp [virt, hk]
        rw [e]
        refine ⟨by simp [hk], by simp [hk], fun m h1 h2 => ?_⟩
        rw [Nat.mod_eq_of_lt]
        simpa [hk] using h1
      · have : n = h.length := by omega
        rw [this]; simp
    · refine .inr (.inl ⟨by simp, by simp; omega, z, ?_⟩)
      have e1 : n + 1 - (h ++ [x]).length = k := by simp; omega
      have e2 : (((h ++ [x]).length : Nat) : Int) - (n + 1) = (h.length : Int) - (n + 1) + 1 := by
        simp; ring
      rw [e1, e2]

theorem step_full (fill : X → X) {n : Nat} {h r : List X} (z x y : X) (hl : n + 1 ≤ h.length)
    (hr : Ring (n + 1) (virt (n + 1) z h) r) (hy : h[n]? = some y) :
    ∃ s', pstep fill n x (some (r ++ [y], ((h.length % (n + 1) : Nat) : Int))) =
        .ok (some (held (n + 1) (h ++ [x])), some s') ∧ Inv n (h ++ [x]) (some s') := by
  have hj : h.length % (n + 1) < n + 1 := Nat.mod_lt _ (by omega)
  generalize hjj : h.length % (n + 1) = j at hj
  have hrl := hr.len
  have hidx : ((j : Nat) : Int) % ((n : Int) + 2) = (j : Int) := Int.emod_eq_of_lt (by omega) (by omega)
  have hset : pySet (r ++ [y]) ((j : Nat) : Int) x = .ok (r.set j x ++ [y]) := by
    rw [pySet_ofNat _ (by simp; omega), List.set_append_left _ _ (by omega)]
  have hv : virt (n + 1) z (h ++ [x]) = virt (n + 1) z h ++ [x] := virt_snoc z x hl (by omega)
  have hring : Ring (n + 1) (virt (n + 1) z (h ++ [x])) (r.set j x) := by
    have := hr.write x
    rw [virt_length z (by omega) hl, hjj] at this
    rw [hv]; exact this
  have hy' : (h ++ [x])[n]? = some y := by rw [List.getElem?_append_left (by omega)]; exact hy
  have hlen : (h ++ [x]).length = h.length + 1 := by simp
  have hnext : ((j : Int) + 1) % ((n : Int) + 1) = (((h ++ [x]).length % (n + 1) : Nat) : Int) := by
    rw [hlen, Int.natCast_emod, ← hjj, Int.natCast_emod]
    push_cast
    rw [Int.emod_add_emod]
  have hout : rollLeft (r.set j x ++ [y]) (j + 1) = held (n + 1) (h ++ [x]) := by
    rw [rollLeft_snoc _ _ _ (by simp; omega)]
    obtain ⟨s1, s2⟩ := ring_split hring hj (by
      rw [virt_length z (by omega) (by simp; omega), hlen, ← hjj, Nat.mod_add_mod])
    rw [s1, s2]
    have := held_eq (D := n + 1) (by omega) z y (h := h ++ [x]) (by simp; omega) (by simpa using hy')
    have e : (h ++ [x]).length - 1 = h.length := by simp
    rw [e, hjj] at this
    exact this
  refine ⟨(r.set j x ++ [y], (((h ++ [x]).length % (n + 1) : Nat) : Int)), ?_,
    .inr (.inr ⟨by simp; omega, z, r.set j x, y, rfl, hring, hy'⟩)⟩
  have hpos : ((j : Nat) : Int) + 1 > 0 := by omega
  have hnn : ((j : Nat) : Int) ≥ 0 := by omega
  have ht : (((j : Nat) : Int) + 1).toNat = j + 1 := by omega
  simp only [pstep, hidx, hset, if_pos hpos, if_pos hnn, hnext, ht, hout]

theorem leafRel (fill : X → X) (n : Nat) : LeafRel (leaf fill n) (phi (n + 1)) (Inv n) where
  phi_nil := by simp [phi]
  none := .inl ⟨rfl, rfl⟩
  init := .inl ⟨rfl, by simp⟩
  clean := fun i => .inl ⟨rfl, by simp⟩
  pstep := by
    intro h s x hs
    rcases hs with ⟨rfl, rfl⟩ | ⟨hne, hl, z, rfl⟩ | ⟨hl, z, r, y, rfl, hr, hy⟩
    · obtain ⟨s', h1, h2⟩ := step_fill fill (n := n) (h := []) (fill x) x (by simp)
      refine ⟨none, some s', ?_, by rw [phi_snoc]; simp, h2, fun e => by cases e⟩
      rw [← h1]
      simp [leaf, pstep, initState, List.replicate_succ]
    · obtain ⟨s', h1, h2⟩ := step_fill fill (n := n) (h := h) z x hl
      refine ⟨none, some s', h1, ?_, h2, fun e => by cases e⟩
      rw [phi_snoc, if_neg (by omega)]; rfl
    · obtain ⟨s', h1, h2⟩ := step_full fill z x y hl hr hy
      refine ⟨some _, some s', h1, ?_, h2, fun e => by cases e⟩
      rw [phi_snoc, if_pos hl]; rfl
  getset := by
    intro h st i hs
    rcases hs with ⟨_, h0⟩ | ⟨hne, hl, z, h0⟩ | ⟨hl, z, r, y, h0, hr, hy⟩
    · cases h0
    · cases h0; simp [leaf]
    · cases h0; simp [leaf]

theorem simRel (fill : X → X) (n : Nat) :
    SimRel (mod fill n) (phi (n + 1)) (fun h i => Inv n h ((leaf fill n).get i)) :=
  have H := leafRel fill n
  { phi_nil := H.phi_nil
    init := H.init
    clean := fun {_ i} _ => H.clean i
    step := fun u x hi => H.forwardStep u x hi
    steps := fun u xs _ hi => H.forwardSteps u xs hi
    fwd_state := fun hi hf => by cases hf; exact hi
    fwd_indep := fun xs hi => rfl }

end Unity
end CoInf.Transformer
