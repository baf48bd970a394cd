/-
The N-dimensional convolution is an instance of the temporal one.
-/
import Verif.Model.ConvNd
import Verif.Spec.ConvNd
import Verif.Lemmas.Conv
import Mathlib.Algebra.BigOperators.Fin
import Mathlib.Algebra.BigOperators.Ring.Finset

set_option autoImplicit false

namespace CoInf.ConvNd
open Spec
variable {R β : Type} [NonUnitalNonAssocSemiring R] (c : Cfg R)

/-- The map applied to a frame by the `k`-th temporal slice of the kernel. -/
def slice (k : Fin c.K) (x : Frame β c) : OutFrame β c := fun b o p =>
  ∑ ci : Fin c.cinG, ∑ ks : (j : Fin c.n) → Fin (c.kern j), c.weight o ci k ks *
    (if hc : chan c o ci < c.groups * c.cinG then
      padFrame c x b ⟨chan c o ci, hc⟩ fun j => p j * c.str j + ks j * c.dil j
    else 0)

/-- The temporal convolution with these maps. -/
def abs : Conv.Cfg (Frame β c) (OutFrame β c) where
  K := c.K
  S := c.S
  P := c.P
  fill := c.fill
  padMode := c.padMode
  w := fun k x => if h : k < c.K then slice c ⟨k, h⟩ x else 0
  bias := c.bias.map fun v _ o _ => v o

/-- The kernel fits the (padded) frames. -/
def Fits : Prop := ∀ j, c.dil j * (c.kern j - 1) + 1 ≤ c.h j + 2 * c.pad j

theorem padFrame_zero : padFrame c (0 : Frame β c) = fun _ _ _ => 0 := by
  funext b ch q
  unfold padFrame
  cases c.padMode <;> simp

theorem slice_zero (k : Fin c.K) : slice c k (0 : Frame β c) = 0 := by
  funext b o p
  simp [slice, padFrame_zero]

theorem abs_zero (k : Nat) : (abs c).w k (0 : Frame β c) = 0 := by
  show (if h : k < c.K then slice c ⟨k, h⟩ 0 else 0) = 0
  split
  · exact slice_zero c _
  · rfl

variable {c}

theorem sum_range_fin {M : Type} [AddCommMonoid M] (K : Nat) (f : Nat → M) :
    ((List.range K).map f).sum = ∑ k : Fin K, f k := by
  rw [Fin.sum_univ_def, ← List.map_coe_finRange_eq_range, List.map_map]
  rfl

/-- One output of `F.convNd`. -/
theorem convFunc_ok (hf : Fits c) (st pt : Nat) (bias : Option (Fin (c.groups * c.coutG) → R))
    (zs : List (Frame β c)) (hl : c.K ≤ zs.length + 2 * pt) :
    convFunc c st pt bias (zs.map (padFrame c)) =
      .ok ((List.range ((zs.length + 2 * pt - c.K) / st + 1)).map fun t =>
        (∑ k : Fin c.K, if pt ≤ t * st + k then
          match zs[t * st + k - pt]? with
          | some z => slice c k z
          | none => 0
          else 0) + fun _ o _ => match bias with
            | some v => v o
            | none => 0) := by
  unfold convFunc
  rw [if_neg]
  · congr 1
    rw [List.length_map]
    apply List.map_congr_left
    intro t _
    funext b o p
    rw [Pi.add_apply, Pi.add_apply, Pi.add_apply]
    congr 1
    rw [Finset.sum_apply, Finset.sum_apply, Finset.sum_apply, Finset.sum_comm]
    apply Finset.sum_congr rfl
    intro k _
    by_cases hp : pt ≤ t * st + k
    · rw [if_pos hp]
      simp only [if_pos hp]
      rw [List.getElem?_map]
      cases zs[t * st + k - pt]? with
      | none => simp
      | some z => rfl
    · rw [if_neg hp]
      simp [if_neg hp]
  · rintro (h | ⟨j, h⟩)
    · rw [List.length_map] at h; omega
    · have := hf j; omega

theorem convFunc_short (st pt : Nat) (bias : Option (Fin (c.groups * c.coutG) → R))
    (zs : List (Padded β c)) (hl : zs.length + 2 * pt < c.K) : convFunc c st pt bias zs = .error .runtime :=
  if_pos (Or.inl hl)

/-- Without temporal padding. -/
theorem convFunc_torch (hf : Fits c) (zs : List (Frame β c)) :
    convFunc c c.S 0 c.bias (zs.map (padFrame c)) = Conv.torchConv (abs c) zs := by
  unfold Conv.torchConv
  by_cases hl : zs.length < c.K
  · rw [if_pos (show zs.length < (abs (β := β) c).K from hl), convFunc_short _ _ _ _ (by rw [List.length_map]; omega)]
  · rw [if_neg (show ¬ zs.length < (abs (β := β) c).K from hl), convFunc_ok hf _ _ _ _ (by omega)]
    congr 1
    apply List.map_congr_left
    intro t _
    rw [Conv.addBias_eq]
    congr 1
    · show _ = ((List.range c.K).map _).sum
      rw [sum_range_fin]
      apply Finset.sum_congr rfl
      intro k _
      rw [if_pos (Nat.zero_le _)]
      rw [Nat.sub_zero, show (abs (β := β) c).S = c.S from rfl]
      cases zs[t * c.S + (k : Nat)]? with
      | none => rfl
      | some z =>
        show slice c k z = (if h : (k : Nat) < c.K then slice c ⟨k, h⟩ z else 0)
        rw [dif_pos k.2]
    · rw [show (abs (β := β) c).bias = c.bias.map (fun v _ o _ => v o) from rfl]
      cases c.bias <;> rfl

/-- Temporal zero padding done by torch is padding with zero frames. -/
theorem convFunc_pad (hf : Fits c) (bias : Option (Fin (c.groups * c.coutG) → R)) (st pt : Nat)
    (zs : List (Frame β c)) :
    convFunc c st pt bias (zs.map (padFrame c)) =
      convFunc c st 0 bias ((List.replicate pt 0 ++ zs ++ List.replicate pt 0).map (padFrame c)) := by
  by_cases hl : zs.length + 2 * pt < c.K
  · rw [convFunc_short _ _ _ _ (by rw [List.length_map]; omega),
      convFunc_short _ _ _ _ (by simp; omega)]
  · rw [convFunc_ok hf _ _ _ _ (by omega), convFunc_ok hf _ _ _ _ (by simp; omega)]
    congr 1
    have e : (List.replicate pt (0 : Frame β c) ++ zs ++ List.replicate pt 0).length + 2 * 0 = zs.length + 2 * pt := by
      simp; omega
    rw [e]
    apply List.map_congr_left
    intro t _
    congr 1
    apply Finset.sum_congr rfl
    intro k _
    rw [if_pos (Nat.zero_le _), Nat.sub_zero]
    generalize t * st + (k : Nat) = q
    by_cases h1 : pt ≤ q
    · rw [if_pos h1]
      by_cases h2 : q - pt < zs.length
      · rw [List.append_assoc, List.getElem?_append_right (by simpa using h1), List.length_replicate,
          List.getElem?_append_left h2]
      · rw [List.getElem?_eq_none (by omega : zs.length ≤ q - pt),
          List.getElem?_append_right (by simp; omega), List.getElem?_replicate]
        split
        · rename_i h; simp at h
        · split
          · rename_i h
            split at h
            · cases h; exact (slice_zero c k).symm
            · simp at h
          · rfl
    · rw [if_neg h1, List.append_assoc, List.getElem?_append_left (by simpa using h1), List.getElem?_replicate,
        if_pos (by omega)]
      exact (slice_zero c k).symm

/-- `forward` is the temporal one. -/
theorem forward_eq (hf : Fits c) (xs : List (Frame β c)) : forward c xs = Conv.forward (abs c) xs := by
  unfold forward Conv.forward
  cases xs with
  | nil => cases c.padMode <;> rfl
  | cons a t =>
    have hl : (a :: t).getLast? = some ((a :: t).getLast (by simp)) := List.getLast?_eq_some_getLast _
    rw [hl]
    show _ = Conv.torchConv (abs c) (List.replicate c.P (c.padMode.make 0 a) ++ (a :: t) ++
      List.replicate c.P (c.padMode.make 0 ((a :: t).getLast (by simp))))
    cases hm : c.padMode with
    | zeros =>
      simp only [List.head?_cons]
      rw [convFunc_pad hf, convFunc_torch hf]
      rfl
    | replicate =>
      simp only [List.head?_cons]
      rw [convFunc_torch hf]
      rfl

/-- The convolution of one frame padded with `K - 1` zero frames in time. -/
theorem taps_eq (hf : Fits c) (hK : 1 ≤ c.K) (x : Frame β c) :
    convFunc c 1 (c.K - 1) none [padFrame c x] = .ok (Conv.taps (abs c) x) := by
  have := convFunc_ok hf 1 (c.K - 1) none [x] (by simp; omega)
  rw [List.map_cons, List.map_nil] at this
  rw [this]
  congr 1
  unfold Conv.taps
  have e : ([x].length + 2 * (c.K - 1) - c.K) / 1 + 1 = c.K := by simp; omega
  rw [e]
  apply List.map_congr_left
  intro t ht
  have ht : t < c.K := by simpa using ht
  show (∑ k : Fin c.K, _) + (0 : OutFrame β c) =
    if h : c.K - 1 - t < c.K then slice c ⟨c.K - 1 - t, h⟩ x else 0
  rw [add_zero, dif_pos (by omega), Finset.sum_eq_single (⟨c.K - 1 - t, by omega⟩ : Fin c.K)]
  · rw [if_pos (by simp only; omega)]
    have : t * 1 + (c.K - 1 - t) - (c.K - 1) = 0 := by omega
    simp only [this]
    rfl
  · intro k _ hk
    have hk : (k : Nat) ≠ c.K - 1 - t := fun h => hk (Fin.ext h)
    by_cases hp : c.K - 1 ≤ t * 1 + k
    · rw [if_pos hp, List.getElem?_eq_none (by simp; omega)]
    · rw [if_neg hp]
  · intro h; exact absurd (Finset.mem_univ _) h

theorem pstep_eq (hf : Fits c) (hK : 1 ≤ c.K) : pstep (β := β) c = Conv.pstep (abs c) := by
  funext x s
  unfold pstep Conv.pstep
  have h1 : Conv.stateless (temporal (β := β) c) = Conv.stateless (abs (β := β) c) := rfl
  rw [h1]
  by_cases hs : Conv.stateless (abs (β := β) c) = true
  · rw [if_pos hs, if_pos hs, forward_eq hf]
    cases Conv.forward (abs c) [x] with
    | error e => rfl
    | ok ys =>
      show _ = (pyGet ys 0 >>= _)
      simp only
      cases pyGet ys 0 <;> rfl
  · rw [if_neg hs, if_neg hs, taps_eq hf hK]
    simp only
    cases pyGet (Conv.taps (abs c) x) 0 with
    | error e => rfl
    | ok xOut =>
      have h2 : ∀ st, Conv.output (temporal (β := β) c) st xOut = Conv.output (abs c) st xOut := fun _ => rfl
      have h3 : ∀ st r, Conv.writeBack (temporal (β := β) c) st r = Conv.writeBack (abs c) st r := fun _ _ => rfl
      have h4 : ∀ r, Conv.initState (temporal (β := β) c) r = Conv.initState (abs c) r := fun _ => rfl
      simp only [h2, h3, h4]
      simp only [bind, Except.bind, pure, Except.pure]
      rcases s with _ | st
      · simp only
        generalize Conv.initState (abs c) ((Conv.taps (abs c) x).drop 1) = st
        cases Conv.output (abs c) st xOut with
        | error e => rfl
        | ok out => cases Conv.writeBack (abs c) st ((Conv.taps (abs c) x).drop 1) <;> rfl
      · simp only
        cases Conv.output (abs c) st xOut with
        | error e => rfl
        | ok out => cases Conv.writeBack (abs c) st ((Conv.taps (abs c) x).drop 1) <;> rfl

/-- The N-dimensional module is the temporal one over the slices of its kernel. -/
theorem mod_eq (hf : Fits c) (hK : 1 ≤ c.K) : mod (β := β) c = Conv.mod (abs c) := by
  let L (ps : Frame β c → Option (Conv.St (OutFrame β c)) →
      Except Err (Option (OutFrame β c) × Option (Conv.St (OutFrame β c)))) : Leaf (Frame β c) (OutFrame β c) :=
    { leaf (β := β) c with pstep := ps }
  let B (ps : Frame β c → Option (Conv.St (OutFrame β c)) →
      Except Err (Option (OutFrame β c) × Option (Conv.St (OutFrame β c))))
      (fw : List (Frame β c) → Except Err (List (OutFrame β c))) : CoMod (.stream (Frame β c)) (.stream (OutFrame β c)) :=
    { mod (β := β) c with
      fwd := fun i xs => (fw xs).map fun ys => (ys, i)
      step := (L ps).forwardStep
      steps := (L ps).forwardSteps
      pstep := ps }
  have h1 : mod (β := β) c = B (pstep c) (forward c) := rfl
  have h2 : Conv.mod (abs (β := β) c) = B (Conv.pstep (abs c)) (Conv.forward (abs c)) := rfl
  rw [h1, h2, pstep_eq hf hK]
  congr 1
  exact funext fun xs => forward_eq hf xs

end CoInf.ConvNd
