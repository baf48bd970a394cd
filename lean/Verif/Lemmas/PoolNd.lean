/-
Pooling with all axes: the windows, and the reference `forward`.
-/
import Verif.Model.PoolNd
import Verif.Spec.PoolNd
import Verif.Lemmas.Extend
import Verif.Lemmas.Pool
import Verif.Lemmas.Reach
import Mathlib.Algebra.BigOperators.Fin
import Mathlib.Algebra.BigOperators.Field
import Mathlib.Algebra.Field.Basic

set_option autoImplicit false

namespace CoInf.PoolNd
open Spec

section
variable {X Y : Type} (a : Pool.Cfg X Y) (fwd : List X → Except Err (List Y))

theorem leafRel (hc : Pool.Ok a) : LeafRel (leaf true a) (Pool.phi a) (Pool.Inv a) := Pool.leafRel a hc

theorem simRel (hc : Pool.Ok a) :
    SimRel (mod true a fwd) (Pool.phi a) (fun h i => Pool.Inv a h ((leaf true a).get i)) := by
  have H := leafRel a hc
  exact {
    phi_nil := H.phi_nil
    init := H.init
    clean := fun {_ i} _ => H.clean i
    step := fun u x hi => H.forwardStep u x hi
    steps := fun u xs _ hi => H.forwardSteps u xs hi
    fwd_state := fun {h i xs ys i'} hi hf => by
      simp only [Except.map] at hf
      split at hf
      · cases hf
      · cases hf; exact hi
    fwd_indep := fun {h i} xs _ => by
      show Except.map _ (Except.map _ (fwd xs)) = Except.map _ (Except.map _ (fwd xs))
      cases fwd xs <;> rfl }

/-- `forward_steps(xs, pad_end=True)` on a clean module. -/
theorem steps_pad {ok : Bool} (ho : ok = true) (hc : Pool.Ok a) {i : (mod ok a fwd).Inst}
    (hi : Reach (mod ok a fwd) [] i) (u : Bool) {xs : List X} (hx : xs ≠ []) :
    ∃ i', (mod ok a fwd).steps i true u xs =
      .ok (optList (clipOut a.K a.S a.P a.fillIn (Pool.win a) xs), i') := by
  subst ho
  have hR := (simRel a fwd hc).of_reach hi
  obtain ⟨zs, i', h1, h2, _⟩ := (leafRel a hc).forwardSteps_pad u xs hx hR (Or.inr (Or.inl (Pool.inv_nil a hR)))
  refine ⟨i', ?_⟩
  rw [Pool.phi_nil a hc, List.nil_append, List.nil_append] at h2
  rw [clipOut_eq _ _ _ _ _ hx]
  subst h2
  exact h1

end

theorem padded_extend {R β : Type} (c : Shape) (z : R) (x : Frame R β c) (b : β) (q : Fin c.n → Nat) :
    padded c z x b q = extendWith z (x b) fun j => (q j : Int) - (c.sp j).p := by
  have e : ∀ j, ((q j : Int) - (c.sp j).p).toNat = q j - (c.sp j).p := fun j => by omega
  unfold padded extendWith
  by_cases hq : ∀ j, (c.sp j).p ≤ q j ∧ q j - (c.sp j).p < c.h j
  · rw [dif_pos hq, dif_pos (fun j => ⟨by have := (hq j).1; show (0 : Int) ≤ (q j : Int) - (c.sp j).p; omega,
      (e j).symm ▸ (hq j).2⟩)]
    congr 1
    funext j
    exact Fin.ext (e j).symm
  · rw [dif_neg hq, dif_neg (fun h => hq fun j => ⟨by
      have : (0 : Int) ≤ (q j : Int) - (c.sp j).p := (h j).1
      omega, (e j) ▸ (h j).2⟩)]

theorem windowCount_eq {K S L : Nat} (h : K ≤ L) : windowCount K S L = (L - K) / S + 1 := by
  unfold windowCount; rw [if_neg (by omega)]

/-- Without `ceil_mode`, or with windows that fill the axis, the number of outputs is the number of windows. -/
theorem out_eq (a : Axis) (ceil : Bool) (L : Nat) (hk : 1 ≤ a.k) (hs : 1 ≤ a.s) (hd : a.d = 1) (hp : a.p + 1 ≤ a.k)
    (hL : a.k ≤ L + 2 * a.p) (hc : ceil = false ∨ (L + 2 * a.p - a.k) % a.s = 0) :
    a.out ceil L = windowCount a.k a.s (L + 2 * a.p) := by
  have e : ((L : Int) + 2 * a.p - a.d * (a.k - 1) - 1) = ((L + 2 * a.p - a.k : Nat) : Int) := by
    rw [hd]; push_cast [Nat.cast_sub hL]; omega
  have e' : (((L + 2 * a.p - a.k : Nat) : Int) + (if ceil then (a.s : Int) - 1 else 0)) / a.s =
      (((L + 2 * a.p - a.k) / a.s : Nat) : Int) := by
    cases ceil with
    | false => simp
    | true =>
      obtain ⟨q, hq⟩ := Nat.dvd_of_mod_eq_zero (hc.resolve_left (by simp))
      rw [hq, Nat.mul_div_cancel_left _ (by omega)]
      simp only [if_true]
      have h1 : (((a.s * q : Nat) : Int) + ((a.s : Int) - 1)) = ((a.s : Int) - 1) + q * a.s := by push_cast; ring
      rw [h1, Int.add_mul_ediv_right _ _ (by omega), Int.ediv_eq_zero_of_lt (by omega) (by omega)]
      omega
  unfold Axis.out
  simp only [e, e']
  rw [windowCount_eq hL]
  rw [if_neg]
  · push_cast; rfl
  · rintro ⟨-, h⟩
    have h2 : (L + 2 * a.p - a.k) / a.s * a.s ≤ L + 2 * a.p - a.k := Nat.div_mul_le_self _ _
    have h3 : (((L + 2 * a.p - a.k) / a.s * a.s : Nat) : Int) ≤ ((L + 2 * a.p - a.k : Nat) : Int) := by
      exact_mod_cast h2
    rw [Int.natCast_mul] at h3
    rw [add_sub_cancel_right] at h
    omega

/-- A window that fits has its full size. -/
theorem full_eq (a : Axis) {L m : Nat} (h : m < windowCount a.k a.s (L + 2 * a.p)) : a.full L m = a.k := by
  have := windowCount_bound h
  unfold Axis.full
  have h2 : ((m * a.s : Nat) : Int) + a.k ≤ L + 2 * a.p := by exact_mod_cast this
  push_cast at h2
  omega

theorem inside_eq (a : Axis) {L m : Nat} (h : m < windowCount a.k a.s (L + 2 * a.p)) (hp : a.p = 0) :
    a.inside L m = a.k := by
  have := windowCount_bound h
  unfold Axis.inside
  have h2 : ((m * a.s : Nat) : Int) + a.k ≤ L + 2 * a.p := by exact_mod_cast this
  have h3 : (0 : Int) ≤ ((m * a.s : Nat) : Int) := by omega
  push_cast at h2 h3
  omega

/-! ### Average -/

section
variable {R β : Type} [Field R] (c : Avg)

theorem Avg.spSum_zero (b : β) (p : (j : Fin c.shape.n) → Fin (c.shape.hout j)) :
    c.spSum (0 : Frame R β c.shape) b p = 0 := by
  unfold Avg.spSum padded
  apply Finset.sum_eq_zero
  intro κ _
  split <;> rfl

theorem Avg.fill_comm (x : Frame R β c.shape) : c.spatial (c.fill.make 0 x) = c.fill.make 0 (c.spatial x) := by
  cases c.fill with
  | zeros =>
    funext b p
    show c.spSum 0 b p / _ = 0
    rw [c.spSum_zero, zero_div]
  | replicate => rfl

theorem Avg.orderFree : OrderFree (c.cfg (R := R) (β := β)).pool := by
  intro l l' h
  funext b p
  show (l.map _).sum / _ = (l'.map _).sum / _
  rw [(h.map _).sum_eq, h.length_eq]

theorem Avg.ok (hK : 1 ≤ c.shape.time.k) (hS : 1 ≤ c.shape.time.s) (hP : c.shape.time.p + 1 ≤ c.shape.time.k)
    (hd : c.shape.time.d = 1) : Pool.Ok (c.cfg (R := R) (β := β)) :=
  ⟨hK, hS, hP, hd, c.fill_comm, c.orderFree⟩

/-- A window: mean of the pooled frames. -/
theorem Avg.win_eq (z : Fin c.shape.time.k → Frame R β c.shape) (b : β)
    (p : (j : Fin c.shape.n) → Fin (c.shape.hout j)) :
    Pool.win (c.cfg (R := R) (β := β)) (List.ofFn z) b p =
      (∑ k, c.spSum (z k) b p) / ((c.shape.time.k : R) * c.spDiv p) := by
  show ((((List.ofFn z).map c.spatial).map fun y => y b p).sum / ((((List.ofFn z).map c.spatial).length : Nat) : R)) = _
  rw [List.map_map, List.map_ofFn, List.sum_ofFn, List.length_map, List.length_ofFn]
  show (∑ k, c.spSum (z k) b p / c.spDiv p) / _ = _
  rw [← Finset.sum_div, div_div, mul_comm]

theorem Avg.spSum_extend (x : Frame R β c.shape) (b : β) (p : (j : Fin c.shape.n) → Fin (c.shape.hout j)) :
    c.spSum x b p = ∑ κ : (j : Fin c.shape.n) → Fin (c.shape.sp j).k,
      extendWith 0 (x b) fun j => (p j : Int) * (c.shape.sp j).s + κ j - (c.shape.sp j).p := by
  unfold Avg.spSum
  simp only [padded_extend]
  push_cast
  rfl

/-- The reference reads the clip continued by zeros. -/
theorem Avg.ref_frame (xs : List (Frame R β c.shape)) (m k s P : Nat) (b : β)
    (p : (j : Fin c.shape.n) → Fin (c.shape.hout j)) :
    (if P ≤ m * s + k then
        match xs[m * s + k - P]? with
        | some x => c.spSum x b p
        | none => 0
      else 0) = c.spSum (extend1 .zeros 0 xs ((m : Int) * s + k - P)) b p := by
  unfold extend1
  by_cases h : P ≤ m * s + k
  · have h' : (0 : Int) ≤ (m : Int) * s + k - P := by
      have : ((P : Nat) : Int) ≤ ((m * s + k : Nat) : Int) := by exact_mod_cast h
      push_cast at this; omega
    have e : ((m : Int) * s + k - P).toNat = m * s + k - P := by
      have : ((m : Int) * s + k - P) = ((m * s + k - P : Nat) : Int) := by push_cast [Nat.cast_sub h]; rfl
      rw [this]; rfl
    rw [if_pos h]
    simp only [if_pos h', e, List.getD_eq_getElem?_getD]
    cases xs[m * s + k - P]? with
    | some x => rfl
    | none => exact (c.spSum_zero b p).symm
  · have h' : ¬ (0 : Int) ≤ (m : Int) * s + k - P := by
      intro h2
      apply h
      have : ((P : Nat) : Int) ≤ ((m * s + k : Nat) : Int) := by push_cast; omega
      exact_mod_cast this
    rw [if_neg h]
    simp only [if_neg h']
    exact (c.spSum_zero b p).symm

/-- The reference on the windows of the clip. -/
theorem Avg.forward_eq {xs : List (Frame R β c.shape)} (hx : xs ≠ []) (hsp : c.shape.okSpace = true)
    (hk : 1 ≤ c.shape.time.k) (hs : 1 ≤ c.shape.time.s) (hp : 2 * c.shape.time.p ≤ c.shape.time.k)
    (hp1 : c.shape.time.p + 1 ≤ c.shape.time.k)
    (hL : c.shape.time.k ≤ xs.length + 2 * c.shape.time.p)
    (hc : c.shape.ceil = false ∨ (xs.length + 2 * c.shape.time.p - c.shape.time.k) % c.shape.time.s = 0) :
    c.forward xs = .ok ((List.range (windowCount c.shape.time.k c.shape.time.s (xs.length + 2 * c.shape.time.p))).map
      fun (m : Nat) b p => (∑ k : Fin c.shape.time.k,
        c.spSum (extend1 .zeros 0 xs ((m : Int) * c.shape.time.s + k - c.shape.time.p)) b p) /
          c.refDiv xs.length m p) := by
  have ho := out_eq c.refTime c.shape.ceil xs.length hk hs rfl hp1 hL hc
  unfold Avg.forward
  have hw : 1 ≤ windowCount c.shape.time.k c.shape.time.s (xs.length + 2 * c.shape.time.p) := by
    rw [windowCount_eq hL]; exact Nat.succ_le_succ (Nat.zero_le _)
  rw [if_neg, ho]
  · congr 1
    show List.map _ (List.range (windowCount c.shape.time.k c.shape.time.s (xs.length + 2 * c.shape.time.p))) = _
    apply List.map_congr_left
    intro m _
    funext b p
    congr 1
    apply Finset.sum_congr rfl
    intro k _
    exact c.ref_frame xs m k _ _ b p
  · rintro (h | h | h)
    · exact hx h
    · refine h ⟨hk, hs, hp, ?_⟩
      rw [ho]
      exact_mod_cast hw
    · rw [hsp] at h; cases h

end

/-! ### Max -/

section
variable {R β : Type} [Zero R] [LinearOrder R] [OrderBot R] (c : Max)

theorem foldr_ofFn {n : Nat} (f : Fin n → R) : (List.ofFn f).foldr max ⊥ = Finset.univ.sup f := by
  induction n with
  | zero => rfl
  | succ n ih =>
    rw [List.ofFn_succ, List.foldr_cons, ih]
    apply le_antisymm
    · apply max_le
      · exact Finset.le_sup (f := f) (Finset.mem_univ 0)
      · exact Finset.sup_le fun i _ => Finset.le_sup (f := f) (Finset.mem_univ i.succ)
    · apply Finset.sup_le
      intro i _
      refine Fin.cases ?_ (fun j => ?_) i
      · exact le_max_left _ _
      · exact le_max_of_le_right (Finset.le_sup (f := fun i : Fin n => f i.succ) (Finset.mem_univ j))

theorem Max.orderFree : OrderFree (c.cfg (R := R) (β := β)).pool := by
  intro l l' h
  funext b p
  exact (h.map fun y => y b p).foldr_eq' (fun x _ y _ z => max_left_comm (α := R) y x z) _

/-- Every spatial window contains an entry of the frame.  (Without it a window of torch's max pooling consists of
padding only, which is possible with dilation.) -/
def Max.Meets : Prop := ∀ p : (j : Fin c.shape.n) → Fin (c.shape.hout j), ∃ κ : (j : Fin c.shape.n) → Fin (c.shape.sp j).k,
  ∀ j, (c.shape.sp j).p ≤ p j * (c.shape.sp j).s + κ j * (c.shape.sp j).d ∧
    p j * (c.shape.sp j).s + κ j * (c.shape.sp j).d - (c.shape.sp j).p < c.shape.h j

theorem Max.spatial_bot : c.spatial (⊥ : Frame R β c.shape) = ⊥ := by
  funext b p
  unfold Max.spatial
  refine (Finset.sup_congr rfl fun κ _ => ?_).trans (Finset.sup_bot _)
  unfold padded
  split <;> rfl

theorem Max.spatial_zero (h : c.Meets) : c.spatial (0 : Frame R β c.shape) = 0 := by
  funext b p
  unfold Max.spatial
  apply le_antisymm
  · apply Finset.sup_le
    intro κ _
    unfold padded
    split
    · exact le_refl _
    · exact bot_le
  · obtain ⟨κ, hκ⟩ := h p
    refine le_trans ?_ (Finset.le_sup (f := fun κ : (j : Fin c.shape.n) → Fin (c.shape.sp j).k =>
      padded c.shape ⊥ (0 : Frame R β c.shape) b fun j => p j * (c.shape.sp j).s + κ j * (c.shape.sp j).d)
      (Finset.mem_univ κ))
    show _ ≤ padded c.shape ⊥ (0 : Frame R β c.shape) b _
    unfold padded
    rw [dif_pos hκ]
    exact le_refl _

theorem Max.fill_comm (h : c.fill ≠ .zeros ∨ c.Meets) (x : Frame R β c.shape) :
    c.spatial (c.fill.make x) = c.fill.make (c.spatial x) := by
  cases hf : c.fill with
  | zeros => exact c.spatial_zero (h.resolve_left fun h => h hf)
  | replicate => rfl
  | negInf => exact c.spatial_bot

theorem Max.ok (h : c.fill ≠ .zeros ∨ c.Meets) (hK : 1 ≤ c.shape.time.k) (hS : 1 ≤ c.shape.time.s)
    (hP : c.shape.time.p + 1 ≤ c.shape.time.k) (hd : c.shape.time.d = 1) : Pool.Ok (c.cfg (R := R) (β := β)) :=
  ⟨hK, hS, hP, hd, c.fill_comm h, c.orderFree⟩

theorem Max.win_eq (z : Fin c.shape.time.k → Frame R β c.shape) (b : β)
    (p : (j : Fin c.shape.n) → Fin (c.shape.hout j)) :
    Pool.win (c.cfg (R := R) (β := β)) (List.ofFn z) b p = Finset.univ.sup fun k => c.spatial (z k) b p := by
  show ((((List.ofFn z).map c.spatial).map fun y => y b p).foldr max ⊥) = _
  rw [List.map_map, List.map_ofFn, foldr_ofFn]
  rfl

theorem Max.spatial_extend (x : Frame R β c.shape) (b : β) (p : (j : Fin c.shape.n) → Fin (c.shape.hout j)) :
    c.spatial x b p = Finset.univ.sup fun κ : (j : Fin c.shape.n) → Fin (c.shape.sp j).k =>
      extendWith ⊥ (x b) fun j => (p j : Int) * (c.shape.sp j).s + κ j * (c.shape.sp j).d - (c.shape.sp j).p := by
  unfold Max.spatial
  simp only [padded_extend]
  push_cast
  rfl

theorem Max.ref_frame (xs : List (Frame R β c.shape)) (m k s P : Nat) (b : β)
    (p : (j : Fin c.shape.n) → Fin (c.shape.hout j)) :
    (if P ≤ m * s + k then
        match xs[m * s + k - P]? with
        | some x => c.spatial x b p
        | none => ⊥
      else ⊥) = c.spatial (extend1 .zeros ⊥ xs ((m : Int) * s + k - P)) b p := by
  have hb : c.spatial (⊥ : Frame R β c.shape) b p = ⊥ := by rw [c.spatial_bot]; rfl
  unfold extend1
  by_cases h : P ≤ m * s + k
  · have h' : (0 : Int) ≤ (m : Int) * s + k - P := by
      have : ((P : Nat) : Int) ≤ ((m * s + k : Nat) : Int) := by exact_mod_cast h
      push_cast at this; omega
    have e : ((m : Int) * s + k - P).toNat = m * s + k - P := by
      have : ((m : Int) * s + k - P) = ((m * s + k - P : Nat) : Int) := by push_cast [Nat.cast_sub h]; rfl
      rw [this]; rfl
    rw [if_pos h]
    simp only [if_pos h', e, List.getD_eq_getElem?_getD]
    cases xs[m * s + k - P]? with
    | some x => rfl
    | none => exact hb.symm
  · have h' : ¬ (0 : Int) ≤ (m : Int) * s + k - P := by
      intro h2
      apply h
      have : ((P : Nat) : Int) ≤ ((m * s + k : Nat) : Int) := by push_cast; omega
      exact_mod_cast this
    rw [if_neg h]
    simp only [if_neg h']
    exact hb.symm

theorem Max.forward_eq {xs : List (Frame R β c.shape)} (hx : xs ≠ []) (hsp : c.shape.okSpace = true)
    (hk : 1 ≤ c.shape.time.k) (hs : 1 ≤ c.shape.time.s) (hd : c.shape.time.d = 1)
    (hp : 2 * c.shape.time.p ≤ c.shape.time.k) (hp1 : c.shape.time.p + 1 ≤ c.shape.time.k)
    (hL : c.shape.time.k ≤ xs.length + 2 * c.shape.time.p)
    (hc : c.shape.ceil = false ∨ (xs.length + 2 * c.shape.time.p - c.shape.time.k) % c.shape.time.s = 0) :
    c.forward xs = .ok ((List.range (windowCount c.shape.time.k c.shape.time.s (xs.length + 2 * c.shape.time.p))).map
      fun (m : Nat) b p => Finset.univ.sup fun k : Fin c.shape.time.k =>
        c.spatial (extend1 .zeros ⊥ xs ((m : Int) * c.shape.time.s + k - c.shape.time.p)) b p) := by
  have ho := out_eq c.shape.time c.shape.ceil xs.length hk hs hd hp1 hL hc
  unfold Max.forward
  have hw : 1 ≤ windowCount c.shape.time.k c.shape.time.s (xs.length + 2 * c.shape.time.p) := by
    rw [windowCount_eq hL]; exact Nat.succ_le_succ (Nat.zero_le _)
  rw [if_neg, ho]
  · congr 1
    show List.map _ (List.range (windowCount c.shape.time.k c.shape.time.s (xs.length + 2 * c.shape.time.p))) = _
    apply List.map_congr_left
    intro m _
    funext b p
    apply Finset.sup_congr rfl
    intro k _
    rw [hd, Nat.mul_one]
    exact c.ref_frame xs m k _ _ b p
  · rintro (h | h | h)
    · exact hx h
    · refine h ⟨hk, hs, hp, ?_⟩
      rw [ho]
      exact_mod_cast hw
    · rw [hsp] at h; cases h

end

end CoInf.PoolNd
