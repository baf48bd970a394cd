/-
C101: dropout over a stream.
-/
import Verif.Model.Dropout
import Verif.Props.Rnn
import Mathlib.Algebra.Order.BigOperators.Group.Finset
import Mathlib.Algebra.Order.BigOperators.Ring.Finset
import Mathlib.Algebra.BigOperators.Ring.Finset
import Mathlib.Algebra.Order.Field.Basic
import Mathlib.Tactic.FieldSimp
import Mathlib.Tactic.Linarith
import Mathlib.Tactic.Ring

set_option autoImplicit false

namespace CoInf.Spec
open Dropout
variable {R : Type} [CommRing R]

/-- The mean of a statistic of a draw. -/
def meanOf {U : Type} [Fintype U] [DecidableEq U] (w : Bool → R) (g : (U → Bool) → R) : R := ∑ mask, prob w mask * g mask

/-- The mean of a statistic of independent draws, one for each of `T` calls. -/
def meanOfCalls {U : Type} [Fintype U] [DecidableEq U] {T : Nat} (w : Bool → R) (g : (Fin T → U → Bool) → R) : R :=
  ∑ masks, (∏ t, prob w (masks t)) * g masks

/-- A frame passes through recurrent layers with dropout between them: nothing is dropped behind the last layer. -/
def tickDropped {V S K : Type} (apply : K → V → V) : List (V → S → V × S) → List S → List K → V → V × List S
  | f :: fs, s :: ss, m :: ms, x =>
    let r := f x s
    let q := tickDropped apply fs ss ms (if fs.isEmpty then r.1 else apply m r.1)
    (q.1, r.2 :: q.2)
  | f :: _, s :: _, [], x => ((f x s).1, [(f x s).2])
  | _, _, _, x => (x, [])

/-- The outputs, frame by frame; each frame comes with its draws. -/
def recurDropped {V S K : Type} (apply : K → V → V) (fs : List (V → S → V × S)) : List S → List (V × List K) → List V
  | _, [] => []
  | ss, x :: xs => (tickDropped apply fs ss x.2 x.1).1 :: recurDropped apply fs (tickDropped apply fs ss x.2 x.1).2 xs

end CoInf.Spec

namespace CoInf.Dropout
open Spec
variable {C P V : Type} [Fintype C] [DecidableEq C] [Fintype P] [DecidableEq P]

section ring
variable {R : Type} [CommRing R]

/-- Draws for the entries of a clip are draws for the entries of its frames. -/
def perFrame (T : Nat) : (Fin T × C × P → Bool) ≃ (Fin T → Fin 1 × C × P → Bool) where
  toFun := fun m t u => m (t, u.2)
  invFun := fun ms u => ms u.1 (0, u.2)
  left_inv := fun _ => rfl
  right_inv := fun ms => by
    funext t u
    obtain ⟨i, u⟩ := u
    rw [Subsingleton.elim i 0]

theorem prob_perFrame {T : Nat} (w : Bool → R) (m : Fin T × C × P → Bool) :
    prob w m = ∏ t, prob w (perFrame T m t) := by
  unfold prob
  rw [Fintype.prod_prod_type]
  refine Finset.prod_congr rfl fun t _ => ?_
  rw [Fintype.prod_prod_type (f := fun u : Fin 1 × C × P => w (perFrame T m t u))]
  simp [perFrame]

/-- **C101**, `nn.Dropout` and `nn.AlphaDropout`: stepping through a clip in training mode has the distribution of `forward` on the
clip.  The mean of every statistic of the results is the same. -/
theorem C101_elements_partial {T : Nat} (apply : Bool → V → V) (w : Bool → R) (x : Fin T → C → P → V)
    (g : (Fin T → C → P → V) → R) :
    meanOf w (fun mask => g (forward apply (elements C P) mask x)) =
      meanOfCalls w fun masks => g (stream apply (elements C P) masks x) := by
  unfold meanOf meanOfCalls
  refine Fintype.sum_equiv (perFrame T) _ _ fun m => ?_
  rw [prob_perFrame]
  rfl

/-- **C101**, channel-wise dropout, frame by frame: each single result of the stream has the distribution of that frame of
`forward`. -/
theorem C101_features_frame_partial {T : Nat} (apply : Bool → V → V) (w : Bool → R) (x : Fin T → C → P → V)
    (t : Fin T) (g : (C → P → V) → R) :
    meanOf w (fun mask : C → Bool => g (forward apply (features C P) (T := T) mask x t)) =
      meanOf w fun mask : C → Bool => g (forwardStep apply (features C P) mask (x t)) := rfl

theorem mean_prod {U : Type} [Fintype U] [DecidableEq U] (h : U → Bool → R) :
    (∑ mask : U → Bool, ∏ u, h u (mask u)) = ∏ u, ∑ b, h u b := by
  rw [Finset.prod_univ_sum, Fintype.piFinset_univ]

/-- The mean of a statistic of one bit. -/
theorem mean_unit {U : Type} [Fintype U] [DecidableEq U] (w : Bool → R) (hw : w true + w false = 1) (i : U) (f : Bool → R) :
    meanOf w (fun mask : U → Bool => f (mask i)) = w true * f true + w false * f false := by
  have e : ∀ mask : U → Bool, prob w mask * f (mask i) = ∏ u, (if u = i then w (mask u) * f (mask u) else w (mask u)) := by
    intro mask
    unfold prob
    rw [← Finset.mul_prod_erase Finset.univ _ (Finset.mem_univ i),
      ← Finset.mul_prod_erase Finset.univ (fun u => if u = i then w (mask u) * f (mask u) else w (mask u)) (Finset.mem_univ i),
      if_pos rfl]
    rw [Finset.prod_congr rfl (g := fun u => w (mask u)) fun u hu => if_neg (Finset.ne_of_mem_erase hu)]
    ring
  unfold meanOf
  rw [Finset.sum_congr rfl fun mask _ => e mask, mean_prod fun u b => if u = i then w b * f b else w b]
  rw [Finset.prod_eq_single i]
  · simp
  · intro u _ hu
    simp [hu, hw]
  · exact fun h => absurd (Finset.mem_univ i) h

end ring

section ordered
variable {R : Type} [Field R] [LinearOrder R] [IsStrictOrderedRing R]

theorem prob_pos {U : Type} [Fintype U] (w : Bool → R) (hw : ∀ b, 0 < w b) (mask : U → Bool) : 0 < prob w mask :=
  Finset.prod_pos fun _ _ => hw _

/-- **C101 fails** for channel-wise dropout: `forward` drops a channel in all frames of a clip or in none, `forward_step` decides
anew for each frame.  For two frames of any clip with entries that show whether they were dropped there is a statistic whose mean
is zero for `forward` and positive for the stream. -/
theorem C101_features_refuted {T : Nat} (apply : Bool → V → V) (w : Bool → R) (hw : ∀ b, 0 < w b) (x : Fin T → C → P → V)
    (t t' : Fin T) (htt : t ≠ t') (c : C) (p : P) (ht : apply true (x t c p) ≠ apply false (x t c p))
    (ht' : apply true (x t' c p) ≠ apply false (x t' c p)) :
    ∃ g : (Fin T → C → P → V) → R,
      meanOf w (fun mask : C → Bool => g (forward apply (features C P) (T := T) mask x)) = 0 ∧
      0 < meanOfCalls w fun masks : Fin T → C → Bool => g (stream apply (features C P) masks x) := by
  classical
  refine ⟨fun y => if y t c p = apply true (x t c p) ∧ y t' c p = apply false (x t' c p) then 1 else 0, ?_, ?_⟩
  · refine Finset.sum_eq_zero fun mask _ => ?_
    beta_reduce
    rw [if_neg, mul_zero]
    rintro ⟨h, h'⟩
    change apply (mask c) (x t c p) = _ at h
    change apply (mask c) (x t' c p) = _ at h'
    cases hm : mask c
    · rw [hm] at h; exact ht h.symm
    · rw [hm] at h'; exact ht' h'
  · refine Finset.sum_pos' (fun masks _ => ?_) ⟨fun s _ => decide (s = t), Finset.mem_univ _, ?_⟩
    · refine mul_nonneg (Finset.prod_nonneg fun s _ => (prob_pos w hw _).le) ?_
      beta_reduce
      split
      · exact zero_le_one
      · exact le_rfl
    · beta_reduce
      rw [if_pos]
      · rw [mul_one]
        exact Finset.prod_pos fun s _ => prob_pos w hw _
      · constructor
        · show apply (decide (t = t)) _ = _
          rw [decide_eq_true rfl]
        · show apply (decide (t' = t)) _ = _
          rw [decide_eq_false htt.symm]

variable {N : Type} [Fintype N] [DecidableEq N]

/-- **C101**, retroactive attention: the step leaves dropout out and gives the mean of what `forward` gives. -/
theorem C101_attention_mean_partial (p : R) (hp : p ≠ 1) (w : Bool → R) (hw : w true = p) (hw' : w false = 1 - p)
    (a v : N → R) : meanOf w (fun mask : N → Bool => attnForward p mask a v) = attnStep a v := by
  have hp' : 1 - p ≠ 0 := sub_ne_zero.2 hp.symm
  have e : meanOf w (fun mask : N → Bool => attnForward p mask a v) =
      ∑ i, meanOf w fun mask : N → Bool => dropNumber p (mask i) (a i) * v i := by
    unfold meanOf attnForward
    rw [Finset.sum_comm]
    exact Finset.sum_congr rfl fun mask _ => Finset.mul_sum _ _ _
  rw [e]
  refine Finset.sum_congr rfl fun i _ => ?_
  rw [mean_unit w (by rw [hw, hw']; ring) i fun b => dropNumber p b (a i) * v i, hw, hw']
  simp only [dropNumber, if_true, Bool.false_eq_true, if_false]
  field_simp
  ring

/-- **C101 fails** for retroactive attention: `forward` can give something else than the step. -/
theorem C101_attention_refuted (p : R) (w : Bool → R) (hw : ∀ b, 0 < w b) (a v : N → R) (h : attnStep a v ≠ 0) :
    ∃ mask : N → Bool, 0 < prob w mask ∧ attnForward p mask a v ≠ attnStep a v := by
  refine ⟨fun _ => true, prob_pos w hw _, ?_⟩
  have : attnForward p (fun _ : N => true) a v = 0 := Finset.sum_eq_zero fun i _ => by simp [dropNumber]
  rw [this]
  exact h.symm

end ordered

theorem dropped_length {S K : Type} (apply : K → V → V) (fs : List (Rnn.Cell V S)) :
    (dropped apply fs).length = fs.length := by
  induction fs with
  | nil => rfl
  | cons f fs ih =>
    cases fs with
    | nil => rfl
    | cons g fs => simpa [dropped] using ih

theorem tick_dropped {S K : Type} (apply : K → V → V) : ∀ (fs : List (Rnn.Cell V S)) (ss : List S) (ms : List K) (x : V),
    fs ≠ [] → ss.length = fs.length → fs.length ≤ ms.length + 1 →
    ((tick (dropped apply fs) ss (x, ms)).1.1 = (tickDropped apply fs ss ms x).1) ∧
      (tick (dropped apply fs) ss (x, ms)).2 = (tickDropped apply fs ss ms x).2 ∧
      (tickDropped apply fs ss ms x).2.length = fs.length
  | [], _, _, _, h, _, _ => absurd rfl h
  | [f], ss, ms, x, _, hs, hm => by
    obtain ⟨s, rfl⟩ := List.length_eq_one_iff.1 hs
    cases ms <;> exact ⟨rfl, rfl, rfl⟩
  | f :: g :: fs, ss, ms, x, _, hs, hm => by
    obtain ⟨s, ss, rfl⟩ := List.exists_cons_of_length_pos (l := ss) (by rw [hs]; simp)
    obtain ⟨m, ms, rfl⟩ := List.exists_cons_of_length_pos (l := ms) (by simp at hm; omega)
    obtain ⟨h1, h2, h3⟩ := tick_dropped apply (g :: fs) ss ms (apply m (f x s).1) (by simp) (by simpa using hs) (by simpa using hm)
    have e : tick (dropped apply (f :: g :: fs)) (s :: ss) (x, m :: ms) =
      ((tick (dropped apply (g :: fs)) ss (apply m (f x s).1, ms)).1,
        (f x s).2 :: (tick (dropped apply (g :: fs)) ss (apply m (f x s).1, ms)).2) := rfl
    have e' : tickDropped apply (f :: g :: fs) (s :: ss) (m :: ms) x =
      ((tickDropped apply (g :: fs) ss ms (apply m (f x s).1)).1,
        (f x s).2 :: (tickDropped apply (g :: fs) ss ms (apply m (f x s).1)).2) := rfl
    rw [e, e']
    exact ⟨h1, by rw [h2], by simpa using h3⟩

theorem recur_dropped {S K : Type} (apply : K → V → V) (fs : List (Rnn.Cell V S)) (hf : fs ≠ []) :
    ∀ (xs : List (V × List K)) (ss : List S), ss.length = fs.length → (∀ x ∈ xs, fs.length ≤ x.2.length + 1) →
      (recur (dropped apply fs) ss xs).map Prod.fst = recurDropped apply fs ss xs
  | [], _, _, _ => rfl
  | x :: xs, ss, hs, hm => by
    obtain ⟨h1, h2, h3⟩ := tick_dropped apply fs ss x.2 x.1 hf hs (hm x (by simp))
    rw [recur, recurDropped, List.map_cons, h1, h2]
    rw [recur_dropped apply fs hf xs _ h3 fun y hy => hm y (by simp [hy])]

/-- **C101**, recurrent modules with dropout between their layers: whatever is drawn for each frame and each layer but the last, a
stream in training mode, in frames and chunks of any sizes, gives what `forward` on the whole clip gives with the same draws.  Both
are the recurrence with dropout between the layers; spare draws are not used. -/
theorem C101_recurrent {S K : Type} (apply : K → V → V) (c : Rnn.Cfg V S) (hc : c.layers ≠ []) (i : Option (List S))
    (hi : ∀ s, i = some s → s.length = c.layers.length) (ops : List (Op (V × List K))) (hf : ∀ op ∈ ops, op.feeds) (hne : ops ≠ [])
    (hm : ∀ x ∈ framesOf ops, c.layers.length ≤ x.2.length + 1) :
    ∃ rs ys hN, run (Rnn.mod (training apply c)) i ops = .ok (rs, some hN) ∧
      Rnn.forward (training apply c) (framesOf ops) i = .ok (ys, hN) ∧ outsOf rs = ys ∧
      ys.map Prod.fst = recurDropped apply c.layers (i.getD (c.layers.map fun _ => c.zero)) (framesOf ops) := by
  have hl : (training apply c).layers.length = c.layers.length := dropped_length apply c.layers
  obtain ⟨rs, ys, hN, h1, h2, h3, h4, _⟩ := C30_rnn_chunking (training apply c) i
    (fun s hs => by rw [hi s hs]; exact hl.symm) ops hf hne
  refine ⟨rs, ys, hN, h1, h2, h3, ?_⟩
  rw [h4]
  have e : i.getD ((training apply c).layers.map fun _ => (training apply c).zero) = i.getD (c.layers.map fun _ => c.zero) := by
    congr 1
    rw [List.map_const', List.map_const', hl]
    rfl
  rw [e]
  refine recur_dropped apply c.layers hc _ _ ?_ hm
  cases i with
  | none => simp
  | some s => exact hi s rfl

/-! ### Examples -/

/-- `nn.Dropout(0.5)` on numbers. -/
def exHalf : Bool → Rat → Rat := fun b v => if b then 0 else 2 * v

example : (∀ b : Bool, (0 : Rat) < (fun _ => 1 / 2) b) ∧ (0 : Fin 2) ≠ 1 ∧ exHalf true 3 ≠ exHalf false 3 := by
  refine ⟨fun _ => by norm_num, by decide, by decide +kernel⟩

example : meanOf (fun _ => (1 : Rat) / 2) (fun mask : Fin 2 → Bool => attnForward (1 / 2) mask (fun i => if i = 0 then 1 else 3) (fun i => if i = 0 then 5 else 7)) = 26 := by
  rw [C101_attention_mean_partial (1 / 2) (by norm_num) _ rfl (by norm_num)]
  decide +kernel

example : ∃ rs ys hN, run (Rnn.mod (training (fun (b : Bool) (v : Int) => if b then 0 else 2 * v) exRnn)) none
      [.step true (3, [true]), .steps true [(5, [false]), (1, [true])]] = .ok (rs, some hN) ∧
    Rnn.forward (training (fun (b : Bool) (v : Int) => if b then 0 else 2 * v) exRnn)
      [(3, [true]), (5, [false]), (1, [true])] none = .ok (ys, hN) ∧ outsOf rs = ys := by
  obtain ⟨rs, ys, hN, h1, h2, h3, _⟩ := C101_recurrent (fun (b : Bool) (v : Int) => if b then 0 else 2 * v) exRnn (by simp [exRnn])
    none (fun s h => by cases h) [.step true (3, [true]), .steps true [(5, [false]), (1, [true])]] (by simp [Op.feeds]) (by simp)
    (by simp [framesOf, Op.frames, exRnn])
  exact ⟨rs, ys, hN, h1, h2, h3⟩

end CoInf.Dropout
