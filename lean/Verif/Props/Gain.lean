/-
C128: disturbances of the frames of a stream.
-/
import Verif.Props.RoundErr
import Verif.Lemmas.Rnn
import Mathlib.Tactic.FieldSimp
import Mathlib.Algebra.Order.Archimedean.Basic

set_option autoImplicit false

namespace CoInf
variable {F : Type} [Field F] [LinearOrder F] [IsStrictOrderedRing F]

namespace Spec

/-- A convolution whose products of a slice of the kernel with a frame change by at most `W` times the change of the frame. -/
structure GainConv {ι κ : Type} (c : Conv.Cfg (ι → F) (κ → F)) (W : F) : Prop where
  K_pos : 1 ≤ c.K
  S_pos : 1 ≤ c.S
  P_lt : c.P < c.K
  K1 : c.K = 1 → c.S = 1
  zero : ∀ k, c.w k 0 = 0
  nonneg : 0 ≤ W
  lip : ∀ k x y δ, Close δ y x → Close (W * δ) (c.w k y) (c.w k x)

/-- A pooling whose results, on windows in any order, change by at most `G` times the change of the frames. -/
structure GainPool {ι κ : Type} (c : Pool.Cfg (ι → F) (κ → F)) (G : F) : Prop where
  K_pos : 1 ≤ c.K
  S_pos : 1 ≤ c.S
  P_lt : c.P < c.K
  dil : c.dil = 1
  pads : c.P = 0 ∨ c.refPad = c.spatial 0
  fill : ∀ x, c.spatial (c.fillIn x) = c.fillOut (c.spatial x)
  fills : ∀ δ, 0 ≤ δ → ∀ y x, Close δ y x → Close δ (c.fillIn y) (c.fillIn x)
  nonneg : 0 ≤ G
  window : ∀ δ, 0 ≤ δ → ∀ ys xs, xs.length = c.K → List.Forall₂ (Close δ) ys xs →
    Close (G * δ) (c.pool (ys.map c.spatial)) (c.pool (xs.map c.spatial))

/-- A function of frames that changes by at most `L` times the change of its argument. -/
structure GainMap {ι κ : Type} (f : (ι → F) → κ → F) (L : F) : Prop where
  nonneg : 0 ≤ L
  lip : ∀ x y δ, 0 ≤ δ → Close δ y x → Close (L * δ) (f y) (f x)

/-- A layer of `RNN` or `GRU` whose new state (which is its output) changes by at most `a` times the change of the frame plus `q < 1`
times the change of the old state. -/
structure GainCell {ι : Type} (f : Rnn.Cell (ι → F) (ι → F)) (a q : F) : Prop where
  out : ∀ x s, (f x s).1 = (f x s).2
  a_nonneg : 0 ≤ a
  q_nonneg : 0 ≤ q
  q_lt : q < 1
  lip : ∀ x y s t δ ε, 0 ≤ δ → 0 ≤ ε → Close δ y x → Close ε t s → Close (a * δ + q * ε) (f y t).1 (f x s).1

/-- `Gain m φ G`: networks of convolutions, poolings, delays, functions of frames, recurrent layers, `Sequential` and sums of two
branches, their stream functions and their gains: gains multiply along a `Sequential` and add up at a sum. -/
inductive Gain : {ι κ : Type} → CoMod (.stream (ι → F)) (.stream (κ → F)) → (List (ι → F) → List (κ → F)) → F → Prop where
  | conv {ι κ : Type} {c : Conv.Cfg (ι → F) (κ → F)} {W : F} (h : GainConv c W) :
      Gain (Conv.mod c) (streamOut c.K c.S c.P (c.fill.make 0) (corr c.w c.bias)) (c.K * W)
  | pool {ι κ : Type} {c : Pool.Cfg (ι → F) (κ → F)} {G : F} (h : GainPool c G) : Gain (Pool.mod c) (Pool.phiAt c) G
  | delay {ι : Type} (c : Delay.Cfg (ι → F)) : Gain (Delay.mod c) (delayed c.d (delayLead c)) 1
  | map {ι κ : Type} {f : (ι → F) → κ → F} {L : F} (h : GainMap f L) : Gain (Pointwise.mod f) (List.map f) L
  | rnn {ι : Type} {c : Rnn.Cfg (ι → F) (ι → F)} {a q : F} (h : ∀ f ∈ c.layers, GainCell f a q) (ha : 0 ≤ a) (hq : q < 1) :
      Gain (Rnn.mod c) (recur c.layers (c.layers.map fun _ => c.zero)) ((a / (1 - q)) ^ c.layers.length)
  | single {ι κ : Type} {m : CoMod (.stream (ι → F)) (.stream (κ → F))} {φ G} (h : Gain m φ G) : Gain (Sequential.mod (.single m)) φ G
  | cons {ι κ μ : Type} {m : CoMod (.stream (ι → F)) (.stream (κ → F))} {c : Chain (.stream (κ → F)) (.stream (μ → F))} {φ ψ G H}
      (h : Gain m φ G) (h₂ : Gain (Sequential.mod c) ψ H) : Gain (Sequential.mod (.cons m c)) (ψ ∘ φ) (H * G)
  | sum {ι κ : Type} {m n : CoMod (.stream (ι → F)) (.stream (κ → F))} {φ ψ G H} (h : Gain m φ G) (h₂ : Gain n ψ H)
      (hal : ∀ xs, (φ xs).length = (ψ xs).length) :
      Gain (BroadcastReduce.mod (foldReducer (· + ·)) [m, n]) (fun xs => List.zipWith (· + ·) (φ xs) (ψ xs)) (G + H)

/-- The outputs of two calls: none for both, or outputs that differ by at most `δ`. -/
def CloseOpt {ι : Type} (δ : F) : Option (ι → F) → Option (ι → F) → Prop
  | none, none => True
  | some y, some x => Close δ y x
  | _, _ => False

/-- The results of two calls of `forward`: both raise the same, or as many frames as each other that differ by at most `δ`. -/
def CloseResult {ι : Type} (δ : F) : Except Err (List (ι → F)) → Except Err (List (ι → F)) → Prop
  | .ok ys, .ok xs => List.Forall₂ (Close δ) ys xs
  | .error e', .error e => e' = e
  | _, _ => False

end Spec

open Spec RoundErr

namespace Gains

variable {ι κ : Type}

theorem make_close {δ : F} (hδ : 0 ≤ δ) (f : Fill) (y x : ι → F) (h : Close δ y x) : Close δ (f.make 0 y) (f.make 0 x) := by
  cases f with
  | zeros => exact fun i => by show |(0 : F) - 0| ≤ δ; simpa using hδ
  | replicate => exact h

theorem zero_close {δ : F} (hδ : 0 ≤ δ) : Close δ (0 : ι → F) 0 := fun i => by show |(0 : F) - 0| ≤ δ; simpa using hδ

theorem sums_close {δ : F} {ts' ts : List (κ → F)} (h : List.Forall₂ (Close δ) ts' ts) : Close (ts.length * δ) ts'.sum ts.sum := by
  intro j
  have := sum_close (e := δ) (l' := ts'.map fun t => t j) (l := ts.map fun t => t j) (by
    rw [List.forall₂_map_left_iff, List.forall₂_map_right_iff]
    exact h.imp fun _ _ h => h j)
  rwa [List.length_map, ← sum_place j ts, ← sum_place j ts'] at this

theorem shift_close {δ : F} {y x b : κ → F} (h : Close δ y x) : Close δ (y + b) (x + b) := by
  intro j
  have := h j
  simpa using this

theorem add_close {δ ε : F} {y x y₂ x₂ : κ → F} (h : Close δ y x) (h₂ : Close ε y₂ x₂) : Close (δ + ε) (y + y₂) (x + x₂) := by
  intro j
  have e : (y + y₂) j - (x + x₂) j = (y j - x j) + (y₂ j - x₂ j) := by simp only [Pi.add_apply]; ring
  rw [e]
  exact (abs_add_le _ _).trans (add_le_add (h j) (h₂ j))

/-- The stream function changes by at most `G` times the change of the frames. -/
def Lip (φ : List (ι → F) → List (κ → F)) (G : F) : Prop :=
  0 ≤ G ∧ ∀ δ, 0 ≤ δ → ∀ ys xs, List.Forall₂ (Close δ) ys xs → List.Forall₂ (Close (G * δ)) (φ ys) (φ xs)

/-! ### Convolutions -/

section
variable {c : Conv.Cfg (ι → F) (κ → F)} {W : F}

theorem conv_window (h : GainConv c W) {δ : F} {ys xs : List (ι → F)} (hl : xs.length = c.K) (hx : List.Forall₂ (Close δ) ys xs) :
    Close (c.K * W * δ) (corr c.w c.bias ys) (corr c.w c.bias xs) := by
  unfold corr
  refine shift_close ?_
  have : List.Forall₂ (Close (W * δ)) (ys.mapIdx c.w) (xs.mapIdx c.w) := by
    refine List.forall₂_iff_get.2 ⟨by simp [hx.length_eq], fun k h1 h2 => ?_⟩
    simp only [List.get_eq_getElem, List.getElem_mapIdx]
    exact h.lip k _ _ δ ((List.forall₂_iff_get.1 hx).2 k (by simpa using h1) (by simpa using h2))
  have s := sums_close this
  rwa [List.length_mapIdx, hl, ← mul_assoc] at s

theorem conv_lip (h : GainConv c W) : Lip (streamOut c.K c.S c.P (c.fill.make 0) (corr c.w c.bias)) (c.K * W) := by
  refine ⟨mul_nonneg (Nat.cast_nonneg _) h.nonneg, fun δ hδ ys xs hx => ?_⟩
  exact slide_rel _ _ (pad_rel _ (fun y x hb => make_close hδ c.fill y x hb) hx) fun w' w hl hw => conv_window h hl hw

end

/-- The results of `forward`. -/
def Res {I : Type} (δ : F) : Except Err (List (κ → F) × I) → Except Err (List (κ → F) × I) → Prop
  | .ok p', .ok p => List.Forall₂ (Close δ) p'.1 p.1
  | .error e', .error e => e' = e
  | _, _ => False

section
variable {c : Conv.Cfg (ι → F) (κ → F)} {W : F}

theorem torchConv_close (h : GainConv c W) {δ : F} {zs' zs : List (ι → F)}
    (hz : List.Forall₂ (Close δ) zs' zs) {I : Type} (i j : I) :
    Res (c.K * W * δ) ((Conv.torchConv c zs').map fun ys => (ys, i)) ((Conv.torchConv c zs).map fun ys => (ys, j)) := by
  unfold Conv.torchConv
  rw [hz.length_eq]
  by_cases hlt : zs.length < c.K
  · rw [if_pos hlt, if_pos hlt]
    rfl
  · rw [if_neg hlt, if_neg hlt]
    show List.Forall₂ _ _ _
    rw [List.forall₂_map_left_iff, List.forall₂_map_right_iff]
    refine List.forall₂_same.2 fun j hj => ?_
    have main : ∀ ts' ts : List (κ → F), ts.length = c.K → List.Forall₂ (Close (W * δ)) ts' ts →
        Close (c.K * W * δ) (Conv.addBias c ts'.sum) (Conv.addBias c ts.sum) := by
      intro ts' ts hl ht
      have s := sums_close ht
      rw [hl, ← mul_assoc] at s
      unfold Conv.addBias
      cases c.bias with
      | none => exact s
      | some v => exact shift_close s
    refine main _ _ (by simp) ?_
    rw [List.forall₂_map_left_iff, List.forall₂_map_right_iff]
    refine List.forall₂_same.2 fun k hk => ?_
    have h1 : j ≤ (zs.length - c.K) / c.S := by have := List.mem_range.1 hj; omega
    have h2 := Nat.mul_le_mul_right c.S h1
    have h3 := Nat.div_mul_le_self (zs.length - c.K) c.S
    have h4 := List.mem_range.1 hk
    have hi : j * c.S + k < zs.length := by omega
    have hi' : j * c.S + k < zs'.length := by rw [hz.length_eq]; exact hi
    rw [List.getElem?_eq_getElem hi', List.getElem?_eq_getElem hi]
    exact h.lip k _ _ δ ((List.forall₂_iff_get.1 hz).2 _ hi' hi)

theorem conv_forward (h : GainConv c W) {δ : F} (hδ : 0 ≤ δ) {ys xs : List (ι → F)} (hx : List.Forall₂ (Close δ) ys xs) {I : Type}
    (i j : I) : Res (c.K * W * δ) ((Conv.forward c ys).map fun ys => (ys, i)) ((Conv.forward c xs).map fun ys => (ys, j)) := by
  unfold Conv.forward
  cases hx with
  | nil => rfl
  | @cons y x ys xs h1 h2 =>
    have hl : (y :: ys).length = (x :: xs).length := by simp [h2.length_eq]
    have hlast := (List.forall₂_iff_get.1 (List.Forall₂.cons h1 h2)).2 ((x :: xs).length - 1) (by rw [hl]; simp) (by simp)
    rw [List.getLast?_eq_getElem?, List.getLast?_eq_getElem?, hl, List.getElem?_eq_getElem (by rw [hl]; simp),
      List.getElem?_eq_getElem (by simp)]
    refine torchConv_close h ?_ i j
    exact List.rel_append (List.rel_append (replicate_rel _ (make_close hδ _ _ _ h1)) (.cons h1 h2))
      (replicate_rel _ (make_close hδ _ _ _ hlast))

end

/-! ### Poolings -/

section
variable {c : Pool.Cfg (ι → F) (κ → F)} {G : F}

theorem pool_outAt (h : GainPool c G) {δ : F} (hδ : 0 ≤ δ) {ys xs : List (ι → F)} (hx : List.Forall₂ (Close δ) ys xs) :
    List.Forall₂ (Close (G * δ)) (Pool.outAt c ys) (Pool.outAt c xs) := by
  cases hx with
  | nil => exact .nil
  | @cons y x ys xs h1 h2 =>
    have hl : (y :: ys).length = (x :: xs).length := by simp [h2.length_eq]
    unfold Pool.outAt
    simp only [List.head?_cons, hl]
    split
    · refine .cons ?_ .nil
      unfold Pool.turned
      rw [← List.map_rotate, ← List.map_rotate]
      refine h.window δ hδ _ _ ?_ (rotate_rel ?_ _)
      · rw [List.length_rotate, lastN_length _ _ (by simp)]
      · have hrel : List.Forall₂ (Close δ) (List.replicate c.K (c.fillIn y) ++ y :: ys) (List.replicate c.K (c.fillIn x) ++ x :: xs) :=
          List.rel_append (replicate_rel _ (h.fills δ hδ _ _ h1)) (.cons h1 h2)
        unfold lastN
        rw [hrel.length_eq]
        exact List.forall₂_drop _ hrel
    · exact .nil

theorem pool_lip (h : GainPool c G) : Lip (Pool.phiAt c) G := by
  refine ⟨h.nonneg, fun δ hδ ys xs hx => ?_⟩
  unfold Pool.phiAt
  rw [hx.length_eq]
  generalize List.range xs.length = ns
  induction ns with
  | nil => exact .nil
  | cons n ns ih => exact List.rel_append (pool_outAt h hδ (List.forall₂_take _ hx)) ih

theorem pool_forward (h : GainPool c G) {δ : F} (hδ : 0 ≤ δ) {ys xs : List (ι → F)} (hx : List.Forall₂ (Close δ) ys xs) {I : Type}
    (i j : I) : Res (G * δ) ((Pool.forward c ys).map fun ys => (ys, i)) ((Pool.forward c xs).map fun ys => (ys, j)) := by
  have e : ∀ xs : List (ι → F), List.replicate c.P c.refPad ++ xs.map c.spatial ++ List.replicate c.P c.refPad =
      (List.replicate c.P 0 ++ xs ++ List.replicate c.P 0).map c.spatial := by
    intro xs
    rcases h.pads with h0 | h0
    · simp [h0]
    · simp [h0]
  have hz : List.Forall₂ (Close δ) (List.replicate c.P (0 : ι → F) ++ ys ++ List.replicate c.P 0)
      (List.replicate c.P (0 : ι → F) ++ xs ++ List.replicate c.P 0) :=
    List.rel_append (List.rel_append (replicate_rel _ (zero_close hδ)) hx) (replicate_rel _ (zero_close hδ))
  unfold Pool.forward Pool.bufLen
  simp only [e, h.dil, List.length_map, hz.length_eq]
  have hnil : (ys = []) = (xs = []) := by
    cases hx <;> simp
  simp only [hnil]
  generalize List.replicate c.P (0 : ι → F) ++ ys ++ List.replicate c.P 0 = zs' at *
  generalize List.replicate c.P (0 : ι → F) ++ xs ++ List.replicate c.P 0 = zs at *
  split
  · rfl
  · split
    · rfl
    · rename_i hlt
      show List.Forall₂ _ _ _
      rw [List.forall₂_map_left_iff, List.forall₂_map_right_iff]
      refine List.forall₂_same.2 fun j hj => ?_
      have hK := h.K_pos
      obtain ⟨a, b⟩ := pick_rel hz (fun k => j * c.S + k * 1) (List.range c.K) (by
        intro k hk
        have h1 : j ≤ (zs.length - (1 * (c.K - 1) + 1)) / c.S := by have := List.mem_range.1 hj; omega
        have h2 := Nat.mul_le_mul_right c.S h1
        have h3 := Nat.div_mul_le_self (zs.length - (1 * (c.K - 1) + 1)) c.S
        have h4 := List.mem_range.1 hk
        omega)
      rw [pick_map c.spatial zs' (fun k => j * c.S + k * 1), pick_map c.spatial zs (fun k => j * c.S + k * 1)]
      exact h.window δ hδ _ _ (by rw [b, List.length_range]) a

end

/-! ### Recurrent layers -/

section
variable {a q : F}

theorem layer_close {f : Rnn.Cell (ι → F) (ι → F)} (h : GainCell f a q) {δ : F} (hδ : 0 ≤ δ) {ys xs : List (ι → F)}
    (hx : List.Forall₂ (Close δ) ys xs) : ∀ t s : ι → F, Close (a / (1 - q) * δ) t s →
    List.Forall₂ (Close (a / (1 - q) * δ)) (Rnn.layer f t ys).1 (Rnn.layer f s xs).1 := by
  have hq : 0 < 1 - q := by linarith [h.q_lt]
  have hD : 0 ≤ a / (1 - q) * δ := mul_nonneg (div_nonneg h.a_nonneg hq.le) hδ
  have e : a * δ + q * (a / (1 - q) * δ) = a / (1 - q) * δ := by
    field_simp
    ring
  induction hx with
  | nil => exact fun t s _ => .nil
  | @cons y x ys xs h1 _ ih =>
    intro t s hts
    rw [Rnn.layer_cons, Rnn.layer_cons]
    have k := h.lip x y s t δ _ hδ hD h1 hts
    rw [e] at k
    refine .cons k (ih _ _ ?_)
    rw [← h.out, ← h.out]
    exact k

theorem stack_close (ha : 0 ≤ a) (hq : q < 1) (z : ι → F) : ∀ (fs : List (Rnn.Cell (ι → F) (ι → F))),
    (∀ f ∈ fs, GainCell f a q) → ∀ {ys xs : List (ι → F)} {ε : F}, 0 ≤ ε → List.Forall₂ (Close ε) ys xs →
    List.Forall₂ (Close ((a / (1 - q)) ^ fs.length * ε)) (Rnn.stack fs (fs.map fun _ => z) ys).1 (Rnn.stack fs (fs.map fun _ => z) xs).1
  | [], _, ys, xs, ε, _, hx => by simpa [Rnn.stack] using hx
  | f :: fs, h, ys, xs, ε, hε, hx => by
    have hd : 0 ≤ a / (1 - q) := div_nonneg ha (by linarith)
    rw [List.map_cons, Rnn.stack_cons, Rnn.stack_cons, List.length_cons, pow_succ, mul_assoc]
    exact stack_close ha hq z fs (fun g hg => h g (List.mem_cons_of_mem _ hg)) (mul_nonneg hd hε)
      (layer_close (h f (List.mem_cons_self ..)) hε hx z z fun j => by simpa using mul_nonneg hd hε)

theorem rnn_lip {c : Rnn.Cfg (ι → F) (ι → F)} (h : ∀ f ∈ c.layers, GainCell f a q) (ha : 0 ≤ a) (hq : q < 1) :
    Lip (recur c.layers (c.layers.map fun _ => c.zero)) ((a / (1 - q)) ^ c.layers.length) := by
  refine ⟨pow_nonneg (div_nonneg ha (by linarith)) _, fun δ hδ ys xs hx => ?_⟩
  have := stack_close ha hq c.zero c.layers h hδ hx
  rwa [Rnn.stack_eq _ _ _ (by simp), Rnn.stack_eq _ _ _ (by simp)] at this

theorem rnn_forward {c : Rnn.Cfg (ι → F) (ι → F)} (h : ∀ f ∈ c.layers, GainCell f a q) (ha : 0 ≤ a) (hq : q < 1) {δ : F} (hδ : 0 ≤ δ)
    {ys xs : List (ι → F)} (hx : List.Forall₂ (Close δ) ys xs) {I : Type} (i j : I) :
    Res ((a / (1 - q)) ^ c.layers.length * δ) ((Rnn.forward c ys none).map fun p => (p.1, i)) ((Rnn.forward c xs none).map fun p => (p.1, j)) := by
  unfold Rnn.forward Rnn.torchForward
  have hnil : (ys = []) = (xs = []) := by
    cases hx <;> simp
  simp only [hnil, Option.getD_none, List.length_map, ne_eq, not_true_eq_false, if_false]
  split
  · rfl
  · exact stack_close ha hq c.zero c.layers h hδ hx

end

/-! ### Networks -/

theorem zip_close {δ ε : F} : ∀ {as' bs' as bs : List (κ → F)}, List.Forall₂ (Close δ) as' as → List.Forall₂ (Close ε) bs' bs →
    List.Forall₂ (Close (δ + ε)) (List.zipWith (· + ·) as' bs') (List.zipWith (· + ·) as bs)
  | _, _, _, _, .nil, _ => .nil
  | _, _, _, _, .cons .., .nil => .nil
  | _, _, _, _, .cons h t, .cons h' t' => .cons (add_close h h') (zip_close t t')

theorem gain_facts {m : CoMod (.stream (ι → F)) (.stream (κ → F))} {φ G} (h : Gain m φ G) : Implements m φ ∧ Lip φ G := by
  induction h with
  | conv h => exact ⟨⟨_, Conv.simRel _ ⟨⟨h.K_pos, h.S_pos, h.P_lt, h.zero⟩, by have := h.K1; have := h.K_pos; omega⟩⟩, conv_lip h⟩
  | pool h => exact ⟨⟨_, Pool.simAny _ ⟨h.K_pos, h.S_pos, h.P_lt, h.dil, h.fill⟩⟩, pool_lip h⟩
  | delay c =>
    refine ⟨(net_facts (k := ⟨false, 0⟩) (.delay _ (by simp))).impl, zero_le_one, fun δ hδ ys xs hx => ?_⟩
    unfold delayed delayLead
    rw [hx.length_eq, one_mul]
    exact List.forall₂_drop _ (List.forall₂_take _ hx)
  | map h =>
    refine ⟨(net_facts (k := ⟨false, 0⟩) (.pointwise _)).impl, h.nonneg, fun δ hδ ys xs hx => ?_⟩
    rw [List.forall₂_map_left_iff, List.forall₂_map_right_iff]
    exact hx.imp fun y x hb => h.lip x y δ hδ hb
  | rnn h ha hq => exact ⟨⟨_, Rnn.simRel _⟩, rnn_lip h ha hq⟩
  | single _ ih =>
    obtain ⟨⟨_, a⟩, c⟩ := ih
    exact ⟨⟨_, Sequential.simRel_single a⟩, c⟩
  | cons _ _ ih ih₂ =>
    obtain ⟨⟨_, a⟩, c1, c2⟩ := ih
    obtain ⟨⟨_, b⟩, d1, d2⟩ := ih₂
    refine ⟨⟨_, Sequential.simRel_cons a b⟩, mul_nonneg d1 c1, fun δ hδ ys xs hx => ?_⟩
    rw [mul_assoc]
    exact d2 _ (mul_nonneg c1 hδ) _ _ (c2 δ hδ ys xs hx)
  | sum _ _ hal ih ih₂ =>
    obtain ⟨a, c1, c2⟩ := ih
    obtain ⟨b, d1, d2⟩ := ih₂
    refine ⟨sum_implements 0 a b hal, add_nonneg c1 d1, fun δ hδ ys xs hx => ?_⟩
    rw [add_mul]
    exact zip_close (c2 δ hδ ys xs hx) (d2 δ hδ ys xs hx)

theorem bcast_close {I : Type} {δ ε : F} {as' bs' as bs : List (κ → F)}
    (h : List.Forall₂ (Close δ) as' as) (h₂ : List.Forall₂ (Close ε) bs' bs) (i j : I) :
    Res (δ + ε) ((bcast2 (· + ·) as' bs').map fun ys => (ys, i)) ((bcast2 (· + ·) as bs).map fun ys => (ys, j)) := by
  unfold bcast2
  rw [h.length_eq, h₂.length_eq]
  by_cases hl : as.length = bs.length
  · rw [if_pos hl, if_pos hl]
    exact zip_close h h₂
  · rw [if_neg hl, if_neg hl]
    have left : ∀ {y x} {bs' bs : List (κ → F)}, Close δ y x → List.Forall₂ (Close ε) bs' bs →
        List.Forall₂ (Close (δ + ε)) (bs'.map fun z => y + z) (bs.map fun z => x + z) := by
      intro y x bs' bs hb hs
      rw [List.forall₂_map_left_iff, List.forall₂_map_right_iff]
      exact hs.imp fun _ _ hb₂ => add_close hb hb₂
    have right : ∀ {y x} {as' as : List (κ → F)}, Close ε y x → List.Forall₂ (Close δ) as' as →
        List.Forall₂ (Close (δ + ε)) (as'.map fun z => z + y) (as.map fun z => z + x) := by
      intro y x as' as hb hs
      rw [List.forall₂_map_left_iff, List.forall₂_map_right_iff]
      exact hs.imp fun _ _ hb₁ => add_close hb₁ hb
    cases h with
    | nil => cases h₂ with
      | nil => rfl
      | cons b t => cases t with
        | nil => exact right b .nil
        | cons _ _ => rfl
    | cons a s => cases s with
      | nil => exact left a h₂
      | cons a₂ s => cases h₂ with
        | nil => rfl
        | cons b t => cases t with
          | nil => exact right b (.cons a (.cons a₂ s))
          | cons _ _ => rfl

theorem gain_fwd {m : CoMod (.stream (ι → F)) (.stream (κ → F))} {φ G} (h : Gain m φ G) :
    ∀ δ, 0 ≤ δ → ∀ ys xs, List.Forall₂ (Close δ) ys xs → ∀ i j, Res (G * δ) (m.fwd i ys) (m.fwd j xs) := by
  induction h with
  | conv h => exact fun δ hδ ys xs hx i j => conv_forward h hδ hx i j
  | pool h => exact fun δ hδ ys xs hx i j => pool_forward h hδ hx i j
  | delay c =>
    intro δ hδ ys xs hx i j
    show List.Forall₂ (Close (1 * δ)) (Delay.forward _ ys) (Delay.forward _ xs)
    unfold Delay.forward
    rw [hx.length_eq, one_mul]
    split
    · exact hx
    · split
      · exact List.forall₂_take _ hx
      · exact List.forall₂_drop _ (List.forall₂_take _ hx)
  | map h =>
    intro δ hδ ys xs hx i j
    exact ((gain_facts (.map h)).2.2 δ hδ ys xs hx : List.Forall₂ _ _ _)
  | rnn h ha hq => exact fun δ hδ ys xs hx i j => rnn_forward h ha hq hδ hx i j
  | single _ ih => exact ih
  | @cons ι κ μ m c φ ψ G H h h₂ ih ih₂ =>
    intro δ hδ ys xs hx i j
    have k1 := (gain_facts h).2.1
    have a := ih δ hδ ys xs hx i.1 j.1
    show Res _ (m.fwd i.1 ys >>= fun p => c.fwd i.2 p.1 >>= fun q => pure (q.1, (p.2, q.2)))
      (m.fwd j.1 xs >>= fun p => c.fwd j.2 p.1 >>= fun q => pure (q.1, (p.2, q.2)))
    rw [mul_assoc]
    cases e1 : m.fwd i.1 ys with
    | error x1 => cases e2 : m.fwd j.1 xs with
      | error x2 => rw [e1, e2] at a; exact a
      | ok p => rw [e1, e2] at a; exact a.elim
    | ok p' => cases e2 : m.fwd j.1 xs with
      | error x2 => rw [e1, e2] at a; exact a.elim
      | ok p =>
        rw [e1, e2] at a
        have b := ih₂ _ (mul_nonneg k1 hδ) _ _ a i.2 j.2
        have f1 : (Sequential.mod c).fwd i.2 p'.1 = c.fwd i.2 p'.1 := rfl
        have f2 : (Sequential.mod c).fwd j.2 p.1 = c.fwd j.2 p.1 := rfl
        rw [f1, f2] at b
        simp only [bind, Except.bind]
        cases g1 : c.fwd i.2 p'.1 with
        | error x1 => cases g2 : c.fwd j.2 p.1 with
          | error x2 => rw [g1, g2] at b; exact b
          | ok q => rw [g1, g2] at b; exact b.elim
        | ok q' => cases g2 : c.fwd j.2 p.1 with
          | error x2 => rw [g1, g2] at b; exact b.elim
          | ok q => rw [g1, g2] at b; exact b
  | @sum ι κ m n φ ψ G H h h₂ hal ih ih₂ =>
    intro δ hδ ys xs hx i j
    have a := ih δ hδ ys xs hx i.1 j.1
    have b := ih₂ δ hδ ys xs hx i.2.1 j.2.1
    have shape : ∀ (i : BroadcastReduce.Inst [m, n]) (xs : List (ι → F)),
        (BroadcastReduce.mod (foldReducer (· + ·)) [m, n]).fwd i xs = match m.fwd i.1 xs, n.fwd i.2.1 xs with
          | .ok p, .ok q => (bcast2 (· + ·) p.1 q.1).map fun ys => (ys, (p.2, q.2, ()))
          | .error e, _ => .error e
          | _, .error e => .error e := by
      intro i xs
      show BroadcastReduce.fwd (foldReducer (· + ·)) [m, n] i xs = _
      unfold BroadcastReduce.fwd
      simp only [BroadcastReduce.fwdAll, bind, Except.bind, pure, Except.pure]
      cases m.fwd i.1 xs with
      | error e => rfl
      | ok p => cases n.fwd i.2.1 xs with
        | error e => rfl
        | ok q =>
          simp only [foldReducer, List.foldlM, bind, Except.bind, pure, Except.pure]
          cases bcast2 (· + ·) p.1 q.1 <;> rfl
    rw [shape, shape, add_mul]
    cases e1 : m.fwd i.1 ys with
    | error x1 => cases e2 : m.fwd j.1 xs with
      | error x2 => rw [e1, e2] at a; exact a
      | ok p => rw [e1, e2] at a; exact a.elim
    | ok p' => cases e2 : m.fwd j.1 xs with
      | error x2 => rw [e1, e2] at a; exact a.elim
      | ok p =>
        rw [e1, e2] at a
        cases g1 : n.fwd i.2.1 ys with
        | error x1 => cases g2 : n.fwd j.2.1 xs with
          | error x2 => rw [g1, g2] at b; exact b
          | ok q => rw [g1, g2] at b; exact b.elim
        | ok q' => cases g2 : n.fwd j.2.1 xs with
          | error x2 => rw [g1, g2] at b; exact b.elim
          | ok q =>
            rw [g1, g2] at b
            exact bcast_close a b _ _

end Gains

open Gains

variable {ι κ : Type} {m : CoMod (.stream (ι → F)) (.stream (κ → F))} {φ : List (ι → F) → List (κ → F)} {G : F}

/-- **C128**, `forward_step`: two objects of a network with gain `G` that were fed the frames `g'` and `g`, one by one, in chunks or in
any other way, which differ by at most `δ` in each place.  For one more such pair of frames both return an output or neither does, and
the outputs differ by at most `G * δ`, however long the streams are. -/
theorem C128_step (h : Gain m φ G) {δ : F} (hδ : 0 ≤ δ) {g' g : List (ι → F)} {y x : ι → F} (hg : List.Forall₂ (Close δ) g' g)
    (hx : Close δ y x) {i j : m.Inst} (hi : Reach m g' i) (hj : Reach m g j) (u u' : Bool) :
    ∃ o' i' o j', m.step i u' y = .ok (o', i') ∧ m.step j u x = .ok (o, j') ∧ CloseOpt (G * δ) o' o := by
  obtain ⟨h1, -, h3⟩ := gain_facts h
  obtain ⟨o', i', a1, a2, _⟩ := h1.reach.step u' y hi
  obtain ⟨o, j', b1, b2, _⟩ := h1.reach.step u x hj
  refine ⟨o', i', o, j', a1, b1, ?_⟩
  have k1 := h3 δ hδ _ _ (List.rel_append hg (.cons hx .nil))
  have k2 := h3 δ hδ _ _ hg
  rw [a2, b2] at k1
  have k := append_rel k1 k2.length_eq
  cases o' <;> cases o <;> simp_all [CloseOpt]

/-- **C128**, `forward_steps`. -/
theorem C128_steps (h : Gain m φ G) {δ : F} (hδ : 0 ≤ δ) {g' g ys xs : List (ι → F)} (hg : List.Forall₂ (Close δ) g' g)
    (hne : xs ≠ []) (hx : List.Forall₂ (Close δ) ys xs) {i j : m.Inst} (hi : Reach m g' i) (hj : Reach m g j) (u u' : Bool) :
    ∃ os' i' os j', m.steps i false u' ys = .ok (optList os', i') ∧ m.steps j false u xs = .ok (optList os, j') ∧
      List.Forall₂ (Close (G * δ)) os' os := by
  obtain ⟨h1, -, h3⟩ := gain_facts h
  obtain ⟨os', i', a1, a2, _⟩ := h1.reach.steps u' ys (by cases hx <;> simp_all) hi
  obtain ⟨os, j', b1, b2, _⟩ := h1.reach.steps u xs hne hj
  refine ⟨os', i', os, j', a1, b1, ?_⟩
  have k1 := h3 δ hδ _ _ (List.rel_append hg hx)
  have k2 := h3 δ hδ _ _ hg
  rw [a2, b2] at k1
  exact append_rel k1 k2.length_eq

/-- **C128**, `forward`. -/
theorem C128_forward (h : Gain m φ G) {δ : F} (hδ : 0 ≤ δ) {ys xs : List (ι → F)} (hx : List.Forall₂ (Close δ) ys xs) (i j : m.Inst) :
    CloseResult (G * δ) ((m.fwd i ys).map Prod.fst) ((m.fwd j xs).map Prod.fst) := by
  have k := gain_fwd h δ hδ _ _ hx i j
  cases e1 : m.fwd i ys with
  | error x1 => cases e2 : m.fwd j xs with
    | error x2 => rw [e1, e2] at k; exact k
    | ok p => rw [e1, e2] at k; exact k.elim
  | ok p' => cases e2 : m.fwd j xs with
    | error x2 => rw [e1, e2] at k; exact k.elim
    | ok p => rw [e1, e2] at k; exact k

/-! ### Members -/

/-- **C128**, average pooling: the gain is 1. -/
theorem C128_average (F ι : Type) [Field F] [LinearOrder F] [IsStrictOrderedRing F] {K S P : Nat} (hK : 1 ≤ K) (hS : 1 ≤ S) (hP : P < K) :
    GainPool (average F ι K S P) 1 where
  K_pos := hK
  S_pos := hS
  P_lt := hP
  dil := rfl
  pads := .inr rfl
  fill := fun _ => rfl
  fills := fun δ hδ _ _ _ => zero_close hδ
  nonneg := zero_le_one
  window := by
    intro δ hδ ys xs hl hx
    have hl : xs.length = K := hl
    have hK0 : (0 : F) < K := by exact_mod_cast hK
    show Close (1 * δ) (fun j => (ys.map id).sum j / (ys.map id).length) (fun j => (xs.map id).sum j / (xs.map id).length)
    rw [List.map_id, List.map_id, hx.length_eq, hl]
    intro j
    have s := sums_close hx j
    rw [hl] at s
    show |ys.sum j / K - xs.sum j / K| ≤ _
    rw [← sub_div, abs_div, abs_of_pos hK0, div_le_iff₀ hK0]
    linarith

theorem Gains.largest_close {δ : F} (j : ι) : ∀ (ys xs : List (ι → F)) (a b : F), |a - b| ≤ δ → List.Forall₂ (Close δ) ys xs →
    |ys.foldl (fun a y => max a (y j)) a - xs.foldl (fun a y => max a (y j)) b| ≤ δ
  | _, _, _, _, h, .nil => h
  | y :: ys, x :: xs, a, b, h, .cons hx hs =>
    Gains.largest_close j ys xs (max a (y j)) (max b (x j)) ((abs_max_sub_max_le_max _ _ _ _).trans (max_le h (hx j))) hs

/-- **C128**, max pooling: the gain is 1. -/
theorem C128_max (F ι : Type) [Field F] [LinearOrder F] [IsStrictOrderedRing F] {K S : Nat} (hK : 1 ≤ K) (hS : 1 ≤ S) :
    GainPool (maxExact F ι K S) 1 where
  K_pos := hK
  S_pos := hS
  P_lt := hK
  dil := rfl
  pads := .inl rfl
  fill := fun _ => rfl
  fills := fun δ hδ _ _ _ => zero_close hδ
  nonneg := zero_le_one
  window := by
    intro δ hδ ys xs hl hx
    have hl : xs.length = K := hl
    show Close (1 * δ) (largest (ys.map id)) (largest (xs.map id))
    rw [List.map_id, List.map_id, one_mul]
    cases hx with
    | nil => simp at hl; omega
    | cons h hs => exact fun j => largest_close j _ _ _ _ (h j) hs

/-- **C128**, the rectifier: the gain is 1. -/
theorem C128_relu (F ι : Type) [Field F] [LinearOrder F] [IsStrictOrderedRing F] : GainMap (fun (x : ι → F) j => max (x j) 0) 1 where
  nonneg := zero_le_one
  lip := fun x y δ _ h j => by rw [one_mul]; exact (abs_max_sub_max_le_abs _ _ _).trans (h j)

/-! ### Recurrent layers forget -/

theorem Gains.layer_append {V S : Type} (f : Rnn.Cell V S) : ∀ (s : S) (xs ys : List V), Rnn.layer f s (xs ++ ys) =
    ((Rnn.layer f s xs).1 ++ (Rnn.layer f (Rnn.layer f s xs).2 ys).1, (Rnn.layer f (Rnn.layer f s xs).2 ys).2)
  | s, [], ys => rfl
  | s, x :: xs, ys => by
    rw [List.cons_append, Rnn.layer_cons, Gains.layer_append f _ xs ys, Rnn.layer_cons]
    rfl

theorem Gains.state_close {f : Rnn.Cell (ι → F) (ι → F)} {a q : F} (h : GainCell f a q) {δ : F} (hδ : 0 ≤ δ) {ys xs : List (ι → F)}
    (hx : List.Forall₂ (Close δ) ys xs) : ∀ t s : ι → F, Close (a / (1 - q) * δ) t s →
    Close (a / (1 - q) * δ) (Rnn.layer f t ys).2 (Rnn.layer f s xs).2 := by
  have hq : 0 < 1 - q := by linarith [h.q_lt]
  have hD : 0 ≤ a / (1 - q) * δ := mul_nonneg (div_nonneg h.a_nonneg hq.le) hδ
  have e : a * δ + q * (a / (1 - q) * δ) = a / (1 - q) * δ := by
    field_simp
    ring
  induction hx with
  | nil => exact fun t s hts => hts
  | @cons y x ys xs h1 _ ih =>
    intro t s hts
    rw [Rnn.layer_cons, Rnn.layer_cons]
    have k := h.lip x y s t δ _ hδ hD h1 hts
    rw [e, h.out, h.out] at k
    exact ih _ _ k

theorem Gains.state_fades {f : Rnn.Cell (ι → F) (ι → F)} {a q : F} (h : GainCell f a q) : ∀ (xs : List (ι → F)) (t s : ι → F) (ε : F),
    0 ≤ ε → Close ε t s → Close (q ^ xs.length * ε) (Rnn.layer f t xs).2 (Rnn.layer f s xs).2
  | [], t, s, ε, _, hts => by simpa [Rnn.layer] using hts
  | x :: xs, t, s, ε, hε, hts => by
    rw [Rnn.layer_cons, Rnn.layer_cons, List.length_cons, pow_succ, mul_assoc]
    have k := h.lip x x s t 0 ε le_rfl hε (fun i => by simp) hts
    rw [mul_zero, zero_add, h.out, h.out] at k
    exact Gains.state_fades h xs _ _ _ (mul_nonneg h.q_nonneg hε) k

theorem Gains.recur_single {V S : Type} (f : Rnn.Cell V S) (z : S) (xs : List V) : recur [f] [z] xs = (Rnn.layer f z xs).1 := by
  have := congrArg Prod.fst (Rnn.stack_eq [f] xs [z] rfl)
  exact this.symm

theorem Gains.step_fades {c : Rnn.Cfg (ι → F) (ι → F)} {f : Rnn.Cell (ι → F) (ι → F)} {a q : F} (hc : c.layers = [f]) (h : GainCell f a q)
    {ε : F} (hε : 0 ≤ ε) {g' g xs : List (ι → F)} (hs : Close ε (Rnn.layer f c.zero g').2 (Rnn.layer f c.zero g).2) (x : ι → F)
    {i j : (Rnn.mod c).Inst} (hi : Reach (Rnn.mod c) (g' ++ xs) i) (hj : Reach (Rnn.mod c) (g ++ xs) j) (u u' : Bool) :
    ∃ o' i' o j', (Rnn.mod c).step i u' x = .ok (some o', i') ∧ (Rnn.mod c).step j u x = .ok (some o, j') ∧
      Close (q ^ (xs.length + 1) * ε) o' o := by
  have out : ∀ {g : List (ι → F)} {i : (Rnn.mod c).Inst} (u : Bool), Reach (Rnn.mod c) g i →
      ∃ i', (Rnn.mod c).step i u x = .ok (some (f x (Rnn.layer f c.zero g).2).1, i') := by
    intro g i u hi
    have S : Implements (Rnn.mod c) _ := ⟨_, Rnn.simRel c⟩
    obtain ⟨o, i', a1, a2, _⟩ := S.reach.step u x hi
    have e : ∀ xs, recur c.layers (Rnn.zeros c) xs = (Rnn.layer f c.zero xs).1 := by
      intro xs
      unfold Rnn.zeros
      rw [hc]
      exact recur_single f c.zero xs
    rw [e, e, layer_append] at a2
    have a2 := List.append_cancel_left a2
    have e3 : (Rnn.layer f (Rnn.layer f c.zero g).2 [x]).1 = [(f x (Rnn.layer f c.zero g).2).1] := rfl
    rw [e3] at a2
    cases o with
    | none => cases a2
    | some o =>
      injection a2 with a2
      exact ⟨i', by rw [a1, a2]⟩
  obtain ⟨i', a1⟩ := out u' hi
  obtain ⟨j', b1⟩ := out u hj
  refine ⟨_, i', _, j', a1, b1, ?_⟩
  rw [layer_append, layer_append]
  have k1 := state_fades h xs _ _ _ hε hs
  have k2 := h.lip x x _ _ 0 _ le_rfl (mul_nonneg (pow_nonneg h.q_nonneg _) hε) (fun i => by simp) k1
  rw [mul_zero, zero_add, ← mul_assoc, ← pow_succ'] at k2
  exact k2

/-- **C128**, a disturbance that is over fades: two objects of a recurrent module with one layer were fed frames `g'` and `g` that differ
by at most `δ`, and then the same frames `xs`.  The next outputs of `forward_step`, for the same frame, differ by at most `q` to the
number of common frames (with this one) times the bound on the disturbance. -/
theorem C128_fades {c : Rnn.Cfg (ι → F) (ι → F)} {f : Rnn.Cell (ι → F) (ι → F)} {a q : F} (hc : c.layers = [f]) (h : GainCell f a q) {δ : F}
    (hδ : 0 ≤ δ) {g' g xs : List (ι → F)} (hg : List.Forall₂ (Close δ) g' g) (x : ι → F) {i j : (Rnn.mod c).Inst}
    (hi : Reach (Rnn.mod c) (g' ++ xs) i) (hj : Reach (Rnn.mod c) (g ++ xs) j) (u u' : Bool) :
    ∃ o' i' o j', (Rnn.mod c).step i u' x = .ok (some o', i') ∧ (Rnn.mod c).step j u x = .ok (some o, j') ∧
      Close (q ^ (xs.length + 1) * (a / (1 - q) * δ)) o' o := by
  have hq : 0 < 1 - q := by linarith [h.q_lt]
  have hD : 0 ≤ a / (1 - q) * δ := mul_nonneg (div_nonneg h.a_nonneg hq.le) hδ
  exact step_fades hc h hD (state_close h hδ hg c.zero c.zero fun i => by simpa using hD) x hi hj u u'

theorem Gains.state_bounded {f : Rnn.Cell (ι → F) (ι → F)} {B : F} (hb : ∀ x s i, |(f x s).2 i| ≤ B) :
    ∀ (xs : List (ι → F)) (s : ι → F), (∀ i, |s i| ≤ B) → ∀ i, |(Rnn.layer f s xs).2 i| ≤ B
  | [], _, hs => hs
  | x :: xs, s, _ => by
    rw [Rnn.layer_cons]
    exact Gains.state_bounded hb xs _ (hb x s)

/-- **C128**, the past fades: if moreover the states of the layer are bounded by `B` (as those of `tanh` are by 1), this holds of any two
pasts `g'` and `g`, of any lengths: after the common frames `xs` the outputs differ by at most `2 * B` times that power of `q`. -/
theorem C128_past_fades {c : Rnn.Cfg (ι → F) (ι → F)} {f : Rnn.Cell (ι → F) (ι → F)} {a q B : F} (hc : c.layers = [f]) (h : GainCell f a q)
    (hB : 0 ≤ B) (hb : ∀ x s i, |(f x s).2 i| ≤ B) (hz : ∀ i, |c.zero i| ≤ B) {g' g xs : List (ι → F)} (x : ι → F)
    {i j : (Rnn.mod c).Inst} (hi : Reach (Rnn.mod c) (g' ++ xs) i) (hj : Reach (Rnn.mod c) (g ++ xs) j) (u u' : Bool) :
    ∃ o' i' o j', (Rnn.mod c).step i u' x = .ok (some o', i') ∧ (Rnn.mod c).step j u x = .ok (some o, j') ∧
      Close (q ^ (xs.length + 1) * (2 * B)) o' o := by
  refine step_fades hc h (mul_nonneg zero_le_two hB) (fun k => ?_) x hi hj u u'
  have k1 := state_bounded hb g' c.zero hz k
  have k2 := state_bounded hb g c.zero hz k
  rw [two_mul]
  exact (abs_sub _ _).trans (add_le_add k1 k2)

/-- **C128**, an effective receptive field: for every accuracy `ε` there is a number `N` such that the outputs, up to `ε`, depend only on the
last `N` frames and this one, whatever was fed before. -/
theorem C128_forgets [Archimedean F] {c : Rnn.Cfg (ι → F) (ι → F)} {f : Rnn.Cell (ι → F) (ι → F)} {a q B : F} (hc : c.layers = [f])
    (h : GainCell f a q) (hB : 0 ≤ B) (hb : ∀ x s i, |(f x s).2 i| ≤ B) (hz : ∀ i, |c.zero i| ≤ B) {ε : F} (hε : 0 < ε) :
    ∃ N, ∀ (g' g xs : List (ι → F)) (x : ι → F) (i j : (Rnn.mod c).Inst), N ≤ xs.length → Reach (Rnn.mod c) (g' ++ xs) i →
      Reach (Rnn.mod c) (g ++ xs) j → ∀ u u', ∃ o' i' o j', (Rnn.mod c).step i u' x = .ok (some o', i') ∧
        (Rnn.mod c).step j u x = .ok (some o, j') ∧ Close ε o' o := by
  have hp : 0 < 2 * B + 1 := by linarith
  obtain ⟨N, hN⟩ := exists_pow_lt_of_lt_one (div_pos hε hp) h.q_lt
  refine ⟨N, fun g' g xs x i j hl hi hj u u' => ?_⟩
  obtain ⟨o', i', o, j', e1, e2, k⟩ := C128_past_fades hc h hB hb hz x hi hj u u'
  refine ⟨o', i', o, j', e1, e2, fun l => (k l).trans ?_⟩
  have h1 : q ^ (xs.length + 1) ≤ q ^ N := pow_le_pow_of_le_one h.q_nonneg h.q_lt.le (by omega)
  have h2 : q ^ N * (2 * B + 1) < ε := (lt_div_iff₀ hp).1 hN
  have h3 : q ^ (xs.length + 1) * (2 * B) ≤ q ^ N * (2 * B) := mul_le_mul_of_nonneg_right h1 (by linarith)
  have h4 : 0 ≤ q ^ N := pow_nonneg h.q_nonneg _
  linarith [mul_add (q ^ N) (2 * B) 1]

/-! ### Recurrent layers without contraction -/

/-- A layer of `nn.RNN` with the rectifier as its nonlinearity, the weight 1 for the frame and the weight `q` for the state. -/
def Gains.reluCell (q : Rat) : Rnn.Cell (Unit → Rat) (Unit → Rat) := fun x s => (fun j => max (x j + q * s j) 0, fun j => max (x j + q * s j) 0)

/-- The recurrent module of this layer. -/
def Gains.reluRnn (q : Rat) : Rnn.Cfg (Unit → Rat) (Unit → Rat) := ⟨[Gains.reluCell q], fun _ => 0⟩

theorem Gains.reluRnn_reach {d : Rat} (hd : 0 ≤ d) : ∀ n : Nat, ∃ i, Reach (Rnn.mod (reluRnn 1)) (List.replicate n fun _ => d) i ∧
    (Rnn.mod (reluRnn 1)).step i true (fun _ => d) = .ok (some fun _ => (n + 1) * d, some [fun _ => (n + 1) * d])
  | 0 => ⟨none, .init, by
      show Except.ok (some fun _ => max (d + 1 * 0) 0, some [fun _ => max (d + 1 * 0) 0]) = _
      simp [hd]⟩
  | n + 1 => by
    obtain ⟨i, h1, h2⟩ := Gains.reluRnn_reach hd n
    refine ⟨some [fun _ => (n + 1) * d], ?_, ?_⟩
    · rw [List.replicate_succ']
      exact .step true _ h1 h2
    · show Except.ok (some fun _ => max (d + 1 * ((n + 1) * d)) 0, some [fun _ => max (d + 1 * ((n + 1) * d)) 0]) = _
      have h0 : (0 : Rat) ≤ d + 1 * ((n + 1) * d) := by positivity
      rw [max_eq_left h0]
      have e : d + 1 * (((n : Rat) + 1) * d) = (((n + 1 : Nat) : Rat) + 1) * d := by push_cast; ring
      rw [e]

/-- **C128**, the condition on recurrent layers is needed: `RNN(nonlinearity="relu")` with both weights 1 adds up the disturbances.  Whatever
`G` is, there are streams whose frames differ by at most 1 and after which the outputs of `forward_step` differ by more than `G`. -/
theorem C128_needs_contraction (G : Rat) : ∃ (g' g : List (Unit → Rat)) (y x : Unit → Rat) (i j : (Rnn.mod (reluRnn 1)).Inst)
    (o' o : Option (Unit → Rat)) (i' j' : (Rnn.mod (reluRnn 1)).Inst), List.Forall₂ (Close 1) g' g ∧ Close 1 y x ∧
    Reach (Rnn.mod (reluRnn 1)) g' i ∧ Reach (Rnn.mod (reluRnn 1)) g j ∧ (Rnn.mod (reluRnn 1)).step i true y = .ok (o', i') ∧
    (Rnn.mod (reluRnn 1)).step j true x = .ok (o, j') ∧ ¬ CloseOpt G o' o := by
  obtain ⟨n, hn⟩ := exists_nat_gt G
  obtain ⟨i, a1, a2⟩ := reluRnn_reach (d := 1) zero_le_one n
  obtain ⟨j, b1, b2⟩ := reluRnn_reach (d := 0) le_rfl n
  refine ⟨_, _, _, _, i, j, _, _, _, _, ?_, ?_, a1, b1, a2, b2, ?_⟩
  · exact replicate_rel n fun j => by norm_num
  · exact fun j => by norm_num
  · intro h
    have h : |((n : Rat) + 1) * 1 - ((n : Rat) + 1) * 0| ≤ G := h ()
    have := le_abs_self (((n : Rat) + 1) * 1 - ((n : Rat) + 1) * 0)
    linarith

/-! ### Examples -/

/-- The convolution of the example for C127 has the gain 3/2. -/
theorem Gains.exGain : GainConv exExact (1 / 2) where
  K_pos := by decide
  S_pos := by decide
  P_lt := by decide
  K1 := by decide
  zero := fun k => by funext j; exact mul_zero _
  nonneg := by norm_num
  lip := exRounds.lip

/-- A layer that halves its state is a contraction. -/
theorem Gains.exCell : GainCell (reluCell (1 / 2)) 1 (1 / 2) where
  out := fun _ _ => rfl
  a_nonneg := by norm_num
  q_nonneg := by norm_num
  q_lt := by norm_num
  lip := fun x y s t δ ε _ _ h h' j => by
    refine (abs_max_sub_max_le_abs _ _ _).trans ?_
    have e : y j + 1 / 2 * t j - (x j + 1 / 2 * s j) = (y j - x j) + 1 / 2 * (t j - s j) := by ring
    rw [e]
    refine (abs_add_le _ _).trans ?_
    rw [abs_mul, show |(1 / 2 : Rat)| = 1 / 2 by norm_num]
    have := h j
    have := h' j
    linarith

/-- A residual connection around the convolution, the rectifier, an average over two frames and two recurrent layers: the gain is 10. -/
example : ∃ m φ, Gain (F := Rat) (ι := Unit) (κ := Unit) m φ 10 ∧
    m = Sequential.mod (.cons (BroadcastReduce.mod (foldReducer (· + ·)) [Conv.mod exExact, Delay.mod ⟨2, id, .off⟩])
      (.cons (Pointwise.mod fun x j => max (x j) 0) (.cons (Pool.mod (average Rat Unit 2 1 0))
        (.single (Rnn.mod ⟨[reluCell (1 / 2), reluCell (1 / 2)], fun _ => 0⟩))))) := by
  have h := Gain.cons (Gain.sum (.conv exGain) (.delay ⟨2, id, .off⟩) (exAligned _ _))
    (.cons (.map (C128_relu Rat Unit)) (.cons (.pool (C128_average Rat Unit (K := 2) (S := 1) (P := 0) (by omega) (by omega) (by omega)))
      (.single (.rnn (c := ⟨[reluCell (1 / 2), reluCell (1 / 2)], fun _ => 0⟩) (a := 1) (q := 1 / 2)
        (fun f hf => by
          have hf : f = reluCell (1 / 2) := by simpa only [List.mem_cons, List.not_mem_nil, or_false, or_self] using hf
          rw [hf]
          exact exCell) (by norm_num) (by norm_num)))))
  have key : ∀ {m φ} {G : Rat}, Gain (ι := Unit) (κ := Unit) m φ G → G = 10 → Gain m φ 10 := fun h e => e ▸ h
  exact ⟨_, _, key h (by norm_num [exExact]), rfl⟩

/-- The convolution, on two streams of which the second is disturbed by a tenth. -/
example : ∃ i j o' i' o j', Reach (Conv.mod exExact) [fun _ => 1] i ∧ Reach (Conv.mod exExact) [fun _ => 11 / 10] j ∧
    (Conv.mod exExact).step i true (fun _ => 2) = .ok (o', i') ∧ (Conv.mod exExact).step j true (fun _ => 19 / 10) = .ok (o, j') ∧
    CloseOpt (3 * (1 / 2) * (1 / 10)) o' o := by
  have c1 : Close (1 / 10 : Rat) (fun _ : Unit => 1) (fun _ => 11 / 10) := fun j => by norm_num [abs_le]
  have c2 : Close (1 / 10 : Rat) (fun _ : Unit => 2) (fun _ => 19 / 10) := fun j => by norm_num [abs_le]
  obtain ⟨o1, i1, p1, j1, e1, f1, -⟩ := C128_step (.conv exGain) (δ := 1 / 10) (by norm_num) .nil c1 .init .init true true
  have r1 := Reach.step true _ .init e1
  have s1 := Reach.step true _ .init f1
  obtain ⟨o2, i2, p2, j2, e2, f2, n⟩ := C128_step (.conv exGain) (δ := 1 / 10) (by norm_num) (.cons c1 .nil) c2 r1 s1 true true
  exact ⟨i1, j1, o2, i2, p2, j2, r1, s1, e2, f2, n⟩

/-- A recurrent layer that was disturbed by 1 and then fed two zeros: an eighth of the bound is left. -/
example : ∃ i j o' i' o j', Reach (Rnn.mod (reluRnn (1 / 2))) ([fun _ => 1] ++ [fun _ => 0, fun _ => 0]) i ∧
    Reach (Rnn.mod (reluRnn (1 / 2))) ([fun _ => 0] ++ [fun _ => 0, fun _ => 0]) j ∧
    (Rnn.mod (reluRnn (1 / 2))).step i true (fun _ => 0) = .ok (some o', i') ∧
    (Rnn.mod (reluRnn (1 / 2))).step j true (fun _ => 0) = .ok (some o, j') ∧ Close ((1 / 2) ^ 3 * (1 / (1 - 1 / 2) * 1)) o' o := by
  obtain ⟨_, i, _, j, a1, b1, -⟩ := C128_steps (.rnn (c := reluRnn (1 / 2)) (a := 1) (q := 1 / 2) (fun f hf => by
      rw [List.mem_singleton.1 hf]
      exact exCell) (by norm_num) (by norm_num)) (δ := 1) (by norm_num) .nil
    (ys := [fun _ => 1] ++ [fun _ => 0, fun _ => 0]) (xs := [fun _ => 0] ++ [fun _ => 0, fun _ => 0]) (by simp)
    (.cons (fun j => by norm_num) (.cons (fun j => by norm_num) (.cons (fun j => by norm_num) .nil))) .init .init true true
  have r := Reach.steps true _ (by simp) .init a1
  have s := Reach.steps true _ (by simp) .init b1
  obtain ⟨o', i', o, j', e1, e2, n⟩ := C128_fades rfl exCell (δ := 1) (by norm_num) (g' := [fun _ => 1]) (g := [fun _ => 0])
    (xs := [fun _ => 0, fun _ => 0]) (.cons (fun j => by norm_num) .nil) (fun _ => 0) r s true true
  exact ⟨i, j, o', i', o, j', r, s, e1, e2, n⟩

/-- A layer whose states are cut off at 1. -/
def exCut : Rnn.Cell (Unit → ℚ) (Unit → ℚ) := fun x s => (fun i => max (-1) (min 1 (x i + 1 / 2 * s i)), fun i => max (-1) (min 1 (x i + 1 / 2 * s i)))

theorem exCut_gain : GainCell exCut 1 (1 / 2) where
  out _ _ := rfl
  a_nonneg := by norm_num
  q_nonneg := by norm_num
  q_lt := by norm_num
  lip x y s t δ ε _ _ hx hs i := by
    have h1 := hx i
    have h2 := hs i
    show |max (-1) (min 1 (y i + 1 / 2 * t i)) - max (-1) (min 1 (x i + 1 / 2 * s i))| ≤ 1 * δ + 1 / 2 * ε
    have e : |(y i + 1 / 2 * t i) - (x i + 1 / 2 * s i)| ≤ 1 * δ + 1 / 2 * ε := by
      rw [abs_le] at *
      constructor <;> linarith [h1.1, h1.2, h2.1, h2.2]
    refine le_trans ?_ e
    refine (abs_max_sub_max_le_max _ _ _ _).trans ?_
    rw [sub_self, abs_zero]
    refine max_le (abs_nonneg _) ((abs_min_sub_min_le_max _ _ _ _).trans ?_)
    rw [sub_self, abs_zero]
    exact max_le (abs_nonneg _) le_rfl

theorem exCut_bound (x s : Unit → ℚ) (i : Unit) : |(exCut x s).2 i| ≤ 1 := by
  show |max (-1) (min 1 (x i + 1 / 2 * s i))| ≤ 1
  exact abs_le.2 ⟨le_max_left _ _, max_le (by norm_num) (min_le_left _ _)⟩

/-- One object has seen a frame of 100, the other nothing; after one common frame half of a half of 2 is left. -/
example : ∃ i j o' i' o j', Reach (Rnn.mod (⟨[exCut], fun _ => 0⟩ : Rnn.Cfg (Unit → ℚ) (Unit → ℚ))) ([fun _ => 100] ++ [fun _ => 0]) i ∧
    Reach (Rnn.mod (⟨[exCut], fun _ => 0⟩ : Rnn.Cfg (Unit → ℚ) (Unit → ℚ))) ([] ++ [fun _ => 0]) j ∧
    (Rnn.mod (⟨[exCut], fun _ => 0⟩ : Rnn.Cfg (Unit → ℚ) (Unit → ℚ))).step i true (fun _ => 0) = .ok (some o', i') ∧
    (Rnn.mod (⟨[exCut], fun _ => 0⟩ : Rnn.Cfg (Unit → ℚ) (Unit → ℚ))).step j true (fun _ => 0) = .ok (some o, j') ∧
    Close ((1 / 2) ^ 2 * (2 * 1)) o' o := by
  have go : ∀ xs : List (Unit → ℚ), xs ≠ [] → ∃ i, Reach (Rnn.mod (⟨[exCut], fun _ => 0⟩ : Rnn.Cfg (Unit → ℚ) (Unit → ℚ))) xs i := by
    intro xs hx
    have S : Implements (Rnn.mod (⟨[exCut], fun _ => 0⟩ : Rnn.Cfg (Unit → ℚ) (Unit → ℚ))) _ := ⟨_, Rnn.simRel _⟩
    obtain ⟨o, i, a1, -⟩ := S.reach.steps true xs hx .init
    exact ⟨i, Reach.steps true xs hx .init a1⟩
  obtain ⟨i, hi⟩ := go ([fun _ => 100] ++ [fun _ => 0]) (by simp)
  obtain ⟨j, hj⟩ := go ([] ++ [fun _ => 0]) (by simp)
  obtain ⟨o', i', o, j', e1, e2, n⟩ := C128_past_fades (xs := [fun _ => 0]) rfl exCut_gain zero_le_one exCut_bound (fun _ => by norm_num) (fun _ => 0) hi hj
    true true
  exact ⟨i, j, o', i', o, j', hi, hj, e1, e2, n⟩

/-- The layer above, up to a thousandth. -/
example : ∃ N, ∀ (g' g xs : List (Unit → ℚ)) (x : Unit → ℚ) (i j : (Rnn.mod (⟨[exCut], fun _ => 0⟩ : Rnn.Cfg (Unit → ℚ) (Unit → ℚ))).Inst),
    N ≤ xs.length → Reach (Rnn.mod ⟨[exCut], fun _ => 0⟩) (g' ++ xs) i → Reach (Rnn.mod ⟨[exCut], fun _ => 0⟩) (g ++ xs) j →
    ∀ u u', ∃ o' i' o j', (Rnn.mod ⟨[exCut], fun _ => 0⟩).step i u' x = .ok (some o', i') ∧
      (Rnn.mod ⟨[exCut], fun _ => 0⟩).step j u x = .ok (some o, j') ∧ Close (1 / 1000) o' o :=
  C128_forgets rfl exCut_gain zero_le_one exCut_bound (fun _ => by norm_num) (by norm_num)

end CoInf
