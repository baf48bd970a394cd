/-
C127: rounding errors do not accumulate over a stream.

The networks compute with an addition that rounds (`Spec.Rounding`, the standard model of floating-point arithmetic); the products of a
convolution with its kernel, the poolings and the element-wise functions may round in any way within given bounds.
-/
import Verif.Props.Rounding
import Verif.Lemmas.Rnn
import Mathlib.Algebra.Order.Field.Basic
import Mathlib.Algebra.Order.Group.Unbundled.Abs
import Mathlib.Algebra.Order.Group.MinMax
import Mathlib.Algebra.Order.BigOperators.Group.List
import Mathlib.Tactic.Linarith
import Mathlib.Tactic.Positivity
import Mathlib.Tactic.Ring

set_option autoImplicit false

namespace CoInf
variable {F : Type} [Field F] [LinearOrder F] [IsStrictOrderedRing F]

namespace Spec

/-- An addition with a relative error of at most `u`. -/
structure Rounding (F : Type) [Field F] [LinearOrder F] where
  add : F → F → F
  u : F
  nonneg : 0 ≤ u
  err : ∀ a b, |add a b - (a + b)| ≤ u * |a + b|

/-- Frames with this addition. -/
structure Fl (r : Rounding F) (ι : Type) where
  val : ι → F

instance (r : Rounding F) (ι : Type) : Zero (Fl r ι) := ⟨⟨fun _ => 0⟩⟩

instance (r : Rounding F) (ι : Type) : Add (Fl r ι) := ⟨fun a b => ⟨fun i => r.add (a.val i) (b.val i)⟩⟩

/-- The frame `y` differs from `x` by at most `δ` in each place. -/
def Close {ι : Type} (δ : F) (y x : ι → F) : Prop := ∀ i, |y i - x i| ≤ δ

/-- The entries of the frame are not larger than `B`. -/
def Within {ι : Type} (B : F) (x : ι → F) : Prop := ∀ i, |x i| ≤ B

/-- `ys` consists of as many frames as `xs`, each close to its counterpart. -/
def Near {ι : Type} {r : Rounding F} (δ : F) (ys : List (Fl r ι)) (xs : List (ι → F)) : Prop :=
  List.Forall₂ (fun y x => Close δ y.val x) ys xs

/-- The outputs of two calls: no output for both, or outputs that are close. -/
def NearOpt {ι : Type} {r : Rounding F} (δ : F) : Option (Fl r ι) → Option (ι → F) → Prop
  | none, none => True
  | some y, some x => Close δ y.val x
  | _, _ => False

/-- The results of two calls of `forward`: both raise the same, or outputs that are close. -/
def NearResult {ι : Type} {r : Rounding F} (δ : F) : Except Err (List (Fl r ι)) → Except Err (List (ι → F)) → Prop
  | .ok ys, .ok xs => Near δ ys xs
  | .error e', .error e => e' = e
  | _, _ => False

/-- `y` is close to `x`, which is not larger than `B`. -/
def Both {ι : Type} {r : Rounding F} (δ B : F) (y : Fl r ι) (x : ι → F) : Prop := Close δ y.val x ∧ Within B x

/-- A convolution that rounds and the exact one: the same arguments and biases (at most `b`); the exact products of a slice of the kernel
with a frame change by at most `W` times the change of the frame, and the computed ones have a relative error of `η`. -/
structure RoundsConv {ι κ : Type} (r : Rounding F) (c' : Conv.Cfg (Fl r ι) (Fl r κ)) (c : Conv.Cfg (ι → F) (κ → F)) (W η b : F) :
    Prop where
  K_pos : 1 ≤ c.K
  S_pos : 1 ≤ c.S
  P_lt : c.P < c.K
  K1 : c.K = 1 → c.S = 1
  K : c'.K = c.K
  S : c'.S = c.S
  P : c'.P = c.P
  fill : c'.fill = c.fill
  padMode : c'.padMode = c.padMode
  bias : c'.bias = c.bias.map Fl.mk
  zero : ∀ k, c.w k 0 = 0
  zero' : ∀ k, c'.w k 0 = 0
  W_nonneg : 0 ≤ W
  η_nonneg : 0 ≤ η
  b_nonneg : 0 ≤ b
  lip : ∀ k x y δ, Close δ y x → Close (W * δ) (c.w k y) (c.w k x)
  err : ∀ k (x : Fl r ι) B, Within B x.val → Close (η * B) (c'.w k x).val (c.w k x.val)
  size : ∀ v ∈ c.bias, Within b v

/-- The error of an output of a convolution over `K` frames, for inputs of size `B` with errors `δ`. -/
def convErr (u : F) (K : Nat) (W η b B δ : F) : F :=
  K * (η * (B + δ) + W * δ) + ((1 + u) ^ (K + 1) - 1) * (K * ((W + η) * (B + δ)) + b)

/-- A pooling that rounds and the exact one: the same arguments; `forward` pads by zeros, or not at all; on windows of size `B` with errors `δ`, whatever their order, the
result has size `β B` and the error `ρ B δ`. -/
structure RoundsPool {ι κ : Type} (r : Rounding F) (c' : Pool.Cfg (Fl r ι) (Fl r κ)) (c : Pool.Cfg (ι → F) (κ → F)) (ρ : F → F → F)
    (β : F → F) : Prop where
  K_pos : 1 ≤ c.K
  S_pos : 1 ≤ c.S
  P_lt : c.P < c.K
  dil : c.dil = 1
  K : c'.K = c.K
  S : c'.S = c.S
  P : c'.P = c.P
  dil' : c'.dil = 1
  pads : c.P = 0 ∨ c'.refPad = c'.spatial 0 ∧ c.refPad = c.spatial 0
  fill : ∀ x, c.spatial (c.fillIn x) = c.fillOut (c.spatial x)
  fill' : ∀ x, c'.spatial (c'.fillIn x) = c'.fillOut (c'.spatial x)
  fills : ∀ B δ, 0 ≤ B → 0 ≤ δ → ∀ y x, Both δ B y x → Both δ B (c'.fillIn y) (c.fillIn x)
  nonneg : ∀ B δ, 0 ≤ B → 0 ≤ δ → 0 ≤ β B ∧ 0 ≤ ρ B δ
  window : ∀ B δ, 0 ≤ B → 0 ≤ δ → ∀ ys xs, xs.length = c.K → List.Forall₂ (Both δ B) ys xs →
    Both (ρ B δ) (β B) (c'.pool (ys.map c'.spatial)) (c.pool (xs.map c.spatial))

/-- An element-wise function that rounds and the exact one: the exact one changes by at most `L` times the change of its argument and is
at most `z` in size at zero; the error is at most `η`. -/
structure RoundsMap {ι κ : Type} (r : Rounding F) (f' : Fl r ι → Fl r κ) (f : (ι → F) → κ → F) (L z η : F) : Prop where
  L_nonneg : 0 ≤ L
  lip : ∀ x y δ, Close δ y x → Close (L * δ) (f y) (f x)
  zero : Within z (f 0)
  z_nonneg : 0 ≤ z
  η_nonneg : 0 ≤ η
  err : ∀ x : Fl r ι, Close η (f' x).val (f x.val)

/-- A layer of `RNN` or `GRU` that rounds and the exact one: the new state (which is the output) of the exact one changes by at most `a`
times the change of the frame plus `q` times the change of the old state and is at most `z` in size for zeros; the error is at most `η`
times the sizes of frame and state, plus `θ`. -/
structure RoundsCell {ι : Type} (r : Rounding F) (f' : Rnn.Cell (Fl r ι) (Fl r ι)) (f : Rnn.Cell (ι → F) (ι → F)) (a q z η θ : F) :
    Prop where
  out : ∀ x s, (f x s).1 = (f x s).2
  out' : ∀ x s, (f' x s).1 = (f' x s).2
  lip : ∀ x y s t δ ε, Close δ y x → Close ε t s → Close (a * δ + q * ε) (f y t).1 (f x s).1
  zero : Within z (f 0 0).1
  err : ∀ (x s : Fl r ι) B A, Within B x.val → Within A s.val → Close (η * (B + A) + θ) (f' x s).1.val (f x.val s.val).1

/-- Recurrent modules of such layers, which start from zeros; `q + η` is smaller than 1. -/
structure RoundsRnn {ι : Type} (r : Rounding F) (c' : Rnn.Cfg (Fl r ι) (Fl r ι)) (c : Rnn.Cfg (ι → F) (ι → F)) (a q z η θ : F) :
    Prop where
  layers : List.Forall₂ (fun f' f => RoundsCell r f' f a q z η θ) c'.layers c.layers
  start' : c'.zero = 0
  start : c.zero = 0
  a_nonneg : 0 ≤ a
  q_nonneg : 0 ≤ q
  q_lt : q + η < 1
  z_nonneg : 0 ≤ z
  η_nonneg : 0 ≤ η
  θ_nonneg : 0 ≤ θ

/-- The size of the outputs of `n` recurrent layers, for inputs of size `B`. -/
def rnnSize (a q z : F) : Nat → F → F
  | 0, B => B
  | n + 1, B => rnnSize a q z n ((a * B + z) / (1 - q))

/-- The errors of the outputs of `n` recurrent layers, for inputs of size `B` with errors `δ`. -/
def rnnErr (a q z η θ : F) : Nat → F → F → F
  | 0, _, δ => δ
  | n + 1, B, δ => rnnErr a q z η θ n ((a * B + z) / (1 - q)) ((a * δ + η * (B + δ + (a * B + z) / (1 - q)) + θ) / (1 - q - η))

/-- `Twin r m' φ' m φ ρ β`: the network `m'` computes with rounding, `m` is the same network with exact arithmetic; they are made of
convolutions, poolings, delays, element-wise functions, recurrent layers, `Sequential` and sums of two branches (residual connections).  `φ'` and `φ` are
their stream functions; for inputs of size `B` with errors `δ`, `β B` is the size of the outputs and `ρ B δ` the bound on their
errors, which is computed from the network alone. -/
inductive Twin (r : Rounding F) : {ι κ : Type} → CoMod (.stream (Fl r ι)) (.stream (Fl r κ)) → (List (Fl r ι) → List (Fl r κ)) →
    CoMod (.stream (ι → F)) (.stream (κ → F)) → (List (ι → F) → List (κ → F)) → (F → F → F) → (F → F) → Prop where
  | conv {ι κ : Type} {c' : Conv.Cfg (Fl r ι) (Fl r κ)} {c : Conv.Cfg (ι → F) (κ → F)} {W η b : F} (h : RoundsConv r c' c W η b) :
      Twin r (Conv.mod c') (streamOut c'.K c'.S c'.P (c'.fill.make 0) (corrSeq c'.w c'.bias))
        (Conv.mod c) (streamOut c.K c.S c.P (c.fill.make 0) (corrSeq c.w c.bias))
        (convErr r.u c.K W η b) (fun B => c.K * (W * B) + b)
  | pool {ι κ : Type} {c' : Pool.Cfg (Fl r ι) (Fl r κ)} {c : Pool.Cfg (ι → F) (κ → F)} {ρ : F → F → F} {β : F → F}
      (h : RoundsPool r c' c ρ β) : Twin r (Pool.mod c') (Pool.phiAt c') (Pool.mod c) (Pool.phiAt c) ρ β
  | delay {ι : Type} {c' : Delay.Cfg (Fl r ι)} {c : Delay.Cfg (ι → F)} (hd : c'.d = c.d) (hs : c'.shrink = c.shrink) :
      Twin r (Delay.mod c') (delayed c'.d (delayLead c')) (Delay.mod c) (delayed c.d (delayLead c)) (fun _ δ => δ) id
  | map {ι κ : Type} {f' : Fl r ι → Fl r κ} {f : (ι → F) → κ → F} {L z η : F} (h : RoundsMap r f' f L z η) :
      Twin r (Pointwise.mod f') (List.map f') (Pointwise.mod f) (List.map f) (fun _ δ => L * δ + η) (fun B => L * B + z)
  | rnn {ι : Type} {c' : Rnn.Cfg (Fl r ι) (Fl r ι)} {c : Rnn.Cfg (ι → F) (ι → F)} {a q z η θ : F} (h : RoundsRnn r c' c a q z η θ) :
      Twin r (Rnn.mod c') (recur c'.layers (c'.layers.map fun _ => c'.zero)) (Rnn.mod c) (recur c.layers (c.layers.map fun _ => c.zero))
        (rnnErr a q z η θ c.layers.length) (rnnSize a q z c.layers.length)
  | single {ι κ : Type} {m' : CoMod (.stream (Fl r ι)) (.stream (Fl r κ))} {m : CoMod (.stream (ι → F)) (.stream (κ → F))} {φ' φ ρ β}
      (h : Twin r m' φ' m φ ρ β) : Twin r (Sequential.mod (.single m')) φ' (Sequential.mod (.single m)) φ ρ β
  | cons {ι κ μ : Type} {m' : CoMod (.stream (Fl r ι)) (.stream (Fl r κ))} {m : CoMod (.stream (ι → F)) (.stream (κ → F))}
      {c' : Chain (.stream (Fl r κ)) (.stream (Fl r μ))} {c : Chain (.stream (κ → F)) (.stream (μ → F))} {φ' φ ψ' ψ ρ β ρ₂ β₂}
      (h : Twin r m' φ' m φ ρ β) (h₂ : Twin r (Sequential.mod c') ψ' (Sequential.mod c) ψ ρ₂ β₂) :
      Twin r (Sequential.mod (.cons m' c')) (ψ' ∘ φ') (Sequential.mod (.cons m c)) (ψ ∘ φ)
        (fun B δ => ρ₂ (β B) (ρ B δ)) (fun B => β₂ (β B))
  | sum {ι κ : Type} {m' n' : CoMod (.stream (Fl r ι)) (.stream (Fl r κ))} {m n : CoMod (.stream (ι → F)) (.stream (κ → F))}
      {φ' φ ψ' ψ ρ β ρ₂ β₂} (h : Twin r m' φ' m φ ρ β) (h₂ : Twin r n' ψ' n ψ ρ₂ β₂)
      (hal' : ∀ xs, (φ' xs).length = (ψ' xs).length) (hal : ∀ xs, (φ xs).length = (ψ xs).length) :
      Twin r (BroadcastReduce.mod (foldReducer (· + ·)) [m', n']) (fun xs => List.zipWith (· + ·) (φ' xs) (ψ' xs))
        (BroadcastReduce.mod (foldReducer (· + ·)) [m, n]) (fun xs => List.zipWith (· + ·) (φ xs) (ψ xs))
        (fun B δ => ρ B δ + ρ₂ B δ + r.u * (β B + ρ B δ + (β₂ B + ρ₂ B δ))) (fun B => β B + β₂ B)

end Spec

open Spec

namespace RoundErr

/-! ### Sums -/

/-- `y` was computed for `x` by at most `n` roundings one after the other of sums of terms whose sizes add up to `A`. -/
def Acc (r : Rounding F) (n : Nat) (A y x : F) : Prop := |y - x| ≤ ((1 + r.u) ^ n - 1) * A ∧ |x| ≤ A

theorem one_le (r : Rounding F) (n : Nat) : 1 ≤ (1 + r.u) ^ n := one_le_pow₀ (by linarith [r.nonneg])

theorem acc_zero (r : Rounding F) (x : F) : Acc r 0 |x| x x := ⟨by simp, le_rfl⟩

theorem Acc.mono {r : Rounding F} {m n : Nat} {A B y x : F} (h : Acc r m A y x) (hn : m ≤ n) (hA : A ≤ B) : Acc r n B y x := by
  refine ⟨h.1.trans ?_, h.2.trans hA⟩
  have h0 : 0 ≤ A := (abs_nonneg x).trans h.2
  have h1 := one_le r m
  have h2 : (1 + r.u) ^ m ≤ (1 + r.u) ^ n := pow_le_pow_right₀ (by linarith [r.nonneg]) hn
  exact mul_le_mul (by linarith) hA h0 (by linarith)

theorem Acc.add {r : Rounding F} {n : Nat} {A B y x y' x' : F} (h : Acc r n A y x) (h' : Acc r n B y' x') :
    Acc r (n + 1) (A + B) (r.add y y') (x + x') := by
  obtain ⟨h1, h2⟩ := h
  obtain ⟨h3, h4⟩ := h'
  have hp := one_le r n
  set p := (1 + r.u) ^ n with hpd
  have h5 : |x + x'| ≤ A + B := (abs_add_le _ _).trans (by linarith)
  refine ⟨?_, h5⟩
  have h6 : |y + y' - (x + x')| ≤ (p - 1) * (A + B) := by
    have : y + y' - (x + x') = (y - x) + (y' - x') := by ring
    rw [this]
    exact (abs_add_le _ _).trans (by rw [mul_add]; linarith)
  have h7 : |y + y'| ≤ p * (A + B) := by
    have : y + y' = (x + x') + (y + y' - (x + x')) := by ring
    rw [this]
    exact (abs_add_le _ _).trans (by linarith)
  have h8 := r.err y y'
  have h9 : r.u * |y + y'| ≤ r.u * (p * (A + B)) := mul_le_mul_of_nonneg_left h7 r.nonneg
  have : r.add y y' - (x + x') = (r.add y y' - (y + y')) + (y + y' - (x + x')) := by ring
  rw [this, pow_succ, ← hpd]
  refine (abs_add_le _ _).trans ?_
  have e : (p * (1 + r.u) - 1) * (A + B) = r.u * (p * (A + B)) + (p - 1) * (A + B) := by ring
  rw [e]
  linarith

/-- The sum of a list, in a place. -/
theorem acc_sum {κ : Type} (r : Rounding F) (j : κ) {T : F} : ∀ (ts : List (Fl r κ)), (∀ t ∈ ts, |t.val j| ≤ T) →
    Acc r ts.length (ts.length * T) (ts.sum.val j) ((ts.map fun t => t.val j).sum)
  | [], _ => ⟨by show |(0 : F) - 0| ≤ _; simp, by simp⟩
  | t :: ts, h => by
    have ih := acc_sum r j ts fun t ht => h t (List.mem_cons_of_mem _ ht)
    have h0 := (acc_zero r (t.val j)).mono (Nat.zero_le ts.length) (h t (List.mem_cons_self ..))
    have := h0.add ih
    have e : ((t :: ts).length : F) * T = T + ts.length * T := by rw [List.length_cons]; push_cast; ring
    rw [List.sum_cons, List.map_cons, List.sum_cons, e]
    exact this

/-! ### One output of a convolution -/

theorem _root_.CoInf.Spec.Both.within {ι : Type} {r : Rounding F} {B δ : F} {y : Fl r ι} {x : ι → F} (h : Both δ B y x) : Within (B + δ) y.val := by
  intro i
  have : y.val i = x i + (y.val i - x i) := by ring
  rw [this]
  exact (abs_add_le _ _).trans (add_le_add (h.2 i) (h.1 i))

theorem sum_close {e : F} : ∀ {l' l : List F}, List.Forall₂ (fun a' a => |a' - a| ≤ e) l' l → |l'.sum - l.sum| ≤ l.length * e
  | _, _, .nil => by simp
  | _, _, .cons (a := a') (b := a) (l₁ := l') (l₂ := l) h t => by
    have ih := sum_close t
    have : (a' :: l').sum - (a :: l).sum = (a' - a) + (l'.sum - l.sum) := by simp only [List.sum_cons]; ring
    rw [this, List.length_cons]
    refine (abs_add_le _ _).trans ?_
    push_cast
    linarith

theorem sum_size {e : F} : ∀ {l : List F}, (∀ a ∈ l, |a| ≤ e) → |l.sum| ≤ l.length * e
  | [], _ => by simp
  | a :: l, h => by
    have ih := sum_size (l := l) fun a ha => h a (List.mem_cons_of_mem _ ha)
    have h0 := h a (List.mem_cons_self ..)
    rw [List.sum_cons, List.length_cons]
    refine (abs_add_le _ _).trans ?_
    push_cast
    linarith

theorem mapIdx_rel {α β γ δ : Type} {R : α → β → Prop} {S : γ → δ → Prop} : ∀ {l' : List α} {l : List β} (f' : Nat → α → γ)
    (f : Nat → β → δ), List.Forall₂ R l' l → (∀ k a b, R a b → S (f' k a) (f k b)) → List.Forall₂ S (l'.mapIdx f') (l.mapIdx f)
  | _, _, _, _, .nil, _ => .nil
  | _, _, f', f, .cons h t, H => by
    rw [List.mapIdx_cons, List.mapIdx_cons]
    exact .cons (H 0 _ _ h) (mapIdx_rel _ _ t fun k a b hab => H (k + 1) a b hab)

theorem sum_place {κ : Type} (j : κ) : ∀ l : List (κ → F), l.sum j = (l.map fun t => t j).sum
  | [] => rfl
  | t :: l => by rw [List.sum_cons, List.map_cons, List.sum_cons, ← sum_place j l]; rfl

section
variable {ι κ : Type} {r : Rounding F} {c' : Conv.Cfg (Fl r ι) (Fl r κ)} {c : Conv.Cfg (ι → F) (κ → F)} {W η b : F}

theorem tap (h : RoundsConv r c' c W η b) {B δ : F} (k : Nat) {y : Fl r ι} {x : ι → F} (hb : Both δ B y x) :
    Close (η * (B + δ) + W * δ) (c'.w k y).val (c.w k x) ∧ Within ((W + η) * (B + δ)) (c'.w k y).val ∧ Within (W * B) (c.w k x) := by
  have size : ∀ (z : ι → F) A, Within A z → Within (W * A) (c.w k z) := by
    intro z A hz j
    have := h.lip k 0 z A (fun i => by simpa using hz i) j
    rw [h.zero] at this
    simpa using this
  have h1 := h.err k y (B + δ) hb.within
  refine ⟨fun j => ?_, fun j => ?_, size x B hb.2⟩
  · have e : (c'.w k y).val j - c.w k x j = ((c'.w k y).val j - c.w k y.val j) + (c.w k y.val j - c.w k x j) := by ring
    rw [e]
    exact (abs_add_le _ _).trans (add_le_add (h1 j) (h.lip k x y.val δ hb.1 j))
  · have e : (c'.w k y).val j = c.w k y.val j + ((c'.w k y).val j - c.w k y.val j) := by ring
    rw [e, add_mul]
    exact (abs_add_le _ _).trans (add_le_add (size y.val _ hb.within j) (h1 j))

/-- One output of a convolution. -/
theorem conv_both (h : RoundsConv r c' c W η b) {B δ : F} (hB : 0 ≤ B) (hδ : 0 ≤ δ) {w' : List (Fl r ι)} {w : List (ι → F)}
    (hl : w.length = c.K) (hw : List.Forall₂ (Both δ B) w' w) :
    Both (convErr r.u c.K W η b B δ) (c.K * (W * B) + b) (corrSeq c'.w c'.bias w') (corrSeq c.w c.bias w) := by
  have hK := h.K_pos
  have hne : w ≠ [] := by rintro rfl; simp at hl; omega
  have hl' : w'.length = c.K := by rw [hw.length_eq, hl]
  have hne' : w' ≠ [] := by rintro rfl; simp at hl'; omega
  obtain ⟨p, a, rfl⟩ : ∃ p a, w = p ++ [a] := ⟨_, _, (List.dropLast_append_getLast hne).symm⟩
  obtain ⟨p', a', rfl⟩ : ∃ p' a', w' = p' ++ [a'] := ⟨_, _, (List.dropLast_append_getLast hne').symm⟩
  have hlp : p.length + 1 = c.K := by simpa using hl
  have hlp' : p'.length + 1 = c.K := by simpa using hl'
  have hp : List.Forall₂ (Both δ B) p' p := by
    have := List.forall₂_take p.length hw
    rwa [List.take_left', List.take_left'] at this
    · rfl
    · omega
  have ha : Both δ B a' a := by
    have := List.forall₂_drop p.length hw
    rw [List.drop_left', List.drop_left'] at this
    · cases this with
      | cons h _ => exact h
    · rfl
    · omega
  set T := (W + η) * (B + δ) with hT
  set e := η * (B + δ) + W * δ with he
  have hterm := mapIdx_rel (S := fun y x => Close e y.val x ∧ Within T y.val ∧ Within (W * B) x) c'.w c.w hp
    fun k _ _ hb => tap h k hb
  have hlast := tap h (c.K - 1) ha
  have hTn : 0 ≤ T := mul_nonneg (by linarith [h.W_nonneg, h.η_nonneg]) (by linarith)
  have hcast : (c.K : F) = p.length + 1 := by rw [← hlp]; push_cast; ring
  set ts' := p'.mapIdx c'.w with hts'
  set ts := p.mapIdx c.w with hts
  have hlt' : ts'.length = p.length := by rw [hts', List.length_mapIdx]; omega
  have hlt : ts.length = p.length := by rw [hts, List.length_mapIdx]
  have main : ∀ j, Acc r c.K (c.K * T) ((c'.w (c.K - 1) a' + ts'.sum).val j) ((c'.w (c.K - 1) a').val j + (ts'.map fun t => t.val j).sum) ∧
      |(c'.w (c.K - 1) a').val j + (ts'.map fun t => t.val j).sum - (c.w (c.K - 1) a + ts.sum) j| ≤ c.K * e ∧
      |(c.w (c.K - 1) a + ts.sum) j| ≤ c.K * (W * B) := by
    intro j
    refine ⟨?_, ?_, ?_⟩
    · have s1 := acc_sum r j (T := T) ts' fun t ht => by
        obtain ⟨k, hk, rfl⟩ := List.getElem_of_mem ht
        exact ((List.forall₂_iff_get.1 hterm).2 k hk (by rw [hlt]; omega)).2.1 j
      have s2 := ((acc_zero r ((c'.w (c.K - 1) a').val j)).mono (Nat.zero_le ts'.length) (hlast.2.1 j)).add s1
      rw [hlt', hlp] at s2
      rw [hcast, show ((p.length : F) + 1) * T = T + p.length * T by ring]
      exact s2
    · have s1 : List.Forall₂ (fun a' a => |a' - a| ≤ e) (ts'.map fun t => t.val j) (ts.map fun t => t j) := by
        rw [List.forall₂_map_left_iff, List.forall₂_map_right_iff]
        exact hterm.imp fun _ _ h => h.1 j
      have s2 := sum_close s1
      rw [List.length_map, hlt, ← sum_place j ts] at s2
      have s3 := hlast.1 j
      have : (c'.w (c.K - 1) a').val j + (ts'.map fun t => t.val j).sum - (c.w (c.K - 1) a + ts.sum) j =
          ((c'.w (c.K - 1) a').val j - c.w (c.K - 1) a j) + ((ts'.map fun t => t.val j).sum - ts.sum j) := by
        rw [Pi.add_apply]; ring
      rw [this, hcast]
      refine (abs_add_le _ _).trans ?_
      linarith
    · have s1 := sum_size (e := W * B) (l := ts.map fun t => t j) fun z hz => by
        obtain ⟨t, ht, rfl⟩ := List.mem_map.1 hz
        obtain ⟨k, hk, rfl⟩ := List.getElem_of_mem ht
        exact ((List.forall₂_iff_get.1 hterm).2 k (by rw [hlt']; omega) hk).2.2 j
      rw [List.length_map, hlt, ← sum_place j ts] at s1
      rw [Pi.add_apply, hcast]
      refine (abs_add_le _ _).trans ?_
      have := hlast.2.2 j
      linarith
  have hp1 := one_le r (c.K + 1)
  unfold corrSeq
  simp only [List.getLast?_concat, List.dropLast_concat, List.length_append, List.length_singleton, Nat.add_sub_cancel,
    ← hts, ← hts', h.bias]
  have e1 : p.length = c.K - 1 := by omega
  have e2 : p'.length = c.K - 1 := by omega
  rw [e1, e2]
  have hn : 0 ≤ (c.K : F) * T := mul_nonneg (Nat.cast_nonneg _) hTn
  cases hbias : c.bias with
  | none =>
    refine ⟨fun j => ?_, fun j => ?_⟩
    · obtain ⟨m1, m2, _⟩ := main j
      have m3 := (m1.mono (Nat.le_succ c.K) (show (c.K : F) * T ≤ c.K * T + b by linarith [h.b_nonneg])).1
      have : (c'.w (c.K - 1) a' + ts'.sum).val j - (c.w (c.K - 1) a + ts.sum) j =
          ((c'.w (c.K - 1) a' + ts'.sum).val j - ((c'.w (c.K - 1) a').val j + (ts'.map fun t => t.val j).sum)) +
          ((c'.w (c.K - 1) a').val j + (ts'.map fun t => t.val j).sum - (c.w (c.K - 1) a + ts.sum) j) := by ring
      show |(c'.w (c.K - 1) a' + ts'.sum).val j - (c.w (c.K - 1) a + ts.sum) j| ≤ _
      rw [this]
      refine (abs_add_le _ _).trans ?_
      show _ ≤ (c.K : F) * e + ((1 + r.u) ^ (c.K + 1) - 1) * (c.K * T + b)
      rw [Nat.succ_eq_add_one] at m3
      linarith
    · exact (main j).2.2.trans (by linarith [h.b_nonneg])
  | some v =>
    refine ⟨fun j => ?_, fun j => ?_⟩
    · obtain ⟨m1, m2, _⟩ := main j
      have hv := h.size v (by rw [hbias]; rfl) j
      have m3 := (m1.add ((acc_zero r (v j)).mono (Nat.zero_le c.K) hv)).1
      show |r.add ((c'.w (c.K - 1) a' + ts'.sum).val j) (v j) - ((c.w (c.K - 1) a + ts.sum) j + v j)| ≤ _
      have : r.add ((c'.w (c.K - 1) a' + ts'.sum).val j) (v j) - ((c.w (c.K - 1) a + ts.sum) j + v j) =
          (r.add ((c'.w (c.K - 1) a' + ts'.sum).val j) (v j) -
            ((c'.w (c.K - 1) a').val j + (ts'.map fun t => t.val j).sum + v j)) +
          ((c'.w (c.K - 1) a').val j + (ts'.map fun t => t.val j).sum - (c.w (c.K - 1) a + ts.sum) j) := by ring
      rw [this]
      refine (abs_add_le _ _).trans ?_
      show _ ≤ (c.K : F) * e + ((1 + r.u) ^ (c.K + 1) - 1) * (c.K * T + b)
      linarith
    · have hv := h.size v (by rw [hbias]; rfl) j
      show |(c.w (c.K - 1) a + ts.sum) j + v j| ≤ _
      exact (abs_add_le _ _).trans (add_le_add (main j).2.2 hv)

end

/-! ### Streams -/

theorem window_length {K S L j : Nat} (h : j < windowCount K S L) {X : Type} {zs : List X} (hz : zs.length = L) :
    ((zs.drop (j * S)).take K).length = K := by
  unfold windowCount at h
  split at h
  · omega
  · rw [List.length_take, List.length_drop, hz]
    have h1 : j ≤ (L - K) / S := by omega
    have h2 := Nat.mul_le_mul_right S h1
    have h3 := Nat.div_mul_le_self (L - K) S
    omega

theorem slide_rel {X X' Y Y' : Type} {R : X' → X → Prop} {Q : Y' → Y → Prop} (K S : Nat) {f' : List X' → Y'} {f : List X → Y}
    {zs' : List X'} {zs : List X} (h : List.Forall₂ R zs' zs)
    (H : ∀ w' w, w.length = K → List.Forall₂ R w' w → Q (f' w') (f w)) : List.Forall₂ Q (slide K S f' zs') (slide K S f zs) := by
  unfold slide
  rw [h.length_eq, List.forall₂_map_left_iff, List.forall₂_map_right_iff]
  refine List.forall₂_same.2 fun j hj => ?_
  exact H _ _ (window_length (List.mem_range.1 hj) rfl) (List.forall₂_take _ (List.forall₂_drop _ h))

theorem pad_rel {X X' : Type} {R : X' → X → Prop} (P : Nat) {g' : X' → X'} {g : X → X} (hg : ∀ y x, R y x → R (g' y) (g x)) :
    ∀ {zs' : List X'} {zs : List X}, List.Forall₂ R zs' zs → List.Forall₂ R (padStart P g' zs') (padStart P g zs)
  | _, _, .nil => .nil
  | _, _, .cons h t => List.rel_append (List.forall₂_iff_get.2 ⟨by simp, fun i _ _ => by simpa using hg _ _ h⟩) (.cons h t)

/-- The stream function `φ'` follows `φ`: for inputs of size `B` with errors `δ`, the outputs are of size `β B` and have errors of at most
`ρ B δ`. -/
def Follows {ι κ : Type} {r : Rounding F} (φ' : List (Fl r ι) → List (Fl r κ)) (φ : List (ι → F) → List (κ → F)) (ρ : F → F → F)
    (β : F → F) : Prop :=
  ∀ B δ, 0 ≤ B → 0 ≤ δ → 0 ≤ β B ∧ 0 ≤ ρ B δ ∧ ∀ ys xs, List.Forall₂ (Both δ B) ys xs →
    List.Forall₂ (Both (ρ B δ) (β B)) (φ' ys) (φ xs)

theorem make_rel {ι : Type} {r : Rounding F} {B δ : F} (hB : 0 ≤ B) (hδ : 0 ≤ δ) (f : Fill) (y : Fl r ι) (x : ι → F)
    (h : Both δ B y x) : Both δ B (f.make 0 y) (f.make 0 x) := by
  cases f with
  | zeros => exact ⟨fun i => by show |(0 : F) - 0| ≤ δ; simpa using hδ, fun i => by show |(0 : F)| ≤ B; simpa using hB⟩
  | replicate => exact h

section
variable {ι κ : Type} {r : Rounding F} {c' : Conv.Cfg (Fl r ι) (Fl r κ)} {c : Conv.Cfg (ι → F) (κ → F)} {W η b : F}

theorem convErr_nonneg (h : RoundsConv r c' c W η b) {B δ : F} (hB : 0 ≤ B) (hδ : 0 ≤ δ) : 0 ≤ convErr r.u c.K W η b B δ := by
  have h1 := one_le r (c.K + 1)
  have h2 := h.W_nonneg
  have h3 := h.η_nonneg
  have h4 := h.b_nonneg
  have h5 : (0 : F) ≤ c.K := Nat.cast_nonneg _
  have h6 : 0 ≤ (1 + r.u) ^ (c.K + 1) - 1 := by linarith
  unfold convErr
  positivity

theorem conv_follows (h : RoundsConv r c' c W η b) :
    Follows (streamOut c'.K c'.S c'.P (c'.fill.make 0) (corrSeq c'.w c'.bias)) (streamOut c.K c.S c.P (c.fill.make 0) (corrSeq c.w c.bias))
      (convErr r.u c.K W η b) (fun B => c.K * (W * B) + b) := by
  intro B δ hB hδ
  refine ⟨?_, convErr_nonneg h hB hδ, fun ys xs hx => ?_⟩
  · have h2 := h.W_nonneg
    have h4 := h.b_nonneg
    positivity
  · rw [h.K, h.S, h.P, h.fill]
    exact slide_rel _ _ (pad_rel _ (fun y x hb => make_rel hB hδ c.fill y x hb) hx) fun w' w hl hw => conv_both h hB hδ hl hw

end

theorem rotate_rel {X X' : Type} {R : X' → X → Prop} {zs' : List X'} {zs : List X} (h : List.Forall₂ R zs' zs) (n : Nat) :
    List.Forall₂ R (zs'.rotate n) (zs.rotate n) := by
  rw [List.rotate_eq_drop_append_take_mod, List.rotate_eq_drop_append_take_mod, h.length_eq]
  exact List.rel_append (List.forall₂_drop _ h) (List.forall₂_take _ h)

theorem replicate_rel {X X' : Type} {R : X' → X → Prop} (n : Nat) {y : X'} {x : X} (h : R y x) :
    List.Forall₂ R (List.replicate n y) (List.replicate n x) :=
  List.forall₂_iff_get.2 ⟨by simp, fun i _ _ => by simpa using h⟩

section
variable {ι κ : Type} {r : Rounding F} {c' : Pool.Cfg (Fl r ι) (Fl r κ)} {c : Pool.Cfg (ι → F) (κ → F)} {ρ : F → F → F} {β : F → F}

theorem pool_out (h : RoundsPool r c' c ρ β) {B δ : F} (hB : 0 ≤ B) (hδ : 0 ≤ δ) {ys : List (Fl r ι)} {xs : List (ι → F)}
    (hx : List.Forall₂ (Both δ B) ys xs) : List.Forall₂ (Both (ρ B δ) (β B)) (Pool.outAt c' ys) (Pool.outAt c xs) := by
  cases hx with
  | nil => exact .nil
  | @cons y x ys xs h1 h2 =>
    have hl : (y :: ys).length = (x :: xs).length := by simp [h2.length_eq]
    unfold Pool.outAt
    simp only [List.head?_cons, hl, h.K, h.S, h.P]
    split
    · refine .cons ?_ .nil
      unfold Pool.turned
      rw [← List.map_rotate, ← List.map_rotate]
      refine h.window B δ hB hδ _ _ ?_ (rotate_rel ?_ _)
      · rw [List.length_rotate, lastN_length _ _ (by simp)]
      · have hrel : List.Forall₂ (Both δ B) (List.replicate c.K (c'.fillIn y) ++ y :: ys) (List.replicate c.K (c.fillIn x) ++ x :: xs) :=
          List.rel_append (replicate_rel _ (h.fills B δ hB hδ _ _ h1)) (.cons h1 h2)
        unfold lastN
        rw [hrel.length_eq]
        exact List.forall₂_drop _ hrel
    · exact .nil

theorem pool_follows (h : RoundsPool r c' c ρ β) : Follows (Pool.phiAt c') (Pool.phiAt c) ρ β := by
  intro B δ hB hδ
  refine ⟨(h.nonneg B δ hB hδ).1, (h.nonneg B δ hB hδ).2, fun ys xs hx => ?_⟩
  unfold Pool.phiAt
  rw [hx.length_eq]
  generalize List.range xs.length = ns
  induction ns with
  | nil => exact .nil
  | cons n ns ih => exact List.rel_append (pool_out h hB hδ (List.forall₂_take _ hx)) ih

end

theorem zip_rel {κ : Type} {r : Rounding F} {e₁ e₂ A₁ A₂ : F} : ∀ {as' bs' : List (Fl r κ)} {as bs : List (κ → F)},
    List.Forall₂ (Both e₁ A₁) as' as → List.Forall₂ (Both e₂ A₂) bs' bs →
    List.Forall₂ (Both (e₁ + e₂ + r.u * (A₁ + e₁ + (A₂ + e₂))) (A₁ + A₂)) (List.zipWith (· + ·) as' bs') (List.zipWith (· + ·) as bs)
  | _, _, _, _, .nil, _ => .nil
  | _, _, _, _, .cons .., .nil => .nil
  | _, _, _, _, .cons (a := a') (b := a) h t, .cons (a := b') (b := b) h' t' => by
    refine .cons ⟨fun j => ?_, fun j => ?_⟩ (zip_rel t t')
    · show |r.add (a'.val j) (b'.val j) - (a j + b j)| ≤ _
      have e : r.add (a'.val j) (b'.val j) - (a j + b j) = (r.add (a'.val j) (b'.val j) - (a'.val j + b'.val j)) +
          ((a'.val j - a j) + (b'.val j - b j)) := by ring
      rw [e]
      have h1 := r.err (a'.val j) (b'.val j)
      have h2 : |a'.val j + b'.val j| ≤ A₁ + e₁ + (A₂ + e₂) := (abs_add_le _ _).trans (add_le_add (h.within j) (h'.within j))
      have h3 := mul_le_mul_of_nonneg_left h2 r.nonneg
      have h4 := h.1 j
      have h5 := h'.1 j
      refine (abs_add_le _ _).trans ?_
      have h6 := abs_add_le (a'.val j - a j) (b'.val j - b j)
      linarith
    · exact (abs_add_le _ _).trans (add_le_add (h.2 j) (h'.2 j))

theorem zipReduce_two {Y : Type} (op : Y → Y → Y) (d : Y) (as bs : List Y) (h : as.length = bs.length) :
    zipReduce (foldFrame op d) [as, bs] = List.zipWith op as bs := by
  unfold zipReduce
  refine List.ext_getElem (by simp [h]) fun t h1 h2 => ?_
  have ha : t < as.length := by simpa using h1
  have hb : t < bs.length := by omega
  simp [atTime, foldFrame, List.getElem?_eq_getElem ha, List.getElem?_eq_getElem hb]

theorem sum_implements {X Y : Type} [Add Y] (d : Y) {m n : CoMod (.stream X) (.stream Y)} {φ ψ : List X → List Y} (h : Implements m φ)
    (h' : Implements n ψ) (hal : ∀ xs, (φ xs).length = (ψ xs).length) :
    Implements (BroadcastReduce.mod (foldReducer (· + ·)) [m, n]) fun xs => List.zipWith (· + ·) (φ xs) (ψ xs) := by
  have S := BroadcastReduce.simRel (r := foldReducer (· + ·)) (f := foldFrame (· + ·) d) (ms := [m, n]) (φs := [φ, ψ]) (by simp)
    (.cons h (.cons h' .nil)) (by
      intro a ha b hb xs
      simp only [List.mem_cons, List.not_mem_nil, or_false] at ha hb
      rcases ha with rfl | rfl <;> rcases hb with rfl | rfl <;> simp [hal]) (foldReducer_lawful _ d 2 le_rfl)
  have e : BroadcastReduce.phi (foldFrame (· + ·) d) [φ, ψ] = fun xs => List.zipWith (· + ·) (φ xs) (ψ xs) := by
    funext xs
    exact zipReduce_two _ d _ _ (hal xs)
  rw [e] at S
  exact ⟨_, S⟩

/-! ### Recurrent layers -/

section
variable {ι : Type} {r : Rounding F} {a q z η θ : F}

theorem layer_both {f' : Rnn.Cell (Fl r ι) (Fl r ι)} {f : Rnn.Cell (ι → F) (ι → F)} (h : RoundsCell r f' f a q z η θ) (hη : 0 ≤ η)
    (hq : q + η < 1) {B δ A D : F} (hA : A = (a * B + z) / (1 - q)) (hD : D = (a * δ + η * (B + δ + A) + θ) / (1 - q - η))
    {ys : List (Fl r ι)} {xs : List (ι → F)} (hx : List.Forall₂ (Both δ B) ys xs) :
    ∀ (t : Fl r ι) (s : ι → F), Both D A t s → List.Forall₂ (Both D A) (Rnn.layer f' t ys).1 (Rnn.layer f s xs).1 := by
  have e1 : a * δ + q * D + (η * (B + δ + (A + D)) + θ) = D := by
    have : 1 - q - η ≠ 0 := by linarith
    have : D * (1 - q - η) = a * δ + η * (B + δ + A) + θ := by rw [hD, div_mul_cancel₀ _ this]
    linarith
  have e2 : a * B + q * A + z = A := by
    have : 1 - q ≠ 0 := by linarith
    have : A * (1 - q) = a * B + z := by rw [hA, div_mul_cancel₀ _ this]
    linarith
  clear hA hD
  induction hx with
  | nil => exact fun _ _ _ => .nil
  | @cons y x ys xs h1 _ ih =>
    intro t s hts
    rw [Rnn.layer_cons, Rnn.layer_cons]
    have k : Both D A (f' y t).1 (f x s).1 := by
      refine ⟨fun j => ?_, fun j => ?_⟩
      · have k1 := h.lip x y.val s t.val δ _ h1.1 hts.1 j
        have k2 := h.err y t _ _ h1.within hts.within j
        have e : (f' y t).1.val j - (f x s).1 j = ((f y.val t.val).1 j - (f x s).1 j) + ((f' y t).1.val j - (f y.val t.val).1 j) := by ring
        rw [e, ← e1]
        exact (abs_add_le _ _).trans (add_le_add k1 k2)
      · have k1 := h.lip 0 x 0 s B _ (fun i => by simpa using h1.2 i) (fun i => by simpa using hts.2 i) j
        have e : (f x s).1 j = ((f x s).1 j - (f 0 0).1 j) + (f 0 0).1 j := by ring
        rw [e, ← e2]
        exact (abs_add_le _ _).trans (add_le_add k1 (h.zero j))
    refine .cons k (ih _ _ ?_)
    rw [← h.out, ← h.out']
    exact k

theorem stack_both (ha : 0 ≤ a) (hq : q + η < 1) (hz : 0 ≤ z) (hη : 0 ≤ η) (hθ : 0 ≤ θ) {fs' : List (Rnn.Cell (Fl r ι) (Fl r ι))}
    {fs : List (Rnn.Cell (ι → F) (ι → F))} (h : List.Forall₂ (fun f' f => RoundsCell r f' f a q z η θ) fs' fs) :
    ∀ {B δ : F}, 0 ≤ B → 0 ≤ δ → 0 ≤ rnnSize a q z fs.length B ∧ 0 ≤ rnnErr a q z η θ fs.length B δ ∧
      ∀ {ys : List (Fl r ι)} {xs : List (ι → F)}, List.Forall₂ (Both δ B) ys xs →
      List.Forall₂ (Both (rnnErr a q z η θ fs.length B δ) (rnnSize a q z fs.length B))
        (Rnn.stack fs' (fs'.map fun _ => 0) ys).1 (Rnn.stack fs (fs.map fun _ => 0) xs).1 := by
  have hq1 : 0 ≤ 1 - q := by linarith
  have hq2 : 0 ≤ 1 - q - η := by linarith
  induction h with
  | nil => exact fun hB hδ => ⟨hB, hδ, fun hx => hx⟩
  | cons h1 _ ih =>
    intro B δ hB hδ
    have hA : 0 ≤ (a * B + z) / (1 - q) := div_nonneg (by positivity) hq1
    have hD : 0 ≤ (a * δ + η * (B + δ + (a * B + z) / (1 - q)) + θ) / (1 - q - η) := div_nonneg (by positivity) hq2
    obtain ⟨i1, i2, i3⟩ := ih hA hD
    refine ⟨i1, i2, fun hx => ?_⟩
    rw [List.map_cons, List.map_cons, Rnn.stack_cons, Rnn.stack_cons]
    exact i3 (layer_both h1 hη hq rfl rfl hx 0 0
      ⟨fun i => by show |(0 : F) - 0| ≤ _; simpa using hD, fun i => by show |(0 : F)| ≤ _; simpa using hA⟩)

theorem rnn_follows {c' : Rnn.Cfg (Fl r ι) (Fl r ι)} {c : Rnn.Cfg (ι → F) (ι → F)} (h : RoundsRnn r c' c a q z η θ) :
    Follows (recur c'.layers (c'.layers.map fun _ => c'.zero)) (recur c.layers (c.layers.map fun _ => c.zero))
      (rnnErr a q z η θ c.layers.length) (rnnSize a q z c.layers.length) := by
  intro B δ hB hδ
  obtain ⟨h1, h2, h3⟩ := stack_both h.a_nonneg h.q_lt h.z_nonneg h.η_nonneg h.θ_nonneg h.layers hB hδ
  refine ⟨h1, h2, fun ys xs hx => ?_⟩
  have := h3 hx
  rw [h.start, h.start']
  rwa [Rnn.stack_eq _ _ _ (by simp), Rnn.stack_eq _ _ _ (by simp)] at this

end

/-! ### Networks -/

theorem twin_facts {r : Rounding F} {ι κ : Type} {m' : CoMod (.stream (Fl r ι)) (.stream (Fl r κ))}
    {m : CoMod (.stream (ι → F)) (.stream (κ → F))} {φ' φ ρ β} (h : Twin r m' φ' m φ ρ β) :
    Implements m' φ' ∧ Implements m φ ∧ Follows φ' φ ρ β := by
  induction h with
  | conv h =>
    refine ⟨(net_facts (k := ⟨false, 0⟩) (.convRound _ ⟨?_, ?_, ?_, ?_, h.zero', rfl⟩)).impl,
      (net_facts (k := ⟨false, 0⟩) (.convRound _ ⟨h.K_pos, h.S_pos, h.P_lt, h.K1, h.zero, rfl⟩)).impl, conv_follows h⟩
    · rw [h.K]; exact h.K_pos
    · rw [h.S]; exact h.S_pos
    · rw [h.K, h.P]; exact h.P_lt
    · rw [h.K, h.S]; exact h.K1
  | pool h =>
    exact ⟨⟨_, Pool.simAny _ ⟨by rw [h.K]; exact h.K_pos, by rw [h.S]; exact h.S_pos, by rw [h.K, h.P]; exact h.P_lt, h.dil', h.fill'⟩⟩,
      ⟨_, Pool.simAny _ ⟨h.K_pos, h.S_pos, h.P_lt, h.dil, h.fill⟩⟩, pool_follows h⟩
  | delay hd hs =>
    refine ⟨(net_facts (k := ⟨false, 0⟩) (.delay _ (by simp))).impl, (net_facts (k := ⟨false, 0⟩) (.delay _ (by simp))).impl, ?_⟩
    intro B δ hB hδ
    refine ⟨hB, hδ, fun ys xs hx => ?_⟩
    unfold delayed delayLead
    rw [hd, hs, hx.length_eq]
    exact List.forall₂_drop _ (List.forall₂_take _ hx)
  | @map ι κ f' f L z η h =>
    refine ⟨(net_facts (k := ⟨false, 0⟩) (.pointwise _)).impl, (net_facts (k := ⟨false, 0⟩) (.pointwise _)).impl, ?_⟩
    intro B δ hB hδ
    have := h.L_nonneg
    have := h.z_nonneg
    have := h.η_nonneg
    refine ⟨by positivity, by positivity, fun ys xs hx => ?_⟩
    rw [List.forall₂_map_left_iff, List.forall₂_map_right_iff]
    refine hx.imp fun y x hb => ⟨fun j => ?_, fun j => ?_⟩
    · have e : (f' y).val j - f x j = (f y.val j - f x j) + ((f' y).val j - f y.val j) := by ring
      rw [e]
      exact (abs_add_le _ _).trans (add_le_add (h.lip x y.val δ hb.1 j) (h.err y j))
    · have e : f x j = (f x j - f 0 j) + f 0 j := by ring
      rw [e]
      exact (abs_add_le _ _).trans (add_le_add (h.lip 0 x B (fun i => by simpa using hb.2 i) j) (h.zero j))
  | rnn h => exact ⟨⟨_, Rnn.simRel _⟩, ⟨_, Rnn.simRel _⟩, rnn_follows h⟩
  | single _ ih =>
    obtain ⟨⟨_, a⟩, ⟨_, b⟩, c⟩ := ih
    exact ⟨⟨_, Sequential.simRel_single a⟩, ⟨_, Sequential.simRel_single b⟩, c⟩
  | cons _ _ ih ih₂ =>
    obtain ⟨⟨_, a⟩, ⟨_, b⟩, c⟩ := ih
    obtain ⟨⟨_, a₂⟩, ⟨_, b₂⟩, c₂⟩ := ih₂
    refine ⟨⟨_, Sequential.simRel_cons a a₂⟩, ⟨_, Sequential.simRel_cons b b₂⟩, fun B δ hB hδ => ?_⟩
    obtain ⟨k1, k2, k3⟩ := c B δ hB hδ
    obtain ⟨k4, k5, k6⟩ := c₂ _ _ k1 k2
    exact ⟨k4, k5, fun ys xs hx => k6 _ _ (k3 ys xs hx)⟩
  | sum _ _ hal' hal ih ih₂ =>
    obtain ⟨a, b, c⟩ := ih
    obtain ⟨a₂, b₂, c₂⟩ := ih₂
    refine ⟨sum_implements 0 a a₂ hal', sum_implements 0 b b₂ hal, fun B δ hB hδ => ?_⟩
    obtain ⟨k1, k2, k3⟩ := c B δ hB hδ
    obtain ⟨k4, k5, k6⟩ := c₂ B δ hB hδ
    have := r.nonneg
    exact ⟨by positivity, by positivity, fun ys xs hx => zip_rel (k3 ys xs hx) (k6 ys xs hx)⟩

/-! ### `forward` of a convolution -/

section
variable {ι κ : Type} {r : Rounding F} {c' : Conv.Cfg (Fl r ι) (Fl r κ)} {c : Conv.Cfg (ι → F) (κ → F)} {W η b : F}

theorem bias_close (h : RoundsConv r c' c W η b) {e T : F} (hT : 0 ≤ T) {ts' : List (Fl r κ)} {ts : List (κ → F)}
    (ht : List.Forall₂ (fun y x => Close e y.val x ∧ Within T y.val) ts' ts) (hl : ts.length = c.K) :
    Close (c.K * e + ((1 + r.u) ^ (c.K + 1) - 1) * (c.K * T + b)) (Conv.addBias c' ts'.sum).val (Conv.addBias c ts.sum) := by
  intro j
  have hl' : ts'.length = c.K := by rw [ht.length_eq, hl]
  have s1 := acc_sum r j (T := T) ts' fun t hm => by
    obtain ⟨k, hk, rfl⟩ := List.getElem_of_mem hm
    exact ((List.forall₂_iff_get.1 ht).2 k hk (by omega)).2 j
  have s2 := sum_close (e := e) (l' := ts'.map fun t => t.val j) (l := ts.map fun t => t j) (by
    rw [List.forall₂_map_left_iff, List.forall₂_map_right_iff]
    exact ht.imp fun _ _ h => h.1 j)
  rw [List.length_map, hl, ← sum_place j ts] at s2
  rw [hl'] at s1
  have hn : 0 ≤ (c.K : F) * T := mul_nonneg (Nat.cast_nonneg _) hT
  unfold Conv.addBias
  rw [h.bias]
  cases hbias : c.bias with
  | none =>
    have m3 := (s1.mono (Nat.le_add_right c.K 1) (show (c.K : F) * T ≤ c.K * T + b by linarith [h.b_nonneg])).1
    show |ts'.sum.val j - ts.sum j| ≤ _
    have e : ts'.sum.val j - ts.sum j = (ts'.sum.val j - (ts'.map fun t => t.val j).sum) + ((ts'.map fun t => t.val j).sum - ts.sum j) := by
      ring
    rw [e]
    refine (abs_add_le _ _).trans ?_
    linarith
  | some v =>
    have m3 := (s1.add ((acc_zero r (v j)).mono (Nat.zero_le c.K) (h.size v (by rw [hbias]; rfl) j))).1
    show |r.add (ts'.sum.val j) (v j) - (ts.sum j + v j)| ≤ _
    have e : r.add (ts'.sum.val j) (v j) - (ts.sum j + v j) = (r.add (ts'.sum.val j) (v j) - ((ts'.map fun t => t.val j).sum + v j)) +
        ((ts'.map fun t => t.val j).sum - ts.sum j) := by ring
    rw [e]
    refine (abs_add_le _ _).trans ?_
    linarith

theorem bias_size (h : RoundsConv r c' c W η b) {T : F} {ts : List (κ → F)} (ht : ∀ t ∈ ts, Within T t) (hl : ts.length = c.K) :
    Within (c.K * T + b) (Conv.addBias c ts.sum) := by
  intro j
  have s1 := sum_size (e := T) (l := ts.map fun t => t j) fun z hz => by
    obtain ⟨t, ht', rfl⟩ := List.mem_map.1 hz
    exact ht t ht' j
  rw [List.length_map, hl, ← sum_place j ts] at s1
  unfold Conv.addBias
  cases hbias : c.bias with
  | none => exact s1.trans (by linarith [h.b_nonneg])
  | some v => exact (abs_add_le _ _).trans (add_le_add s1 (h.size v (by rw [hbias]; rfl) j))

/-- The results of two calls of `forward`, with the size of the exact ones. -/
def BothRes {κ I' I : Type} {r : Rounding F} (δ B : F) : Except Err (List (Fl r κ) × I') → Except Err (List (κ → F) × I) → Prop
  | .ok p', .ok p => List.Forall₂ (Both δ B) p'.1 p.1
  | .error e', .error e => e' = e
  | _, _ => False

theorem torchConv_both (h : RoundsConv r c' c W η b) {B δ : F} (hB : 0 ≤ B) (hδ : 0 ≤ δ) {zs' : List (Fl r ι)} {zs : List (ι → F)}
    (hz : List.Forall₂ (Both δ B) zs' zs) {I' I : Type} (i : I') (j : I) :
    BothRes (convErr r.u c.K W η b B δ) (c.K * (W * B) + b) ((Conv.torchConv c' zs').map fun ys => (ys, i))
      ((Conv.torchConv c zs).map fun ys => (ys, j)) := by
  unfold Conv.torchConv
  rw [h.K, h.S, hz.length_eq]
  by_cases hlt : zs.length < c.K
  · rw [if_pos hlt, if_pos hlt]
    rfl
  · rw [if_neg hlt, if_neg hlt]
    show List.Forall₂ _ _ _
    rw [List.forall₂_map_left_iff, List.forall₂_map_right_iff]
    refine List.forall₂_same.2 fun j hj => ?_
    have hat : ∀ k ∈ List.range c.K, ∃ z' z, zs'[j * c.S + k]? = some z' ∧ zs[j * c.S + k]? = some z ∧ Both δ B z' z := by
      intro k hk
      have h1 : j ≤ (zs.length - c.K) / c.S := by have := List.mem_range.1 hj; omega
      have h2 := Nat.mul_le_mul_right c.S h1
      have h3 := Nat.div_mul_le_self (zs.length - c.K) c.S
      have h4 := List.mem_range.1 hk
      have hi : j * c.S + k < zs.length := by omega
      have hi' : j * c.S + k < zs'.length := by rw [hz.length_eq]; exact hi
      exact ⟨_, _, List.getElem?_eq_getElem hi', List.getElem?_eq_getElem hi, (List.forall₂_iff_get.1 hz).2 _ hi' hi⟩
    refine ⟨bias_close h (e := η * (B + δ) + W * δ) (T := (W + η) * (B + δ))
      (mul_nonneg (by linarith [h.W_nonneg, h.η_nonneg]) (by linarith)) ?_ (by simp), bias_size h ?_ (by simp)⟩
    · rw [List.forall₂_map_left_iff, List.forall₂_map_right_iff]
      refine List.forall₂_same.2 fun k hk => ?_
      obtain ⟨z', z, e', e, hb⟩ := hat k hk
      rw [e', e]
      have := tap h k hb
      exact ⟨this.1, this.2.1⟩
    · intro t ht
      obtain ⟨k, hk, rfl⟩ := List.mem_map.1 ht
      obtain ⟨z', z, e', e, hb⟩ := hat k hk
      rw [e]
      exact (tap h k hb).2.2

theorem conv_fwd (h : RoundsConv r c' c W η b) {B δ : F} (hB : 0 ≤ B) (hδ : 0 ≤ δ) {ys : List (Fl r ι)} {xs : List (ι → F)}
    (hx : List.Forall₂ (Both δ B) ys xs) {I' I : Type} (i : I') (j : I) :
    BothRes (convErr r.u c.K W η b B δ) (c.K * (W * B) + b) ((Conv.forward c' ys).map fun ys => (ys, i))
      ((Conv.forward c xs).map fun ys => (ys, j)) := by
  unfold Conv.forward
  cases hx with
  | nil => rfl
  | @cons y x ys xs h1 h2 =>
    have hl : (y :: ys).length = (x :: xs).length := by simp [h2.length_eq]
    have hlast := (List.forall₂_iff_get.1 (List.Forall₂.cons h1 h2)).2 ((x :: xs).length - 1) (by rw [hl]; simp) (by simp)
    rw [List.getLast?_eq_getElem?, List.getLast?_eq_getElem?, hl, List.getElem?_eq_getElem (by rw [hl]; simp),
      List.getElem?_eq_getElem (by simp)]
    refine torchConv_both h hB hδ ?_ i j
    rw [h.P, h.padMode]
    exact List.rel_append (List.rel_append (replicate_rel _ (make_rel hB hδ _ _ _ h1)) (.cons h1 h2))
      (replicate_rel _ (make_rel hB hδ _ _ _ hlast))

end

theorem pick_rel {X X' : Type} {R : X' → X → Prop} {zs' : List X'} {zs : List X} (h : List.Forall₂ R zs' zs) (f : Nat → Nat) :
    ∀ ns : List Nat, (∀ n ∈ ns, f n < zs.length) →
      List.Forall₂ R (ns.filterMap fun n => zs'[f n]?) (ns.filterMap fun n => zs[f n]?) ∧ (ns.filterMap fun n => zs[f n]?).length = ns.length
  | [], _ => ⟨.nil, rfl⟩
  | n :: ns, hn => by
    have h1 := hn n (List.mem_cons_self ..)
    have h1' : f n < zs'.length := by rw [h.length_eq]; exact h1
    obtain ⟨a, b⟩ := pick_rel h f ns fun k hk => hn k (List.mem_cons_of_mem _ hk)
    simp only [List.filterMap_cons, List.getElem?_eq_getElem h1, List.getElem?_eq_getElem h1']
    exact ⟨.cons ((List.forall₂_iff_get.1 h).2 _ h1' h1) a, by simp [b]⟩

theorem pick_map {X Y : Type} (g : X → Y) (zs : List X) (f : Nat → Nat) (ns : List Nat) :
    (ns.filterMap fun n => (zs.map g)[f n]?) = (ns.filterMap fun n => zs[f n]?).map g := by
  rw [List.map_filterMap]
  exact congrArg (fun q => List.filterMap q ns) (funext fun n => List.getElem?_map ..)

section
variable {ι κ : Type} {r : Rounding F} {c' : Pool.Cfg (Fl r ι) (Fl r κ)} {c : Pool.Cfg (ι → F) (κ → F)} {ρ : F → F → F} {β : F → F}

theorem pool_fwd (h : RoundsPool r c' c ρ β) {B δ : F} (hB : 0 ≤ B) (hδ : 0 ≤ δ) {ys : List (Fl r ι)} {xs : List (ι → F)}
    (hx : List.Forall₂ (Both δ B) ys xs) {I' I : Type} (i : I') (j : I) :
    BothRes (ρ B δ) (β B) ((Pool.forward c' ys).map fun ys => (ys, i)) ((Pool.forward c xs).map fun ys => (ys, j)) := by
  have e' : List.replicate c'.P c'.refPad ++ ys.map c'.spatial ++ List.replicate c'.P c'.refPad =
      (List.replicate c.P 0 ++ ys ++ List.replicate c.P 0).map c'.spatial := by
    rw [h.P]
    rcases h.pads with h0 | h0
    · simp [h0]
    · simp [h0.1]
  have e : List.replicate c.P c.refPad ++ xs.map c.spatial ++ List.replicate c.P c.refPad =
      (List.replicate c.P 0 ++ xs ++ List.replicate c.P 0).map c.spatial := by
    rcases h.pads with h0 | h0
    · simp [h0]
    · simp [h0.2]
  have zero : Both δ B (0 : Fl r ι) (0 : ι → F) :=
    ⟨fun i => by show |(0 : F) - 0| ≤ δ; simpa using hδ, fun i => by show |(0 : F)| ≤ B; simpa using hB⟩
  have hz : List.Forall₂ (Both δ B) (List.replicate c.P (0 : Fl r ι) ++ ys ++ List.replicate c.P 0)
      (List.replicate c.P (0 : ι → F) ++ xs ++ List.replicate c.P 0) :=
    List.rel_append (List.rel_append (replicate_rel _ zero) hx) (replicate_rel _ zero)
  unfold Pool.forward Pool.bufLen
  simp only [e', e, h.K, h.S, h.dil, h.dil', List.length_map, hz.length_eq]
  have hnil : (ys = []) = (xs = []) := by
    cases hx <;> simp
  simp only [hnil]
  generalize List.replicate c.P (0 : Fl r ι) ++ ys ++ List.replicate c.P 0 = zs' at *
  generalize List.replicate c.P (0 : ι → F) ++ xs ++ List.replicate c.P 0 = zs at *
  split
  · rfl
  · split
    · rfl
    · rename_i hlt
      show List.Forall₂ _ _ _
      rw [List.forall₂_map_left_iff, List.forall₂_map_right_iff]
      refine List.forall₂_same.2 fun j hj => ?_
      have hK := h.K_pos
      obtain ⟨a, b⟩ := pick_rel hz (fun k => j * c.S + k * 1) (List.range c.K) (by
        intro k hk
        have h1 : j ≤ (zs.length - (1 * (c.K - 1) + 1)) / c.S := by have := List.mem_range.1 hj; omega
        have h2 := Nat.mul_le_mul_right c.S h1
        have h3 := Nat.div_mul_le_self (zs.length - (1 * (c.K - 1) + 1)) c.S
        have h4 := List.mem_range.1 hk
        omega)
      rw [pick_map c'.spatial zs' (fun k => j * c.S + k * 1), pick_map c.spatial zs (fun k => j * c.S + k * 1)]
      exact h.window B δ hB hδ _ _ (by rw [b, List.length_range]) a

end

theorem pair_both {κ : Type} {r : Rounding F} {e₁ e₂ A₁ A₂ : F} {y y₂ : Fl r κ} {x x₂ : κ → F} (h : Both e₁ A₁ y x) (h₂ : Both e₂ A₂ y₂ x₂) :
    Both (e₁ + e₂ + r.u * (A₁ + e₁ + (A₂ + e₂))) (A₁ + A₂) (y + y₂) (x + x₂) := by
  have := zip_rel (.cons h .nil) (.cons h₂ .nil)
  cases this with
  | cons h _ => exact h

theorem bcast_rel {κ I' I : Type} {r : Rounding F} {e₁ e₂ A₁ A₂ : F} {as' bs' : List (Fl r κ)} {as bs : List (κ → F)}
    (h : List.Forall₂ (Both e₁ A₁) as' as) (h₂ : List.Forall₂ (Both e₂ A₂) bs' bs) (i : I') (j : I) :
    BothRes (e₁ + e₂ + r.u * (A₁ + e₁ + (A₂ + e₂))) (A₁ + A₂) ((bcast2 (· + ·) as' bs').map fun ys => (ys, i))
      ((bcast2 (· + ·) as bs).map fun ys => (ys, j)) := by
  unfold bcast2
  rw [h.length_eq, h₂.length_eq]
  by_cases hl : as.length = bs.length
  · rw [if_pos hl, if_pos hl]
    exact zip_rel h h₂
  · rw [if_neg hl, if_neg hl]
    have left : ∀ {y x} {bs' : List (Fl r κ)} {bs : List (κ → F)}, Both e₁ A₁ y x → List.Forall₂ (Both e₂ A₂) bs' bs →
        List.Forall₂ (Both (e₁ + e₂ + r.u * (A₁ + e₁ + (A₂ + e₂))) (A₁ + A₂)) (bs'.map fun z => y + z) (bs.map fun z => x + z) := by
      intro y x bs' bs hb hs
      rw [List.forall₂_map_left_iff, List.forall₂_map_right_iff]
      exact hs.imp fun _ _ hb₂ => pair_both hb hb₂
    have right : ∀ {y x} {as' : List (Fl r κ)} {as : List (κ → F)}, Both e₂ A₂ y x → List.Forall₂ (Both e₁ A₁) as' as →
        List.Forall₂ (Both (e₁ + e₂ + r.u * (A₁ + e₁ + (A₂ + e₂))) (A₁ + A₂)) (as'.map fun z => z + y) (as.map fun z => z + x) := by
      intro y x as' as hb hs
      rw [List.forall₂_map_left_iff, List.forall₂_map_right_iff]
      exact hs.imp fun _ _ hb₁ => pair_both hb₁ hb
    cases h with
    | nil => cases h₂ with
      | nil => rfl
      | cons b t => cases t with
        | nil => exact right b .nil
        | cons _ _ => rfl
    | cons a s => cases s with
      | nil => exact left a h₂
      | cons a₂ s => cases h₂ with
        | nil => rfl
        | cons b t => cases t with
          | nil => exact right b (.cons a (.cons a₂ s))
          | cons _ _ => rfl

theorem rnn_fwd {ι : Type} {r : Rounding F} {a q z η θ : F} {c' : Rnn.Cfg (Fl r ι) (Fl r ι)} {c : Rnn.Cfg (ι → F) (ι → F)}
    (h : RoundsRnn r c' c a q z η θ) {B δ : F} (hB : 0 ≤ B) (hδ : 0 ≤ δ) {ys : List (Fl r ι)} {xs : List (ι → F)}
    (hx : List.Forall₂ (Both δ B) ys xs) {I' I : Type} (i : I') (j : I) :
    BothRes (rnnErr a q z η θ c.layers.length B δ) (rnnSize a q z c.layers.length B)
      ((Rnn.forward c' ys none).map fun p => (p.1, i)) ((Rnn.forward c xs none).map fun p => (p.1, j)) := by
  unfold Rnn.forward Rnn.torchForward
  have hnil : (ys = []) = (xs = []) := by
    cases hx <;> simp
  simp only [hnil, Option.getD_none, List.length_map, ne_eq, not_true_eq_false, if_false, h.start, h.start']
  split
  · rfl
  · exact (stack_both h.a_nonneg h.q_lt h.z_nonneg h.η_nonneg h.θ_nonneg h.layers hB hδ).2.2 hx

/-- `forward` of a network. -/
theorem twin_fwd {r : Rounding F} {ι κ : Type} {m' : CoMod (.stream (Fl r ι)) (.stream (Fl r κ))}
    {m : CoMod (.stream (ι → F)) (.stream (κ → F))} {φ' φ ρ β} (h : Twin r m' φ' m φ ρ β) :
    ∀ B δ, 0 ≤ B → 0 ≤ δ → ∀ ys xs, List.Forall₂ (Both δ B) ys xs → ∀ i j, BothRes (ρ B δ) (β B) (m'.fwd i ys) (m.fwd j xs) := by
  induction h with
  | conv h => exact fun B δ hB hδ ys xs hx i j => conv_fwd h hB hδ hx i j
  | pool h => exact fun B δ hB hδ ys xs hx i j => pool_fwd h hB hδ hx i j
  | delay hd hs =>
    intro B δ hB hδ ys xs hx i j
    show List.Forall₂ (Both δ B) (Delay.forward _ ys) (Delay.forward _ xs)
    unfold Delay.forward
    rw [hd, hs, hx.length_eq]
    split
    · exact hx
    · split
      · exact List.forall₂_take _ hx
      · exact List.forall₂_drop _ (List.forall₂_take _ hx)
  | map h =>
    intro B δ hB hδ ys xs hx i j
    exact (((twin_facts (.map h)).2.2 B δ hB hδ).2.2 ys xs hx : List.Forall₂ _ _ _)
  | rnn h => exact fun B δ hB hδ ys xs hx i j => rnn_fwd h hB hδ hx i j
  | single _ ih => exact ih
  | @cons ι κ μ m' m c' c φ' φ ψ' ψ ρ β ρ₂ β₂ h h₂ ih ih₂ =>
    intro B δ hB hδ ys xs hx i j
    obtain ⟨k1, k2, -⟩ := (twin_facts h).2.2 B δ hB hδ
    have a := ih B δ hB hδ ys xs hx i.1 j.1
    show BothRes _ _ (m'.fwd i.1 ys >>= fun p => c'.fwd i.2 p.1 >>= fun q => pure (q.1, (p.2, q.2)))
      (m.fwd j.1 xs >>= fun p => c.fwd j.2 p.1 >>= fun q => pure (q.1, (p.2, q.2)))
    cases e1 : m'.fwd i.1 ys with
    | error x1 => cases e2 : m.fwd j.1 xs with
      | error x2 => rw [e1, e2] at a; exact a
      | ok p => rw [e1, e2] at a; exact a.elim
    | ok p' => cases e2 : m.fwd j.1 xs with
      | error x2 => rw [e1, e2] at a; exact a.elim
      | ok p =>
        rw [e1, e2] at a
        have b := ih₂ _ _ k1 k2 _ _ a i.2 j.2
        have f1 : (Sequential.mod c').fwd i.2 p'.1 = c'.fwd i.2 p'.1 := rfl
        have f2 : (Sequential.mod c).fwd j.2 p.1 = c.fwd j.2 p.1 := rfl
        rw [f1, f2] at b
        simp only [bind, Except.bind]
        cases g1 : c'.fwd i.2 p'.1 with
        | error x1 => cases g2 : c.fwd j.2 p.1 with
          | error x2 => rw [g1, g2] at b; exact b
          | ok q => rw [g1, g2] at b; exact b.elim
        | ok q' => cases g2 : c.fwd j.2 p.1 with
          | error x2 => rw [g1, g2] at b; exact b.elim
          | ok q => rw [g1, g2] at b; exact b
  | @sum ι κ m' n' m n φ' φ ψ' ψ ρ β ρ₂ β₂ h h₂ hal' hal ih ih₂ =>
    intro B δ hB hδ ys xs hx i j
    have a := ih B δ hB hδ ys xs hx i.1 j.1
    have b := ih₂ B δ hB hδ ys xs hx i.2.1 j.2.1
    have shape : ∀ {X Y : Type} [Add Y] (m n : CoMod (.stream X) (.stream Y)) (i : BroadcastReduce.Inst [m, n]) (xs : List X),
        (BroadcastReduce.mod (foldReducer (· + ·)) [m, n]).fwd i xs = match m.fwd i.1 xs, n.fwd i.2.1 xs with
          | .ok p, .ok q => (bcast2 (· + ·) p.1 q.1).map fun ys => (ys, (p.2, q.2, ()))
          | .error e, _ => .error e
          | _, .error e => .error e := by
      intro X Y _ m n i xs
      show BroadcastReduce.fwd (foldReducer (· + ·)) [m, n] i xs = _
      unfold BroadcastReduce.fwd
      simp only [BroadcastReduce.fwdAll, bind, Except.bind, pure, Except.pure]
      cases m.fwd i.1 xs with
      | error e => rfl
      | ok p => cases n.fwd i.2.1 xs with
        | error e => rfl
        | ok q =>
          simp only [foldReducer, List.foldlM, bind, Except.bind, pure, Except.pure]
          cases bcast2 (· + ·) p.1 q.1 <;> rfl
    rw [shape, shape]
    cases e1 : m'.fwd i.1 ys with
    | error x1 => cases e2 : m.fwd j.1 xs with
      | error x2 => rw [e1, e2] at a; exact a
      | ok p => rw [e1, e2] at a; exact a.elim
    | ok p' => cases e2 : m.fwd j.1 xs with
      | error x2 => rw [e1, e2] at a; exact a.elim
      | ok p =>
        rw [e1, e2] at a
        cases g1 : n'.fwd i.2.1 ys with
        | error x1 => cases g2 : n.fwd j.2.1 xs with
          | error x2 => rw [g1, g2] at b; exact b
          | ok q => rw [g1, g2] at b; exact b.elim
        | ok q' => cases g2 : n.fwd j.2.1 xs with
          | error x2 => rw [g1, g2] at b; exact b.elim
          | ok q =>
            rw [g1, g2] at b
            exact bcast_rel a b _ _

theorem exact_rel {ι : Type} (r : Rounding F) {B : F} {xs : List (ι → F)} (h : ∀ x ∈ xs, Within B x) :
    List.Forall₂ (Both 0 B) (xs.map (Fl.mk (r := r))) xs := by
  rw [List.forall₂_map_left_iff]
  exact List.forall₂_same.2 fun x hx => ⟨fun i => by simp, h x hx⟩

theorem append_rel {X X' : Type} {R : X' → X → Prop} {as' bs' : List X'} {as bs : List X} (h : List.Forall₂ R (as' ++ bs') (as ++ bs))
    (hl : as'.length = as.length) : List.Forall₂ R bs' bs := by
  have := List.forall₂_drop as.length h
  rwa [List.drop_left' hl, List.drop_left' rfl] at this

end RoundErr

open RoundErr

variable {r : Rounding F} {ι κ : Type} {m' : CoMod (.stream (Fl r ι)) (.stream (Fl r κ))}
  {m : CoMod (.stream (ι → F)) (.stream (κ → F))} {φ' : List (Fl r ι) → List (Fl r κ)} {φ : List (ι → F) → List (κ → F)}
  {ρ : F → F → F} {β : F → F}

/-- **C127**, `forward_step`: a network that rounds and the same network with exact arithmetic, each after any calls by which it was fed
the same frames `g`, however many these are.  For one more frame both return an output or neither does, and the outputs differ by at
most `ρ B 0`, where `B` bounds the entries of the frames: a number that depends on the network and on `B`, not on the length of the
stream. -/
theorem C127_step (h : Twin r m' φ' m φ ρ β) {B : F} (hB : 0 ≤ B) {g : List (ι → F)} {x : ι → F} (hx : ∀ z ∈ g ++ [x], Within B z)
    {i : m'.Inst} {j : m.Inst} (hi : Reach m' (g.map Fl.mk) i) (hj : Reach m g j) (u u' : Bool) :
    ∃ o' i' o j', m'.step i u' ⟨x⟩ = .ok (o', i') ∧ m.step j u x = .ok (o, j') ∧ NearOpt (ρ B 0) o' o := by
  obtain ⟨h1, h2, h3⟩ := twin_facts h
  obtain ⟨o', i', a1, a2, _⟩ := h1.reach.step u' ⟨x⟩ hi
  obtain ⟨o, j', b1, b2, _⟩ := h2.reach.step u x hj
  refine ⟨o', i', o, j', a1, b1, ?_⟩
  have k1 := (h3 B 0 hB le_rfl).2.2 _ _ (exact_rel r hx)
  have k2 := (h3 B 0 hB le_rfl).2.2 _ _ (exact_rel r fun z hz => hx z (List.mem_append_left _ hz))
  rw [List.map_append, List.map_singleton, a2, b2] at k1
  have k3 := append_rel k1 k2.length_eq
  cases o' with
  | none => cases o with
    | none => trivial
    | some y => cases k3
  | some y' => cases o with
    | none => cases k3
    | some y => cases k3 with
      | cons k _ => exact k.1

/-- **C127**, `forward_steps`: the same for the outputs of a chunk. -/
theorem C127_steps (h : Twin r m' φ' m φ ρ β) {B : F} (hB : 0 ≤ B) {g xs : List (ι → F)} (hne : xs ≠ [])
    (hx : ∀ z ∈ g ++ xs, Within B z) {i : m'.Inst} {j : m.Inst} (hi : Reach m' (g.map Fl.mk) i) (hj : Reach m g j) (u u' : Bool) :
    ∃ ys' i' ys j', m'.steps i false u' (xs.map Fl.mk) = .ok (optList ys', i') ∧ m.steps j false u xs = .ok (optList ys, j') ∧
      Near (ρ B 0) ys' ys := by
  obtain ⟨h1, h2, h3⟩ := twin_facts h
  obtain ⟨ys', i', a1, a2, _⟩ := h1.reach.steps u' (xs.map Fl.mk) (by simpa using hne) hi
  obtain ⟨ys, j', b1, b2, _⟩ := h2.reach.steps u xs hne hj
  refine ⟨ys', i', ys, j', a1, b1, ?_⟩
  have k1 := (h3 B 0 hB le_rfl).2.2 _ _ (exact_rel r hx)
  have k2 := (h3 B 0 hB le_rfl).2.2 _ _ (exact_rel r fun z hz => hx z (List.mem_append_left _ hz))
  rw [List.map_append, a2, b2] at k1
  exact (append_rel k1 k2.length_eq).imp fun _ _ k => k.1

/-- **C127**, `forward` on a clip: it keeps within the same bound (so that `forward` and streaming differ by at most twice the bound where
they are equal in exact arithmetic), and raises where the exact one raises. -/
theorem C127_forward (h : Twin r m' φ' m φ ρ β) {B : F} (hB : 0 ≤ B) {xs : List (ι → F)} (hx : ∀ x ∈ xs, Within B x) (i : m'.Inst)
    (j : m.Inst) : NearResult (ρ B 0) ((m'.fwd i (xs.map Fl.mk)).map Prod.fst) ((m.fwd j xs).map Prod.fst) := by
  have k := twin_fwd h B 0 hB le_rfl _ _ (exact_rel r hx) i j
  cases e1 : m'.fwd i (xs.map Fl.mk) with
  | error x1 => cases e2 : m.fwd j xs with
    | error x2 => rw [e1, e2] at k; exact k
    | ok p => rw [e1, e2] at k; exact k.elim
  | ok p' => cases e2 : m.fwd j xs with
    | error x2 => rw [e1, e2] at k; exact k.elim
    | ok p =>
      rw [e1, e2] at k
      exact List.Forall₂.imp (fun _ _ h => h.1) k

/-- **C127**, `forward` against streaming, both computed with rounding: where they agree in exact arithmetic, for a clip of any length (see
C14), they return as many frames as each other, which differ by at most `2 * ρ B 0`. -/
theorem C127_agree (h : Twin r m' φ' m φ ρ β) {B : F} (hB : 0 ≤ B) {xs : List (ι → F)} (hne : xs ≠ []) (hx : ∀ x ∈ xs, Within B x)
    {ys : List (κ → F)} {j₁ j₂ : m.Inst} {u : Bool} (hf : m.fwd m.init xs = .ok (ys, j₁)) (hs : m.steps m.init false u xs = .ok (optList ys, j₂)) :
    ∃ fs ss i₁ i₂, m'.fwd m'.init (xs.map Fl.mk) = .ok (fs, i₁) ∧ m'.steps m'.init false u (xs.map Fl.mk) = .ok (optList ss, i₂) ∧
      List.Forall₂ (fun a b => Close (2 * ρ B 0) a.val b.val) fs ss := by
  have a := C127_forward h hB hx m'.init m.init
  obtain ⟨ss, i₂, ys₂, j', b1, b2, b3⟩ := C127_steps h hB (g := []) hne (by simpa using hx) .init .init u u
  have e : ys₂ = ys := by
    rw [hs] at b2
    have : optList ys = optList ys₂ := by injection b2 with b2; injection b2
    cases ys <;> cases ys₂ <;> simp [optList] at this ⊢
    exact ⟨this.1.symm, this.2.symm⟩
  subst e
  rw [hf] at a
  cases hf' : m'.fwd m'.init (xs.map Fl.mk) with
  | error x => rw [hf'] at a; exact a.elim
  | ok p =>
    rw [hf'] at a
    refine ⟨p.1, ss, p.2, i₂, rfl, b1, ?_⟩
    have a : Near (ρ B 0) p.1 ys₂ := a
    refine List.forall₂_iff_get.2 ⟨by rw [a.length_eq, b3.length_eq], fun k h1 h2 l => ?_⟩
    have c1 := (List.forall₂_iff_get.1 a).2 k h1 (by rw [← a.length_eq]; exact h1) l
    have c2 := (List.forall₂_iff_get.1 b3).2 k h2 (by rw [← b3.length_eq]; exact h2) l
    rw [abs_sub_comm] at c2
    refine (abs_sub_le _ (ys₂.get ⟨k, by rw [← a.length_eq]; exact h1⟩ l) _).trans ?_
    linarith

theorem RoundErr.noisy_rel {ι : Type} {r : Rounding F} {B δ : F} {ys : List (Fl r ι)} {xs : List (ι → F)} (h : Near δ ys xs)
    (hx : ∀ x ∈ xs, Within B x) : List.Forall₂ (Both δ B) ys xs := by
  refine List.forall₂_iff_get.2 ⟨h.length_eq, fun k h1 h2 => ⟨(List.forall₂_iff_get.1 h).2 k h1 h2, hx _ (List.get_mem _ _)⟩⟩

/-- **C127**, frames with errors: if the frames given to the network that rounds are themselves off by `δ` (they were rounded, quantized or
measured), the outputs of `forward_steps` keep within `ρ B δ` of those of the exact network on the right frames, however long it runs. -/
theorem C127_noisy (h : Twin r m' φ' m φ ρ β) {B δ : F} (hB : 0 ≤ B) (hδ : 0 ≤ δ) {g xs : List (ι → F)} {g' xs' : List (Fl r ι)} (hne : xs ≠ [])
    (hg : Near δ g' g) (hxs : Near δ xs' xs) (hx : ∀ z ∈ g ++ xs, Within B z) {i : m'.Inst} {j : m.Inst} (hi : Reach m' g' i)
    (hj : Reach m g j) (u u' : Bool) :
    ∃ ys' i' ys j', m'.steps i false u' xs' = .ok (optList ys', i') ∧ m.steps j false u xs = .ok (optList ys, j') ∧
      Near (ρ B δ) ys' ys := by
  obtain ⟨h1, h2, h3⟩ := twin_facts h
  have hne' : xs' ≠ [] := by
    intro e
    subst e
    cases hxs
    exact hne rfl
  obtain ⟨ys', i', a1, a2, _⟩ := h1.reach.steps u' xs' hne' hi
  obtain ⟨ys, j', b1, b2, _⟩ := h2.reach.steps u xs hne hj
  refine ⟨ys', i', ys, j', a1, b1, ?_⟩
  have k1 := (h3 B δ hB hδ).2.2 _ _ (noisy_rel (List.rel_append hg hxs) hx)
  have k2 := (h3 B δ hB hδ).2.2 _ _ (noisy_rel hg fun z hz => hx z (List.mem_append_left _ hz))
  rw [a2, b2] at k1
  exact (append_rel k1 k2.length_eq).imp fun _ _ k => k.1

/-- **C127**, `forward` on a clip of frames with errors. -/
theorem C127_noisy_forward (h : Twin r m' φ' m φ ρ β) {B δ : F} (hB : 0 ≤ B) (hδ : 0 ≤ δ) {xs : List (ι → F)} {xs' : List (Fl r ι)}
    (hxs : Near δ xs' xs) (hx : ∀ x ∈ xs, Within B x) (i : m'.Inst) (j : m.Inst) :
    NearResult (ρ B δ) ((m'.fwd i xs').map Prod.fst) ((m.fwd j xs).map Prod.fst) := by
  have k := twin_fwd h B δ hB hδ _ _ (noisy_rel hxs hx) i j
  cases e1 : m'.fwd i xs' with
  | error x1 => cases e2 : m.fwd j xs with
    | error x2 => rw [e1, e2] at k; exact k
    | ok p => rw [e1, e2] at k; exact k.elim
  | ok p' => cases e2 : m.fwd j xs with
    | error x2 => rw [e1, e2] at k; exact k.elim
    | ok p =>
      rw [e1, e2] at k
      exact List.Forall₂.imp (fun _ _ h => h.1) k

/-- Average pooling over windows of `K` frames; the additions round, from the last frame of the list on. -/
def RoundErr.averageRounded (r : Rounding F) (ι : Type) (K S P : Nat) : Pool.Cfg (Fl r ι) (Fl r ι) :=
  ⟨K, S, P, 1, id, fun l => ⟨fun j => l.sum.val j / l.length⟩, fun _ => 0, fun _ => 0, 0⟩

/-- Average pooling with exact arithmetic. -/
def RoundErr.average (F ι : Type) [Field F] (K S P : Nat) : Pool.Cfg (ι → F) (ι → F) :=
  ⟨K, S, P, 1, id, fun l j => l.sum j / l.length, fun _ => 0, fun _ => 0, 0⟩

/-- **C127**, average pooling, whose sums round in an order that changes from step to step, is one of the poolings of the theorems
above. -/
theorem C127_average (r : Rounding F) (ι : Type) {K S P : Nat} (hK : 1 ≤ K) (hS : 1 ≤ S) (hP : P < K) :
    RoundsPool r (averageRounded r ι K S P) (average F ι K S P) (fun B δ => δ + ((1 + r.u) ^ K - 1) * (B + δ)) id where
  K_pos := hK
  S_pos := hS
  P_lt := hP
  dil := rfl
  K := rfl
  S := rfl
  P := rfl
  dil' := rfl
  pads := .inr ⟨rfl, rfl⟩
  fill := fun _ => rfl
  fill' := fun _ => rfl
  fills := fun B δ hB hδ y x h => make_rel hB hδ .zeros y x h
  nonneg := fun B δ hB hδ => by
    have h1 := one_le r K
    have h2 : 0 ≤ (1 + r.u) ^ K - 1 := by linarith
    exact ⟨hB, by positivity⟩
  window := by
    intro B δ hB hδ ys xs hl hx
    have hl : xs.length = K := hl
    have hl' : ys.length = K := by rw [hx.length_eq, hl]
    have hK0 : (0 : F) < K := by exact_mod_cast hK
    show Both _ B (Fl.mk fun j => (ys.map id).sum.val j / (ys.map id).length) (fun j => (xs.map id).sum j / (xs.map id).length)
    rw [List.map_id, List.map_id, hl, hl']
    refine ⟨fun j => ?_, fun j => ?_⟩
    · have s1 := (acc_sum r j (T := B + δ) ys fun t hm => by
        obtain ⟨k, hk, rfl⟩ := List.getElem_of_mem hm
        exact ((List.forall₂_iff_get.1 hx).2 k hk (by omega)).within j).1
      have s2 := sum_close (e := δ) (l' := ys.map fun t => t.val j) (l := xs.map fun t => t j) (by
        rw [List.forall₂_map_left_iff, List.forall₂_map_right_iff]
        exact hx.imp fun _ _ h => h.1 j)
      rw [List.length_map, hl, ← sum_place j xs] at s2
      rw [hl'] at s1
      show |ys.sum.val j / K - xs.sum j / K| ≤ _
      rw [← sub_div, abs_div, abs_of_pos hK0, div_le_iff₀ hK0]
      have e : ys.sum.val j - xs.sum j = (ys.sum.val j - (ys.map fun t => t.val j).sum) + ((ys.map fun t => t.val j).sum - xs.sum j) := by
        ring
      rw [e]
      refine (abs_add_le _ _).trans ?_
      have e2 : (δ + ((1 + r.u) ^ K - 1) * (B + δ)) * K = ((1 + r.u) ^ K - 1) * (K * (B + δ)) + K * δ := by ring
      rw [e2]
      linarith
    · have s1 := sum_size (e := B) (l := xs.map fun t => t j) fun z hz => by
        obtain ⟨t, ht, rfl⟩ := List.mem_map.1 hz
        obtain ⟨k, hk, rfl⟩ := List.getElem_of_mem ht
        exact ((List.forall₂_iff_get.1 hx).2 k (by omega) hk).2 j
      rw [List.length_map, hl, ← sum_place j xs] at s1
      show |xs.sum j / K| ≤ B
      rw [abs_div, abs_of_pos hK0, div_le_iff₀ hK0]
      linarith

/-- The largest frame, entry by entry. -/
def RoundErr.largest {ι : Type} : List (ι → F) → ι → F
  | [], _ => 0
  | x :: xs, j => xs.foldl (fun a y => max a (y j)) (x j)

/-- Max pooling over windows of `K` frames, of computed frames, without padding (for padding see C44). -/
def RoundErr.maxRounded (r : Rounding F) (ι : Type) (K S : Nat) : Pool.Cfg (Fl r ι) (Fl r ι) :=
  ⟨K, S, 0, 1, id, fun l => ⟨RoundErr.largest (l.map Fl.val)⟩, fun _ => 0, fun _ => 0, 0⟩

/-- Max pooling of exact frames. -/
def RoundErr.maxExact (F ι : Type) [Field F] [LinearOrder F] (K S : Nat) : Pool.Cfg (ι → F) (ι → F) :=
  ⟨K, S, 0, 1, id, RoundErr.largest, fun _ => 0, fun _ => 0, 0⟩

theorem RoundErr.max_close {ι : Type} {r : Rounding F} {B δ : F} (j : ι) : ∀ (ys : List (Fl r ι)) (xs : List (ι → F)) (a b : F),
    |a - b| ≤ δ → |b| ≤ B → List.Forall₂ (Both δ B) ys xs →
    |(ys.map Fl.val).foldl (fun a y => max a (y j)) a - xs.foldl (fun a y => max a (y j)) b| ≤ δ ∧
      |xs.foldl (fun a y => max a (y j)) b| ≤ B
  | _, _, _, _, h, h', .nil => ⟨h, h'⟩
  | y :: ys, x :: xs, a, b, h, h', .cons hx hs =>
    RoundErr.max_close j ys xs (max a (y.val j)) (max b (x j))
      ((abs_max_sub_max_le_max _ _ _ _).trans (max_le h (hx.1 j)))
      (by rcases max_choice b (x j) with e | e <;> rw [e]; exacts [h', hx.2 j]) hs

/-- **C127**, max pooling: no error is added. -/
theorem C127_max (r : Rounding F) (ι : Type) {K S : Nat} (hK : 1 ≤ K) (hS : 1 ≤ S) :
    RoundsPool r (maxRounded r ι K S) (maxExact F ι K S) (fun _ δ => δ) id where
  K_pos := hK
  S_pos := hS
  P_lt := hK
  dil := rfl
  K := rfl
  S := rfl
  P := rfl
  dil' := rfl
  pads := .inl rfl
  fill := fun _ => rfl
  fill' := fun _ => rfl
  fills := fun B δ hB hδ y x h => make_rel hB hδ .zeros y x h
  nonneg := fun B δ hB hδ => ⟨hB, hδ⟩
  window := by
    intro B δ hB hδ ys xs hl hx
    have hl : xs.length = K := hl
    show Both δ B (Fl.mk (largest ((ys.map id).map Fl.val))) (largest (xs.map id))
    rw [List.map_id, List.map_id]
    cases hx with
    | nil => simp at hl; omega
    | cons h hs => exact ⟨fun j => (max_close j _ _ _ _ (h.1 j) (h.2 j) hs).1, fun j => (max_close j _ _ _ _ (h.1 j) (h.2 j) hs).2⟩

/-- **C127**, the rectifier: no error is added. -/
theorem C127_relu (r : Rounding F) (ι : Type) :
    RoundsMap r (fun x : Fl r ι => ⟨fun j => max (x.val j) 0⟩) (fun x j => max (x j) 0) 1 0 0 where
  L_nonneg := zero_le_one
  lip := fun x y δ h j => by rw [one_mul]; exact (abs_max_sub_max_le_abs _ _ _).trans (h j)
  zero := fun j => by simp
  z_nonneg := le_rfl
  η_nonneg := le_rfl
  err := fun x j => by simp

/-! ### Example -/

/-- Every sum is too large by a thousandth. -/
def exRound : Rounding Rat := ⟨fun a b => (a + b) * (1 + 1 / 1000), 1 / 1000, by norm_num, fun a b => by
  rw [show (a + b) * (1 + 1 / 1000) - (a + b) = 1 / 1000 * (a + b) by ring, abs_mul, abs_of_pos (by norm_num : (0 : Rat) < 1 / 1000)]⟩

/-- The weights of a convolution over three frames. -/
def exKernel (k : Nat) : Rat := if k = 0 then 1 / 2 else 1 / 4

/-- The convolution with exact arithmetic. -/
def exExact : Conv.Cfg (Unit → Rat) (Unit → Rat) := ⟨3, 1, 0, .zeros, .zeros, fun k x j => exKernel k * x j, some fun _ => 1⟩

/-- The same, with products that are too small by a thousandth. -/
def exRounded : Conv.Cfg (Fl exRound Unit) (Fl exRound Unit) :=
  ⟨3, 1, 0, .zeros, .zeros, fun k x => ⟨fun j => exKernel k * x.val j * (1 - 1 / 1000)⟩, some ⟨fun _ => 1⟩⟩

theorem exKernel_le (k : Nat) : |exKernel k| ≤ 1 / 2 := by
  unfold exKernel
  split <;> norm_num

theorem exRounds : RoundsConv exRound exRounded exExact (1 / 2) (1 / 2000) 1 where
  K_pos := by decide
  S_pos := by decide
  P_lt := by decide
  K1 := by decide
  K := rfl
  S := rfl
  P := rfl
  fill := rfl
  padMode := rfl
  bias := rfl
  zero := fun k => by funext j; exact mul_zero _
  zero' := fun k => by
    show (Fl.mk fun j => exKernel k * 0 * (1 - 1 / 1000)) = Fl.mk fun _ => 0
    simp
  W_nonneg := by norm_num
  η_nonneg := by norm_num
  b_nonneg := by norm_num
  lip := fun k x y δ h j => by
    show |exKernel k * y j - exKernel k * x j| ≤ _
    rw [← mul_sub, abs_mul]
    exact mul_le_mul (exKernel_le k) (h j) (abs_nonneg _) (by norm_num)
  err := fun k x B h j => by
    show |exKernel k * x.val j * (1 - 1 / 1000) - exKernel k * x.val j| ≤ _
    rw [show exKernel k * x.val j * (1 - 1 / 1000) - exKernel k * x.val j = -(1 / 1000) * (exKernel k * x.val j) by ring, abs_mul, abs_mul]
    have := mul_le_mul (exKernel_le k) (h j) (abs_nonneg _) (by norm_num)
    rw [show |(-(1 / 1000) : Rat)| = 1 / 1000 by norm_num]
    linarith
  size := fun v hv j => by
    cases hv
    norm_num

theorem exAligned {X Y : Type} (fill : X → X) (f : List X → Y) (xs : List X) :
    (streamOut 3 1 0 fill f xs).length = (delayed 2 0 xs).length := by
  have h0 : padStart 0 fill xs = xs := by cases xs <;> rfl
  rw [streamOut, h0, slide_length, windowCount, delayed, List.drop_zero, List.length_take]
  split <;> omega

/-- A residual connection around the convolution, followed by the rectifier and an average over two frames: for frames with entries in
[-1, 1], the outputs of `forward_step` are right up to 0.03 after any number of steps. -/
example : ∃ m' φ' m φ ρ β, Twin exRound (ι := Unit) (κ := Unit) m' φ' m φ ρ β ∧ ρ 1 0 ≤ 3 / 100 ∧
    m = Sequential.mod (.cons (BroadcastReduce.mod (foldReducer (· + ·)) [Conv.mod exExact, Delay.mod ⟨2, id, .off⟩])
      (.cons (Pointwise.mod fun x j => max (x j) 0) (.single (Pool.mod (average Rat Unit 2 1 0))))) :=
  ⟨_, _, _, _, _, _, .cons (.sum (.conv exRounds) (.delay (c' := ⟨2, id, .off⟩) (c := ⟨2, id, .off⟩) rfl rfl)
      (exAligned _ _) (exAligned _ _))
    (.cons (.map (C127_relu exRound Unit)) (.single (.pool (C127_average exRound Unit (K := 2) (S := 1) (P := 0) (by omega) (by omega) (by omega))))),
    by norm_num [convErr, exRound, exExact], rfl⟩

/-- The convolution alone, for the third frame of a stream. -/
example : ∃ i j o' i' o j', Reach (Conv.mod exRounded) [⟨fun _ => 1⟩, ⟨fun _ => -1⟩] i ∧ Reach (Conv.mod exExact) [fun _ => 1, fun _ => -1] j ∧
    (Conv.mod exRounded).step i true ⟨fun _ => 1⟩ = .ok (o', i') ∧ (Conv.mod exExact).step j true (fun _ => 1) = .ok (o, j') ∧
    NearOpt (convErr (1 / 1000) 3 (1 / 2) (1 / 2000) 1 1 0) o' o := by
  have hB : ∀ z ∈ [fun _ : Unit => (1 : Rat), fun _ => -1] ++ [fun _ => 1], Within 1 z := by
    intro z hz j
    simp at hz
    rcases hz with rfl | rfl | rfl <;> norm_num
  obtain ⟨o1, i1, p1, j1, e1, f1, -⟩ := C127_step (.conv exRounds) (B := 1) (g := []) (x := fun _ => 1) (by norm_num)
    (fun z hz => hB z (by simp at hz; simp [hz])) .init .init true true
  obtain ⟨o2, i2, p2, j2, e2, f2, -⟩ := C127_step (.conv exRounds) (B := 1) (g := [fun _ => 1]) (x := fun _ => -1) (by norm_num)
    (fun z hz => hB z (by simp at hz; rcases hz with rfl | rfl <;> simp)) (.step true _ .init e1) (.step true _ .init f1) true true
  have r2 := Reach.step true _ (Reach.step true _ Reach.init e1) e2
  have s2 := Reach.step true _ (Reach.step true _ Reach.init f1) f2
  obtain ⟨o3, i3, p3, j3, e3, f3, n⟩ := C127_step (.conv exRounds) (B := 1) (g := [fun _ => 1, fun _ => -1]) (x := fun _ => 1) (by norm_num)
    hB r2 s2 true true
  exact ⟨i2, j2, o3, i3, p3, j3, r2, s2, e3, f3, n⟩

/-- `forward` and streaming of the convolution, on a clip of three frames. -/
example : ∃ fs ss i₁ i₂, (Conv.mod exRounded).fwd (Conv.mod exRounded).init [⟨fun _ => 1⟩, ⟨fun _ => -1⟩, ⟨fun _ => 1⟩] = .ok (fs, i₁) ∧
    (Conv.mod exRounded).steps (Conv.mod exRounded).init false true [⟨fun _ => 1⟩, ⟨fun _ => -1⟩, ⟨fun _ => 1⟩] = .ok (optList ss, i₂) ∧
    List.Forall₂ (fun a b => Close (2 * convErr (1 / 1000) 3 (1 / 2) (1 / 2000) 1 1 0) a.val b.val) fs ss := by
  obtain ⟨ys, j', b1, b2, -⟩ := (twin_facts (.conv exRounds)).2.1.reach.steps true [fun _ => 1, fun _ => -1, fun _ => 1] (by simp) .init
  have e : ys = [fun _ => 3 / 2] := b2.symm.trans (by
    show [corrSeq exExact.w exExact.bias [fun _ => 1, fun _ => -1, fun _ => 1]] = _
    refine congrArg (fun a => [a]) (funext fun j => ?_)
    norm_num [corrSeq, exExact, exKernel, List.mapIdx_cons])
  subst e
  have f : (Conv.mod exExact).fwd (Conv.mod exExact).init [fun _ => 1, fun _ => -1, fun _ => 1] = .ok ([fun _ => 3 / 2], (Conv.mod exExact).init) := by
    show Except.ok ([Conv.addBias exExact [exExact.w 0 fun _ => 1, exExact.w 1 fun _ => -1, exExact.w 2 fun _ => 1].sum], (Conv.mod exExact).init) = _
    refine congrArg (fun a => Except.ok ([a], _)) (funext fun j => ?_)
    norm_num [Conv.addBias, exExact, exKernel]
  exact C127_agree (.conv exRounds) (B := 1) (by norm_num) (xs := [fun _ => 1, fun _ => -1, fun _ => 1]) (by simp)
    (fun x hx j => by simp at hx; rcases hx with rfl | rfl | rfl <;> norm_num) f b1

/-- A layer of `nn.RNN` with the rectifier as its nonlinearity and the weights 1 and 1/2, with exact arithmetic. -/
def exExactCell : Rnn.Cell (Unit → Rat) (Unit → Rat) := fun x s => (fun j => max (x j + 1 / 2 * s j) 0, fun j => max (x j + 1 / 2 * s j) 0)

/-- The same with the addition above. -/
def exRoundedCell : Rnn.Cell (Fl exRound Unit) (Fl exRound Unit) := fun x s =>
  (⟨fun j => max (exRound.add (x.val j) (1 / 2 * s.val j)) 0⟩, ⟨fun j => max (exRound.add (x.val j) (1 / 2 * s.val j)) 0⟩)

theorem exRoundRnn : RoundsRnn exRound ⟨[exRoundedCell, exRoundedCell], 0⟩ ⟨[exExactCell, exExactCell], 0⟩ 1 (1 / 2) 0 (1 / 1000) 0 := by
  have cell : RoundsCell exRound exRoundedCell exExactCell 1 (1 / 2) 0 (1 / 1000) 0 := by
    refine ⟨fun _ _ => rfl, fun _ _ => rfl, fun x y s t δ ε h h' j => ?_, fun j => ?_, fun x s B A h h' j => ?_⟩
    · refine (abs_max_sub_max_le_abs _ _ _).trans ?_
      have e : y j + 1 / 2 * t j - (x j + 1 / 2 * s j) = (y j - x j) + 1 / 2 * (t j - s j) := by ring
      rw [e]
      refine (abs_add_le _ _).trans ?_
      rw [abs_mul, show |(1 / 2 : Rat)| = 1 / 2 by norm_num]
      have := h j
      have := h' j
      linarith
    · show |max ((0 : Rat) + 1 / 2 * 0) 0| ≤ 0
      norm_num
    · refine (abs_max_sub_max_le_abs _ _ _).trans ((exRound.err _ _).trans ?_)
      have e : exRound.u = 1 / 1000 := rfl
      rw [e]
      have k := abs_add_le (x.val j) (1 / 2 * s.val j)
      rw [abs_mul, show |(1 / 2 : Rat)| = 1 / 2 by norm_num] at k
      have := h j
      have := h' j
      have := abs_nonneg (s.val j)
      linarith
  exact ⟨.cons cell (.cons cell .nil), rfl, rfl, by norm_num, by norm_num, by norm_num, by norm_num, by norm_num, le_rfl⟩

/-- Two such layers after the convolution: right up to a quarter, for ever. -/
example : ∃ m' φ' m φ ρ β, Twin exRound (ι := Unit) (κ := Unit) m' φ' m φ ρ β ∧ ρ 1 0 ≤ 1 / 4 ∧
    m = Sequential.mod (.cons (Conv.mod exExact) (.single (Rnn.mod ⟨[exExactCell, exExactCell], 0⟩))) :=
  ⟨_, _, _, _, _, _, .cons (.conv exRounds) (.single (.rnn exRoundRnn)), by norm_num [convErr, rnnErr, exRound, exExact], rfl⟩

/-- Frames that are off by a hundredth, convolved with rounding. -/
example : ∃ ys' i' ys j', (Conv.mod exRounded).steps (Conv.mod exRounded).init false true [⟨fun _ => 99 / 100⟩, ⟨fun _ => -1⟩, ⟨fun _ => 1⟩] =
      .ok (optList ys', i') ∧
    (Conv.mod exExact).steps (Conv.mod exExact).init false true [fun _ => 1, fun _ => -1, fun _ => 1] = .ok (optList ys, j') ∧
    Near (convErr (1 / 1000) 3 (1 / 2) (1 / 2000) 1 1 (1 / 100)) ys' ys :=
  C127_noisy (.conv exRounds) (B := 1) (δ := 1 / 100) (by norm_num) (by norm_num) (g := []) (g' := []) (by simp) .nil
    (.cons (fun j => by norm_num) (.cons (fun j => by norm_num) (.cons (fun j => by norm_num) .nil)))
    (fun x hx j => by simp at hx; rcases hx with rfl | rfl | rfl <;> norm_num) .init .init true true

end CoInf
