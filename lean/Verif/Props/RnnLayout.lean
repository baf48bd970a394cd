/-
Property C72: axis order of the recurrent modules.
-/
import Verif.Model.RnnLayout
import Verif.Lemmas.AttnLayout
import Verif.Lemmas.Rnn
import Mathlib.Algebra.Order.Ring.Int

set_option autoImplicit false

namespace CoInf.RnnLayout
open Tensor Spec
variable {F S : Type} [Zero F]

theorem exists_of2 {x : Tensor F} {a b : Nat} (h : x.shape = [a, b]) : x = of2 a b fun i j => x.get [i, j] :=
  eq_of2 x _ h fun _ _ _ _ => rfl

theorem exists_of3 {x : Tensor F} {a b c : Nat} (h : x.shape = [a, b, c]) : x = of3 a b c fun i j k => x.get [i, j, k] :=
  eq_of3 x _ h fun _ _ _ _ _ _ => rfl

/-- Stacking tensors `(a, b)` along a new second axis. -/
theorem stack2_1 {a b : Nat} (ys : List (Tensor F)) (hne : ys ≠ []) (hs : ∀ y ∈ ys, y.shape = [a, b]) :
    stack ys 1 = .ok (of3 a ys.length b fun i t j => ((ys[t]?).map fun y => y.get [i, j]).getD 0) := by
  obtain ⟨y, ys, rfl⟩ := List.exists_cons_of_ne_nil hne
  have hy := hs y (List.mem_cons_self ..)
  simp only [stack]
  rw [if_pos (by
    rw [List.all_eq_true]
    intro z hz
    rw [hs z hz, hy]; simp), if_pos (by rw [hy]; simp)]
  congr 1
  refine eq_of3 _ _ (by rw [of_shape, hy]; rfl) fun i hi t ht j hj => ?_
  have e := List.getElem?_eq_getElem ht
  have hz := hs _ (List.getElem_mem ht)
  simp only [of_get]
  rw [if_pos (by rw [hy]; simpa [within, *] using ht)]
  simp only [List.getD_cons_zero, List.getD_cons_succ, e]
  rfl

/-- The cells turn frames `(B, C)` into outputs `(B, H)`. -/
def Shaped (c : Rnn.Cfg (Tensor F) S) (B C H : Nat) : Prop :=
  ∀ ss (f : Tensor F), ss.length = c.layers.length → f.shape = [B, C] → (tick c.layers ss f).1.shape = [B, H]

theorem recur_shape {c : Rnn.Cfg (Tensor F) S} {B C H : Nat} (hc : Shaped c B C H) (fs : List (Tensor F))
    (hf : ∀ f ∈ fs, f.shape = [B, C]) : ∀ ss, ss.length = c.layers.length → ∀ y ∈ recur c.layers ss fs, y.shape = [B, H] := by
  induction fs with
  | nil => intro ss _ y hy; cases hy
  | cons f fs ih =>
    intro ss hs y hy
    rcases List.mem_cons.1 hy with rfl | hy
    · exact hc ss f hs (hf f (List.mem_cons_self ..))
    · exact ih (fun g hg => hf g (List.mem_cons_of_mem _ hg)) _ (Rnn.tick_length _ _ _ hs) y hy

theorem torchForward_eq {c : Rnn.Cfg (Tensor F) S} {B C H T : Nat} (hc : Shaped c B C H) (hT : 0 < T) (g : Nat → Nat → Nat → F)
    (i : Option (List S)) (hi : (Rnn.start c i).length = c.layers.length) :
    torchForward c (of3 B T C g) i = .ok
      (of3 B T H fun b t j => (((recur c.layers (Rnn.start c i) ((List.range T).map fun t => of2 B C fun b j => g b t j))[t]?).map
        fun y => y.get [b, j]).getD 0,
       stateAfter c.layers (Rnn.start c i) ((List.range T).map fun t => of2 B C fun b j => g b t j)) := by
  have hne : ((List.range T).map fun t => of2 B C fun b j => g b t j) ≠ [] := by
    intro h0; have := congrArg List.length h0; simp at this; omega
  unfold torchForward
  rw [if_neg (by simp)]
  have hm : (List.range ((of3 B T C g).shape.getD 1 0)).mapM ((of3 B T C g).select 1) =
      .ok ((List.range T).map fun t => of2 B C fun b j => g b t j) :=
    Layout.mapM_ok _ _ _ fun t ht => select3_1 g (List.mem_range.1 ht)
  rw [hm]
  simp only [bind, Except.bind]
  rw [Rnn.torchForward_eq c _ i hne hi]
  simp only
  have hl : (recur c.layers (Rnn.start c i) ((List.range T).map fun t => of2 B C fun b j => g b t j)).length = T := by
    rw [Rnn.recur_length]; simp
  rw [stack2_1 (a := B) (b := H) _ (by intro h0; rw [h0] at hl; simp at hl; omega)
    (recur_shape hc _ (fun f hf => by obtain ⟨t, _, rfl⟩ := List.mem_map.1 hf; rfl) _ hi)]
  simp only [hl]
  rfl

/-- The frames of a clip `(B, C, T)`. -/
def framesOf3 (x : Tensor F) (T : Nat) : List (Tensor F) := (List.range T).map fun t => of2 (x.shape.getD 0 0) (x.shape.getD 1 0) fun b j => x.get [b, j, t]

theorem framesOf3_select {x : Tensor F} {B C T : Nat} (hx : x.shape = [B, C, T]) {t : Nat} (ht : t < T) :
    (framesOf3 x T)[t]? = some (of2 B C fun b j => x.get [b, j, t]) ∧ x.select 2 t = .ok (of2 B C fun b j => x.get [b, j, t]) := by
  constructor
  · simp [framesOf3, hx, ht]
  · conv_lhs => rw [exists_of3 hx]
    exact select3_2 _ ht

theorem forward_eq {c : Rnn.Cfg (Tensor F) S} {B C H T : Nat} (hc : Shaped c B C H) (hT : 0 < T) {x : Tensor F}
    (hx : x.shape = [B, C, T]) (i : Option (List S)) (hi : (Rnn.start c i).length = c.layers.length) :
    ∃ y, forward c x i = .ok (y, stateAfter c.layers (Rnn.start c i) (framesOf3 x T)) ∧ y.shape = [B, H, T] ∧
      ∀ t < T, ∃ z, (recur c.layers (Rnn.start c i) (framesOf3 x T))[t]? = some z ∧ y.select 2 t = .ok z := by
  have hfr : framesOf3 x T = (List.range T).map fun t => of2 B C fun b j => x.get [b, j, t] := by simp [framesOf3, hx]
  refine ⟨of3 B H T fun b j t => (((recur c.layers (Rnn.start c i) (framesOf3 x T))[t]?).map fun y => y.get [b, j]).getD 0,
    ?_, rfl, fun t ht => ?_⟩
  · unfold forward
    rw [exists_of3 hx, transpose3_12, Layout.ok_bind, torchForward_eq hc hT _ i hi, Layout.ok_bind]
    simp only
    rw [transpose3_12, Layout.ok_bind, ← exists_of3 hx, hfr]
    rfl
  · have hl : (recur c.layers (Rnn.start c i) (framesOf3 x T)).length = T := by
      rw [Rnn.recur_length, hfr]; simp
    have hz : t < (recur c.layers (Rnn.start c i) (framesOf3 x T)).length := by omega
    refine ⟨_, List.getElem?_eq_getElem hz, ?_⟩
    rw [select3_2 _ ht]
    have hsh := recur_shape hc (framesOf3 x T) (fun f hf => by
      rw [hfr] at hf; obtain ⟨t, _, rfl⟩ := List.mem_map.1 hf; rfl) _ hi _ (List.getElem_mem hz)
    rw [exists_of2 hsh]
    simp only [List.getElem?_eq_getElem hz, Option.map_some, Option.getD_some]

theorem pstep_eq {c : Rnn.Cfg (Tensor F) S} {B C H : Nat} (hc : Shaped c B C H) {f : Tensor F} (hf : f.shape = [B, C])
    (i : Option (List S)) (hi : (Rnn.start c i).length = c.layers.length) :
    pstep c f i = .ok (tick c.layers (Rnn.start c i) f) := by
  have hsh := hc _ f hi hf
  unfold pstep
  conv_lhs => rw [exists_of2 hf]
  rw [unsqueeze2_1, Layout.ok_bind, torchForward_eq hc (by omega) _ i hi, Layout.ok_bind]
  simp only
  rw [squeeze3_1, Layout.ok_bind]
  have e : ((List.range 1).map fun _ => of2 B C fun b j => f.get [b, j]) = [f] := by
    rw [← exists_of2 hf]; rfl
  simp only [e, recur, List.getElem?_cons_zero, Option.map_some, Option.getD_some]
  rw [← exists_of2 hsh]
  rfl

/-! ### C72 -/

/-- `forward_step` for the frames of a list, one after the other. -/
def callFrames (c : Rnn.Cfg (Tensor F) S) : Option (List S) → List (Tensor F) → Except Err (List (Tensor F) × Option (List S))
  | i, [] => .ok ([], i)
  | i, f :: fs =>
    match forwardStep c i true f with
    | .error e => .error e
    | .ok (y, j) =>
      match callFrames c j fs with
      | .error e => .error e
      | .ok (ys, k) => .ok (y :: ys, k)

theorem callFrames_eq {c : Rnn.Cfg (Tensor F) S} {B C H : Nat} (hc : Shaped c B C H) (fs : List (Tensor F))
    (hf : ∀ f ∈ fs, f.shape = [B, C]) : ∀ i, (Rnn.start c i).length = c.layers.length →
    callFrames c i fs = .ok (recur c.layers (Rnn.start c i) fs,
      if fs = [] then i else some (stateAfter c.layers (Rnn.start c i) fs)) := by
  induction fs with
  | nil => intro i _; rfl
  | cons f fs ih =>
    intro i hi
    simp only [callFrames, forwardStep]
    rw [pstep_eq hc (hf f (List.mem_cons_self ..)) i hi]
    simp only [if_true]
    rw [ih (fun g hg => hf g (List.mem_cons_of_mem _ hg)) (some (tick c.layers (Rnn.start c i) f).2) (Rnn.tick_length _ _ _ hi)]
    simp only [recur, Rnn.start, Option.getD_some]
    cases fs <;> simp [stateAfter]

/-- **C72**: for every cell and number of layers, batch size `B`, channels `C`, `H`, clip `(B, C, T)` with `T ≥ 1` and
stored hidden state (or none): `forward_steps` returns a clip `(B, H, T)` whose slices along time are the tensors that
`forward_step` returns for the slices of the input along time, and it leaves the same hidden state; `forward` with that
hidden state returns the same clip and the same final hidden state. -/
theorem C72_layout {c : Rnn.Cfg (Tensor F) S} {B C H T : Nat} (hc : Shaped c B C H) (hT : 0 < T) {x : Tensor F}
    (hx : x.shape = [B, C, T]) (i : Option (List S)) (hi : ∀ s ∈ i, s.length = c.layers.length) :
    ∃ fs y ys h, (List.range T).mapM (x.select 2) = .ok fs ∧ forwardSteps c i true x = .ok (y, some h) ∧
      forward c x i = .ok (y, h) ∧ callFrames c i fs = .ok (ys, some h) ∧ y.shape = [B, H, T] ∧ ys.length = T ∧
      ∀ t < T, ∃ z, ys[t]? = some z ∧ y.select 2 t = .ok z := by
  have hi' : (Rnn.start c i).length = c.layers.length := by
    cases i with
    | none => simp [Rnn.start]
    | some s => exact hi s rfl
  obtain ⟨y, h1, h2, h3⟩ := forward_eq hc hT hx i hi'
  have hfr : framesOf3 x T = (List.range T).map fun t => of2 B C fun b j => x.get [b, j, t] := by simp [framesOf3, hx]
  have hne : framesOf3 x T ≠ [] := by
    rw [hfr]; intro h0; have := congrArg List.length h0; simp at this; omega
  refine ⟨framesOf3 x T, y, recur c.layers (Rnn.start c i) (framesOf3 x T), _, ?_, ?_, h1, ?_, h2, ?_, h3⟩
  · rw [hfr]
    exact Layout.mapM_ok _ _ _ fun t ht => (framesOf3_select hx (List.mem_range.1 ht)).2
  · unfold forwardSteps; rw [h1]; rfl
  · rw [callFrames_eq hc _ (fun f hf => by rw [hfr] at hf; obtain ⟨t, _, rfl⟩ := List.mem_map.1 hf; rfl) i hi', if_neg hne]
  · rw [Rnn.recur_length, hfr]; simp

/-- **C72**, probes: with `update_state=False` the hidden state is unchanged and the outputs are the same. -/
theorem C72_probe (c : Rnn.Cfg (Tensor F) S) (i : Option (List S)) (x : Tensor F) :
    forwardSteps c i false x = (forwardSteps c i true x).map (fun r => (r.1, i)) ∧
    forwardStep c i false x = (forwardStep c i true x).map (fun r => (r.1, i)) := by
  unfold forwardSteps forwardStep
  constructor
  · cases forward c x i <;> rfl
  · cases pstep c x i <;> rfl

/-! ### Examples -/

/-- Two layers; the first one sums up its channels over time into one hidden unit per batch entry, the second one doubles. -/
def exRnn : Rnn.Cfg (Tensor Int) (Tensor Int) where
  layers := [fun x s => let y := of [2, 1] fun idx => s.get idx + x.get [idx.getD 0 0, 0] + 10 * x.get [idx.getD 0 0, 1]; (y, y),
             fun x s => let y := of [2, 1] fun idx => 2 * x.get idx - s.get idx; (y, y)]
  zero := of [2, 1] fun _ => 0

theorem exRnn_shaped : Shaped exRnn 2 2 1 := by
  intro ss f hs _
  match ss, hs with
  | [_, _], _ => rfl

/-- The hypotheses of `C72_layout` hold for a stored state and a clip of five frames. -/
example : (0 : Nat) < 5 ∧ Shaped exRnn 2 2 1 ∧ (of (F := Int) [2, 2, 5] fun _ => 1).shape = [2, 2, 5] ∧
    (∀ s ∈ some [exRnn.zero, exRnn.zero], s.length = exRnn.layers.length) :=
  ⟨by decide, exRnn_shaped, rfl, fun s hs => by cases hs; rfl⟩

example : (forwardSteps exRnn none true (of [2, 2, 3] fun idx => idx.getD 0 0 * 100 + idx.getD 1 0 * 10 + idx.getD 2 0)).toOption.map
    (fun r => (r.1.shape, r.1.get [0, 0, 2], r.1.get [1, 0, 2])) = some ([2, 1, 3], 444, 4844) := by decide +kernel

end CoInf.RnnLayout
