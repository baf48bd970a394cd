/-
C49: `continual` converts faithfully.  C57: conversion of converted modules.
-/
import Verif.Lemmas.Convert
import Verif.Props.Pad
import Mathlib.Algebra.CharZero.Defs
import Mathlib.Algebra.Field.Basic
import Mathlib.Tactic.NormNum

set_option autoImplicit false

namespace CoInf
open Spec Convert
variable {X Y : Type}

/-! ### Example network -/

/-- `nn.Sequential(nn.Conv1d(.., 3, padding=1), nn.Sequential(nn.ReLU(), nn.AvgPool1d(2, stride=1)))` on integers (with a sum
instead of an average). -/
def exTorch : Src Int Int :=
  .sequential (.cons (.conv { K := 3, S := 1, P := 1, dil := 1, mode := .zeros, w := fun _ x => x, bias := some 1 })
    (.single (.sequential (.cons (.naive fun xs => .ok (xs.map fun x => max x 0))
      (.single (.pool { K := 2, S := 1, P := 0, dil := 1, spatial := id, pool := List.sum, refPad := 0 }))))))

theorem exTorch_admissible (k : Cls) : Admissible k exTorch := by
  refine ⟨⟨by decide, by decide, by decide, by decide, fun _ => rfl, fun _ => rfl⟩, ⟨⟨fun x => max x 0, ⟨fun _ _ => rfl, ?_⟩⟩,
    by decide, by decide, by decide, rfl, rfl, fun a b h => h.sum_eq, fun _ => Or.inl rfl, fun _ => rfl⟩⟩
  intro ys h
  cases h
  rfl

theorem exTorch_convertible : Convertible exTorch := by
  simp [exTorch, Convertible, AllConvertible]

/-! ### C49 -/

/-- **C49**, conversion of CoModules: they are returned unchanged. -/
theorem C49_unchanged (m : CoMod (.stream X) (.stream Y)) : continual (.co m) = .ok m := by
  unfold continual; rfl

/-- **C49**, which modules are converted: exactly those with an implemented conversion; everything else, also deep inside
nested `nn.Sequential`s, is refused with an exception. -/
theorem C49_converts_iff (s : Src X Y) :
    (∃ m, continual s = .ok m) ↔ Convertible s := continual_iff s

example : ∃ m, continual exTorch = .ok m := (C49_converts_iff _).2 exTorch_convertible

example : ¬ ∃ m, continual (.sequential (.cons (.linear (X := Int) id) (.single
    (.conv { K := 3, S := 1, P := 1, dil := 1, mode := .circular, w := fun _ x => x, bias := some (1 : Int) })))) = .ok m := by
  rw [C49_converts_iff]
  simp [Convertible, AllConvertible]

/-- **C49**, `forward`: the converted module computes for every clip what the original computes (result or exception),
unless some member is a bidirectional recurrent module. -/
theorem C49_forward_partial (s : Src X Y) (hs : OneDirection s) {m : CoMod (.stream X) (.stream Y)}
    (h : continual s = .ok m) (xs : List X) : (m.fwd m.init xs).map Prod.fst = torchClip s xs :=
  continual_fwd s h hs xs

example : ∃ m, continual exTorch = .ok m ∧
    (m.fwd m.init [1, -5, 3, 4]).map Prod.fst = torchClip exTorch [1, -5, 3, 4] ∧
    torchClip exTorch [1, -5, 3, 4] = .ok [0, 3, 11] := by
  obtain ⟨m, hm⟩ := (C49_converts_iff exTorch).2 exTorch_convertible
  exact ⟨m, hm, C49_forward_partial _ (admissible_oneDirection ⟨true, 3⟩ _ (exTorch_admissible _)) hm _, by decide +kernel⟩

/-- **C49**, streaming: a network converted from torch modules with admissible arguments, driven by any script of
`forward_step` and `forward_steps` calls followed by a last chunk with `pad_end=True`, emits what the torch network computes
for the whole clip. -/
theorem C49_streams_torch {k : Cls} (hk : 2 ≤ k.pad) (s : Src X Y) (hs : Admissible k s)
    {m : CoMod (.stream X) (.stream Y)} (h : continual s = .ok m) {i : m.Inst} (hi : Reach m [] i) (ops : List (Op X))
    (hf : ∀ op ∈ ops, op.feeds) {last : List X} (hl : last ≠ []) {ys : List Y}
    (ht : torchClip s (framesOf ops ++ last) = .ok ys) :
    ∃ rs j o j', run m i ops = .ok (rs, j) ∧ m.steps j true true last = .ok (o, j') ∧
      outsOf rs ++ o.getD [] = ys := by
  obtain ⟨φ, hn⟩ := continual_net k s h hs
  refine C15_chunked_forward_partial hk hn hi ops hf hl ?_
  have e := continual_fwd s h (admissible_oneDirection k s hs) (framesOf ops ++ last)
  rw [ht] at e
  have e2 := (net_facts hn).impl.reach.fwd_indep (framesOf ops ++ last) hi
  rw [e] at e2
  cases hfw : m.fwd i (framesOf ops ++ last) with
  | error er => rw [hfw] at e2; cases e2
  | ok p => rw [hfw] at e2; cases e2; exact ⟨p.2, rfl⟩

example : ∃ m, continual exTorch = .ok m ∧ ∃ rs j o j',
    run m m.init [.step true 1, .steps true [-5, 3]] = .ok (rs, j) ∧ m.steps j true true [4] = .ok (o, j') ∧
      outsOf rs ++ o.getD [] = [0, 3, 11] := by
  obtain ⟨m, hm⟩ := (C49_converts_iff exTorch).2 exTorch_convertible
  exact ⟨m, hm, C49_streams_torch (k := ⟨true, 3⟩) (by decide) exTorch (exTorch_admissible _) hm .init
    [.step true 1, .steps true [-5, 3]] (by simp [Op.feeds]) (last := [4]) (by decide)
    (ys := [0, 3, 11]) (by decide +kernel)⟩

/-- **C49**, a class-independent form for one call: with the weaker class `k.pad ≥ 1` (strided members anywhere), a clean
converted network computes with a single `forward_steps(x, pad_end=True)` what the torch network computes. -/
theorem C49_clip_torch {k : Cls} (hk : 1 ≤ k.pad) (s : Src X Y) (hs : Admissible k s)
    {m : CoMod (.stream X) (.stream Y)} (h : continual s = .ok m) {i : m.Inst} (hi : Reach m [] i) (u : Bool)
    {xs : List X} (hx : xs ≠ []) {ys : List Y} (ht : torchClip s xs = .ok ys) :
    ∃ j, m.steps i true u xs = .ok (optList ys, j) := by
  obtain ⟨φ, hn⟩ := continual_net k s h hs
  refine C14_padEnd_eq_forward hk hn hi u hx ?_
  have e := continual_fwd s h (admissible_oneDirection k s hs) xs
  rw [ht] at e
  have e2 := (net_facts hn).impl.reach.fwd_indep xs hi
  rw [e] at e2
  cases hfw : m.fwd i xs with
  | error er => rw [hfw] at e2; cases e2
  | ok p => rw [hfw] at e2; cases e2; exact ⟨p.2, rfl⟩

example : ∃ m, continual exTorch = .ok m ∧ ∃ j, m.steps m.init true false [1, -5, 3, 4] = .ok (some [0, 3, 11], j) := by
  obtain ⟨m, hm⟩ := (C49_converts_iff exTorch).2 exTorch_convertible
  exact ⟨m, hm, C49_clip_torch (k := ⟨true, 1⟩) (by decide) exTorch (exTorch_admissible _) hm .init false (xs := [1, -5, 3, 4])
    (by decide) (ys := [0, 3, 11]) (by decide +kernel)⟩

/-- A bidirectional module with one layer that adds up its inputs. -/
def exBidirectional : TorchRnn Int Int where
  layers := [(fun x s => (x + s, x + s), some fun x s => (x + s, x + s))]
  zero := 0
  cat := fun a b => a + 100 * b

/-- **C49 fails** for bidirectional recurrent modules: they are accepted, but the converted module runs the forward
direction only. -/
theorem C49_bidirectional_refuted :
    ∃ (s : Src Int Int) (m : CoMod (.stream Int) (.stream Int)) (xs : List Int), continual s = .ok m ∧
      (m.fwd m.init xs).map Prod.fst ≠ torchClip s xs := by
  exact ⟨.rnn exBidirectional, _, [1, 2], by unfold continual; rfl, by decide +kernel⟩

/-- **C49 fails** for adaptive poolings and transformer encoders: both are registered for conversion, but converting them
always raises `TypeError` because `build_from` has another required argument. -/
theorem C49_registered_refuted (g : List X → Except Err (List Y)) :
    continual (.adaptivePool g) = .error .type ∧ continual (.transformer g) = .error .type := by
  constructor <;> (unfold continual; rfl)

/-- `nn.GroupNorm` (with one group and one value per frame, default weights): the mean and the variance are taken over the
whole clip; `scale v` is `1 / sqrt (v + eps)`. -/
def groupNorm {F : Type} [Field F] (scale : F → F) (xs : List F) : Except Err (List F) :=
  let mean := xs.sum / xs.length
  let var := (xs.map fun x => (x - mean) * (x - mean)).sum / xs.length
  .ok (xs.map fun x => (x - mean) * scale var)

/-- **C49 fails** for `nn.GroupNorm`, which is mapped naively although its statistics run over time: `forward_step` gives
zeros, while the original network gives something else. -/
theorem C49_group_norm_refuted {F : Type} [Field F] [CharZero F] (scale : F → F) (hs : ∀ v, scale v ≠ 0) :
    ∃ (m : CoMod (.stream F) (.stream F)), continual (.naive (groupNorm scale)) = .ok m ∧
      (∀ i u x, m.step i u x = .ok (some 0, i)) ∧ ∃ a b, torchClip (.naive (groupNorm scale)) [0, 2] = .ok [a, b] ∧
        a ≠ 0 ∧ b ≠ 0 := by
  refine ⟨_, by unfold continual; rfl, ?_, ?_⟩
  · intro i u x
    show (do let ys ← groupNorm scale [x]; let y ← squeeze ys; pure (some y, i)) = _
    simp [groupNorm, squeeze, bind, Except.bind, pure, Except.pure]
  · unfold torchClip
    refine ⟨_, _, rfl, mul_ne_zero ?_ (hs _), mul_ne_zero ?_ (hs _)⟩ <;> norm_num

example : ∀ v : Rat, (fun _ => (1 : Rat)) v ≠ 0 := fun _ => one_ne_zero

/-! ### C57 -/

/-- **C57**, the part that holds: a module to which `forward_stepping` was applied once runs its own `forward` exactly once,
in every call mode and by every way of calling it; and in mode `forward` this is so after any number of applications. -/
theorem C57_once_partial {R : Type} (run : R) :
    (∀ mode fuel, callFun 1 mode run (fuel + 4) .impl = some run ∧ callFun 1 mode run (fuel + 4) .step = some run ∧
      callFun 1 mode run (fuel + 4) .steps = some run ∧ callFun 1 mode run (fuel + 4) (.fwc 1) = some run) ∧
    (∀ n fuel, callFun n .forward run (fuel + n + 1) (.fwc n) = some run) :=
  ⟨fun mode fuel => call_once mode run fuel, fun n fuel => call_forward n run fuel n⟩

/-- **C57 fails**: after two or more applications (`continual(continual(nn.ReLU()))`, or one `nn.ReLU` object used twice in
an `nn.Sequential`), every streaming call runs into unbounded recursion, whatever Python's recursion limit is. -/
theorem C57_twice_refuted {R : Type} (n : Nat) (hn : 2 ≤ n) (mode : CallMode.Mode) (hm : mode ≠ .forward) (run : R)
    (fuel : Nat) (f : Fun) (hf : f = .impl ∨ f = .step ∨ f = .steps ∨ f = .fwc n) : callFun n mode run fuel f = none := by
  obtain ⟨n, rfl⟩ : ∃ k, n = k + 2 := ⟨n - 2, by omega⟩
  obtain ⟨h1, h2, h3, h4⟩ := call_loop n mode hm run fuel
  rcases hf with rfl | rfl | rfl | rfl
  · exact h1
  · exact h2
  · exact h3
  · exact h4 _

example : callFun 2 .step () 1000 .impl = none := C57_twice_refuted 2 (by decide) .step (by decide) () 1000 .impl (by simp)

end CoInf
