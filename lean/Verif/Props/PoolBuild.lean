/-
C117: pooling modules built from those of torch, with options.
-/
import Verif.Model.PoolBuild

set_option autoImplicit false

namespace CoInf
open PoolBuild
variable {X : Type}

namespace Spec

/-- The options of the module, with those that were given to `build_from` in their place.  A stride of `None` stands for the kernel size. -/
def wanted (m : Torch) (w : Kw) : Opts where
  kernel := w.kernel.getD m.opts.kernel
  stride :=
    match w.stride with
    | none => m.opts.stride
    | some none => w.kernel.getD m.opts.kernel
    | some (some s) => s
  padding := w.padding.getD m.opts.padding
  dilation := w.dilation.getD m.opts.dilation
  ceil := w.ceil.getD m.opts.ceil
  includePad := w.includePad.getD m.opts.includePad
  divisor := w.divisor.getD m.opts.divisor
  indices := m.opts.indices

/-- Attributes as torch makes them: average pooling knows no dilation and no indices, in one dimension no divisor; max pooling has no
options about counting. -/
def MadeByTorch (m : Torch) : Prop :=
  match m.kind with
  | .avg => m.opts.dilation = List.replicate m.n 1 ∧ m.opts.indices = false ∧ (m.n = 1 → m.opts.divisor = none)
  | .max => m.opts.includePad = true ∧ m.opts.divisor = none

/-- All keywords are options of the class. -/
def KnownTo (m : Torch) (w : Kw) : Prop :=
  w.unknown = [] ∧ w.indices = none ∧ (m.n = 1 → w.divisor = none) ∧ (m.kind = .max → w.includePad = none ∧ w.divisor = none)

/-- The options for space. -/
def inSpace (o : Opts) : Opts :=
  { o with kernel := o.kernel.drop 1, stride := o.stride.drop 1, padding := o.padding.drop 1, dilation := o.dilation.drop 1 }

end Spec

open Spec

theorem PoolBuild.refuses_iff (m : Torch) (w : Kw) (hmax : m.kind = .max → m.n = 1 → w.divisor = none) :
    refuses m.kind m.n w = false ↔ KnownTo m w := by
  obtain ⟨k, n, o⟩ := m
  cases k
  · by_cases h : n = 1 <;> simp [refuses, KnownTo, h, and_assoc]
  · simp only [refuses, KnownTo, Bool.or_eq_false_iff, Bool.not_eq_false', List.isEmpty_iff, Option.isSome_eq_false_iff,
      Option.isNone_iff_eq_none, forall_const, and_assoc]
    constructor
    · rintro ⟨h1, h2, h3, h4⟩
      exact ⟨h1, h2, fun _ => h4, h3, h4⟩
    · rintro ⟨h1, h2, _, h3, h4⟩
      exact ⟨h1, h2, h3, h4⟩

theorem PoolBuild.known_iff (m : Torch) (w : Kw) : refuses m.kind m.n w = false ↔ KnownTo m w := by
  obtain ⟨k, n, o⟩ := m
  cases k
  · exact refuses_iff _ _ fun h => by cases h
  · by_cases hd : w.divisor = none
    · exact refuses_iff _ _ fun _ _ => hd
    · constructor
      · intro h
        simp [refuses, hd] at h
      · intro h
        exact absurd (h.2.2.2 rfl).2 hd

/-- The attributes are the options wanted, but for the indices. -/
theorem PoolBuild.attributes_wanted (m : Torch) (hm : MadeByTorch m) (w : Kw) (hw : KnownTo m w) :
    attributes m.kind m.n (w.kernel.getD m.opts.kernel) (w.stride.getD (some m.opts.stride)) (w.padding.getD m.opts.padding)
      (w.dilation.getD m.dilation) (w.ceil.getD m.opts.ceil)
      (w.includePad.getD m.opts.includePad) (w.divisor.getD m.opts.divisor) = { wanted m w with indices := false } := by
  obtain ⟨k, n, o⟩ := m
  obtain ⟨h1, h2, h3, h4⟩ := hw
  have hs : (w.stride.getD (some o.stride)).getD (w.kernel.getD o.kernel) =
      (match w.stride with | none => o.stride | some none => w.kernel.getD o.kernel | some (some s) => s) := by
    rcases w.stride with _ | _ | s <;> rfl
  cases k
  · obtain ⟨q1, q2, q3⟩ := hm
    simp only at q1 q2 q3 h3
    by_cases hn : n = 1
    · simp [attributes, wanted, hs, q1, hn, h3 hn, q3 hn, Torch.dilation]
    · simp [attributes, wanted, hs, q1, hn, Torch.dilation]
  · obtain ⟨q1, q2⟩ := hm
    obtain ⟨e1, e2⟩ := h4 rfl
    simp only at q1 q2
    simp [attributes, wanted, hs, q1, q2, e1, e2, Torch.dilation]

theorem PoolBuild.build_eq (m : Torch) (hm : MadeByTorch m) (w : Kw) (hw : KnownTo m w) :
    build m w = make m.kind m.n { wanted m w with indices := false } (w.fill.getD "zeros") := by
  have := (PoolBuild.known_iff m w).2 hw
  unfold build
  rw [this, if_neg (by simp), PoolBuild.attributes_wanted m hm w hw]

theorem PoolBuild.readFill_cases (s : String) : (s ∈ ["zeros", "replicate", "neg_inf"] ∧ ∃ f, readFill s = .ok f) ∨
    (s ∉ ["zeros", "replicate", "neg_inf"] ∧ readFill s = .error .value) := by
  unfold readFill
  by_cases h1 : s = "zeros"
  · exact .inl ⟨by simp [h1], _, if_pos h1⟩
  · rw [if_neg h1]
    by_cases h2 : s = "replicate"
    · exact .inl ⟨by simp [h2], _, if_pos h2⟩
    · rw [if_neg h2]
      by_cases h3 : s = "neg_inf"
      · exact .inl ⟨by simp [h3], _, if_pos h3⟩
      · exact .inr ⟨by simp [h1, h2, h3], if_neg h3⟩

theorem PoolBuild.make_ok {k : Kind} {n : Nat} {o : Opts} {s : String} {c : Co} (h : make k n o s = .ok c) :
    ¬ (k = .avg ∧ o.dilation.tail.any (· ≠ 1)) ∧ o.kernel.headD 0 ≠ 0 ∧ s ∈ ["zeros", "replicate", "neg_inf"] ∧
      ∃ f, readFill s = .ok f ∧
        c = ⟨k, n, o, (o.kernel.headD 0, o.stride.headD 0, o.padding.headD 0, o.dilation.headD 0), spatial k n o, f⟩ := by
  unfold make at h
  split at h
  · cases h
  · rename_i h1
    split at h
    · cases h
    · rename_i h2
      rcases readFill_cases s with ⟨h3, f, hf⟩ | ⟨_, hf⟩
      · rw [hf] at h
        injection h with h
        exact ⟨h1, h2, h3, f, hf, h.symm⟩
      · rw [hf] at h
        cases h

/-- C117: which options `build_from` accepts, and what it raises for the others: unknown keywords are a `TypeError`; average pooling with
dilation in space and poolings over no frame at all are assertion errors; other fillings are a `ValueError`. -/
theorem C117_accepts (m : Torch) (hm : MadeByTorch m) (w : Kw) :
    ((∃ c, build m w = .ok c) ↔ KnownTo m w ∧ (m.kind = .avg → ∀ d ∈ (wanted m w).dilation.drop 1, d = 1) ∧
      (wanted m w).kernel.headD 0 ≠ 0 ∧ w.fill.getD "zeros" ∈ ["zeros", "replicate", "neg_inf"]) ∧
    (build m w = .error .type ↔ ¬ KnownTo m w) ∧
    (build m w = .error .assertion ↔ KnownTo m w ∧
      ((m.kind = .avg ∧ ∃ d ∈ (wanted m w).dilation.drop 1, d ≠ 1) ∨ (wanted m w).kernel.headD 0 = 0)) ∧
    ∀ e, build m w = .error e → e = .type ∨ e = .assertion ∨ e = .value := by
  by_cases hw : KnownTo m w
  · rw [PoolBuild.build_eq m hm w hw]
    generalize w.fill.getD "zeros" = s
    have hany : ∀ l : List Nat, (l.tail.any (· ≠ 1) = true) ↔ ∃ d ∈ l.drop 1, d ≠ 1 := by
      intro l; simp [List.any_eq_true]
    unfold make
    by_cases h1 : m.kind = .avg ∧ (wanted m w).dilation.tail.any (· ≠ 1)
    · have h1' := h1
      rw [hany] at h1'
      obtain ⟨a, d, hd, hd1⟩ := h1'
      rw [if_pos h1]
      refine ⟨⟨fun ⟨c, h⟩ => (by cases h), fun ⟨_, h, _⟩ => absurd (h a d hd) hd1⟩, ⟨fun h => (by cases h), fun h => absurd hw h⟩,
        ⟨fun _ => ⟨hw, .inl ⟨a, d, hd, hd1⟩⟩, fun _ => rfl⟩, fun e he => ?_⟩
      injection he with he
      exact .inr (.inl he.symm)
    · rw [if_neg h1]
      rw [hany] at h1
      have h1' : m.kind = .avg → ∀ d ∈ (wanted m w).dilation.drop 1, d = 1 := fun a d hd =>
        Classical.byContradiction fun hne => h1 ⟨a, d, hd, hne⟩
      by_cases h2 : (wanted m w).kernel.headD 0 = 0
      · rw [if_pos h2]
        refine ⟨⟨fun ⟨c, h⟩ => (by cases h), fun ⟨_, _, h, _⟩ => absurd h2 h⟩, ⟨fun h => (by cases h), fun h => absurd hw h⟩,
          ⟨fun _ => ⟨hw, .inr h2⟩, fun _ => rfl⟩, fun e he => ?_⟩
        injection he with he
        exact .inr (.inl he.symm)
      · rw [if_neg h2]
        have hno : ¬ (KnownTo m w ∧ ((m.kind = .avg ∧ ∃ d ∈ (wanted m w).dilation.drop 1, d ≠ 1) ∨ (wanted m w).kernel.headD 0 = 0)) :=
          fun ⟨_, h⟩ => h.elim h1 h2
        rcases PoolBuild.readFill_cases s with ⟨h3, f, hf⟩ | ⟨h3, hf⟩
        · rw [hf]
          exact ⟨⟨fun _ => ⟨hw, h1', h2, h3⟩, fun _ => ⟨_, rfl⟩⟩, ⟨fun h => (by cases h), fun h => absurd hw h⟩,
            ⟨fun h => (by cases h), fun h => absurd h hno⟩, fun e he => by cases he⟩
        · rw [hf]
          refine ⟨⟨fun ⟨c, h⟩ => (by cases h), fun ⟨_, _, _, h⟩ => absurd h h3⟩, ⟨fun h => (by cases h), fun h => absurd hw h⟩,
            ⟨fun h => (by cases h), fun h => absurd h hno⟩, fun e he => ?_⟩
          injection he with he
          exact .inr (.inr he.symm)
  · have hr : refuses m.kind m.n w = true := by
      rw [← PoolBuild.known_iff] at hw
      simpa using hw
    have hb : build m w = .error .type := by unfold build; rw [hr]; rfl
    rw [hb]
    refine ⟨⟨fun ⟨c, h⟩ => (by cases h), fun ⟨h, _⟩ => absurd h hw⟩, ⟨fun _ => hw, fun _ => rfl⟩,
      ⟨fun h => (by cases h), fun ⟨h, _⟩ => absurd h hw⟩, fun e he => ?_⟩
    injection he with he
    exact .inl he.symm

/-- C117: `forward` of what is built from a pooling that returns no indices is the pooling of torch with the options of the module and
those given in their place. -/
theorem C117_forward_partial (m : Torch) (hm : MadeByTorch m) (hi : m.opts.indices = false) (w : Kw) {c : Co} (h : build m w = .ok c)
    (f : Functions X) (x : X) : c.forward f x = Torch.forward f ⟨m.kind, m.n, wanted m w⟩ x := by
  have hw : KnownTo m w := ((C117_accepts m hm w).1.1 ⟨c, h⟩).1
  rw [PoolBuild.build_eq m hm w hw] at h
  obtain ⟨_, _, _, fl, _, rfl⟩ := PoolBuild.make_ok h
  have : ({ wanted m w with indices := false } : Opts) = wanted m w := by
    rw [← hi]; rfl
  show f.call _ _ _ _ = f.call _ _ _ _
  rw [this]

/-- C117: the frames of a stream are pooled in space by the pooling of torch with the options for space (with the divisor of the three
dimensional pooling only), and over time with the options for time. -/
theorem C117_frames_partial (m : Torch) (hm : MadeByTorch m) (w : Kw) (hd : (wanted m w).divisor = none ∨ m.n = 3) {c : Co}
    (h : build m w = .ok c) (f : Functions X) (x : X) :
    c.time = ((wanted m w).kernel.headD 0, (wanted m w).stride.headD 0, (wanted m w).padding.headD 0, (wanted m w).dilation.headD 0) ∧
    (m.n = 1 → c.frame f x = .ok x) ∧
    (m.n ≠ 1 → c.frame f x =
      (Torch.forward f ⟨m.kind, m.n - 1, { inSpace (wanted m w) with indices := false }⟩ x).map Prod.fst) ∧
    readFill (w.fill.getD "zeros") = .ok c.fill := by
  have hw : KnownTo m w := ((C117_accepts m hm w).1.1 ⟨c, h⟩).1
  rw [PoolBuild.build_eq m hm w hw] at h
  obtain ⟨_, _, _, fl, hfl, rfl⟩ := PoolBuild.make_ok h
  refine ⟨rfl, fun hn => ?_, fun hn => ?_, hfl⟩
  · simp [Co.frame, spatial, hn]
  · have hdv : (if m.kind = .avg ∧ m.n = 3 then (wanted m w).divisor else none) = (wanted m w).divisor := by
      rcases hd with hd | hd
      · rw [hd]; split <;> rfl
      · cases hk : m.kind
        · simp [hd]
        · have hmd : m.opts.divisor = none := by
            have := hm
            unfold MadeByTorch at this
            rw [hk] at this
            exact this.2
          simp [wanted, (hw.2.2.2 hk).2, hmd]
    simp only [Co.frame, spatial, hn, if_false, hdv, Torch.forward, inSpace, List.drop_one]

/-- C117, the full claim fails for poolings that return indices: what is built from them never does. -/
theorem C117_indices_refuted (m : Torch) (hk : m.kind = .max) (hi : m.opts.indices = true) (w : Kw) {c : Co} (h : build m w = .ok c)
    (f : Functions X) (x : X) :
    (∀ y, c.forward f x = .ok y → y.2 = none) ∧ ∀ y, m.forward f x = .ok y → y.2.isSome = true := by
  constructor
  · intro y hy
    have hc : c.kind = .max ∧ c.opts.indices = false := by
      unfold build at h
      split at h
      · cases h
      · obtain ⟨_, _, _, _, _, rfl⟩ := PoolBuild.make_ok h
        exact ⟨hk, rfl⟩
    unfold Co.forward Functions.call at hy
    rw [hc.1] at hy
    simp only [hc.2] at hy
    split at hy
    · cases hy
    · injection hy with hy
      exact congrArg Prod.snd hy.symm
  · intro y hy
    unfold Torch.forward Functions.call at hy
    rw [hk] at hy
    simp only [hi, if_true] at hy
    split at hy
    · cases hy
    · cases ha : f.arg m.n m.opts.kernel m.opts.stride m.opts.padding m.opts.dilation m.opts.ceil x with
      | error e => rw [ha] at hy; cases hy
      | ok i =>
        rw [ha] at hy
        injection hy with hy
        rw [← hy]
        rfl

/-- An example: `nn.MaxPool2d((2, 3), return_indices=True)` built with another kernel and `stride=None`. -/
example : ∃ (m : Torch) (w : Kw) (c : Co), MadeByTorch m ∧ m.kind = .max ∧ m.opts.indices = true ∧ build m w = .ok c ∧
    c.time = (4, 4, 0, 1) ∧ c.space.map (·.kernel) = some [5] :=
  ⟨⟨.max, 2, ⟨[2, 3], [2, 3], [0, 1], [1, 1], false, true, none, true⟩⟩, { kernel := some [4, 5], stride := some none }, _,
    ⟨rfl, rfl⟩, rfl, rfl, rfl, rfl, rfl⟩

/-- An example: `nn.AvgPool3d` with a divisor. -/
example : ∃ (m : Torch) (w : Kw) (c : Co), MadeByTorch m ∧ m.opts.indices = false ∧ build m w = .ok c ∧ (wanted m w).divisor = some 7 ∧
    c.time = (2, 1, 0, 3) ∧ c.space.map (·.divisor) = some (some 7) ∧ c.fill = .replicate :=
  ⟨⟨.avg, 3, ⟨[2, 3, 3], [1, 3, 3], [0, 1, 1], [1, 1, 1], false, true, some 7, false⟩⟩,
    { dilation := some [3, 1, 1], fill := some "replicate" }, _, ⟨rfl, rfl, fun h => by cases h⟩, rfl, rfl, rfl, rfl, rfl, rfl⟩

end CoInf
