/-
C109: an attention module built from one of torch.
-/
import Verif.Model.AttnBuild
import Verif.Props.AttnNd

set_option autoImplicit false

namespace CoInf
open AttnBuild
open CoInf.Typed (Place Casts)

namespace Spec
variable {F : Type}

/-- The attribute is a parameter of this shape. -/
def Holds (shape : List Nat) (t : Option (Ten F)) : Prop := ∃ u, t = some u ∧ u.shape = shape

/-- An attention module of torch, as its constructor, any training and any conversion of its parameters leave it. -/
structure Formed (m : Mha F) : Prop where
  heads : m.heads ≠ 0 ∧ m.embed % m.heads = 0
  proj : (m.kdim = m.embed ∧ m.vdim = m.embed ∧ Holds [3 * m.embed, m.embed] m.inW ∧ m.qW = none ∧ m.kW = none ∧ m.vW = none) ∨
    (¬ (m.kdim = m.embed ∧ m.vdim = m.embed) ∧ m.inW = none ∧ Holds [m.embed, m.embed] m.qW ∧ Holds [m.embed, m.kdim] m.kW ∧
      Holds [m.embed, m.vdim] m.vW)
  bias : (Holds [3 * m.embed] m.inB ∧ Holds [m.embed] m.outB) ∨ (m.inB = none ∧ m.outB = none)
  biasKV : (Holds [1, 1, m.embed] m.biasK ∧ Holds [1, 1, m.embed] m.biasV) ∨ (m.biasK = none ∧ m.biasV = none)
  outW : m.outW.shape = [m.embed, m.embed]

/-- A number of type `d` as one of type `e`. -/
def ofType [Casts F] (d e : Carry.DType) (x : F) : F := if d = e then x else Casts.cast e x

/-- The first tensor is the second, converted to the type and device `q`. -/
def SameTen [Casts F] (q : Place) (a b : Ten F) : Prop :=
  a.shape = b.shape ∧ a.place = q ∧ ∀ i, List.Forall₂ (· < ·) i b.shape → a.val i = ofType b.place.dtype q.dtype (b.val i)

/-- Both are missing, or they are the same. -/
def SameOpt [Casts F] (q : Place) : Option (Ten F) → Option (Ten F) → Prop
  | none, none => True
  | some a, some b => SameTen q a b
  | _, _ => False

/-- The same parameters, converted to the type and device `q`. -/
structure SameWeights [Casts F] (q : Place) (c m : Mha F) : Prop where
  inW : SameOpt q c.inW m.inW
  qW : SameOpt q c.qW m.qW
  kW : SameOpt q c.kW m.kW
  vW : SameOpt q c.vW m.vW
  inB : SameOpt q c.inB m.inB
  biasK : SameOpt q c.biasK m.biasK
  biasV : SameOpt q c.biasV m.biasV
  outW : SameTen q c.outW m.outW
  outB : SameOpt q c.outB m.outB

/-- The options that do not concern the shapes of parameters. -/
structure Options (F : Type) where
  heads : Option Nat := none
  dropout : Option F := none
  zeroAttn : Option Bool := none
  batchFirst : Option Bool := none
  place : Option Place := none

/-- The call with these options. -/
def asked (o : Options F) : Kwargs F :=
  { heads := o.heads, dropout := o.dropout, zeroAttn := o.zeroAttn, batchFirst := o.batchFirst, place := o.place }

end Spec

namespace AttnBuild
open Spec
variable {F : Type} [Casts F]

theorem fits_self (s : List Nat) : fits s s = true := by
  simp only [fits, le_refl, true_and, Nat.sub_self, List.drop_zero, decide_eq_true_eq]
  rw [List.all_eq_true]
  intro x hx
  obtain ⟨i, hi, rfl⟩ := List.mem_iff_getElem.mp hx
  simp

theorem source_self (s i : List Nat) (h : List.Forall₂ (· < ·) i s) : source s i = i := by
  have hl := h.length_eq
  simp only [source, hl, Nat.sub_self, List.drop_zero]
  clear hl
  induction h with
  | nil => rfl
  | @cons a b l1 l2 hab _ ih =>
    simp only [List.zipWith_cons_cons, ih]
    congr 1
    split <;> omega

/-- Copying into a parameter of the same shape. -/
theorem copy_self (d s : Ten F) (h1 : d.shape = s.shape) :
    ∃ t, copy (some d) s = .ok (some t) ∧ SameTen d.place t s ∧ t.grad = d.grad := by
  refine ⟨{ d with val := fun i => ofType s.place.dtype d.place.dtype (s.val (source s.shape i)) }, ?_, ⟨h1, rfl, fun i hi => ?_⟩, rfl⟩
  · simp only [copy, h1, fits_self, if_true]
    rfl
  · simp only [source_self _ _ hi]

/-- An attribute the module has or has not, copied into one that is there under the same condition. -/
theorem copyIf_same {p : Place} {sh : List Nat} (seed : String → List Nat → F) (name : String) (b : Bool) (s : Option (Ten F))
    (hs : (b = true ∧ Holds sh s) ∨ (b = false ∧ s = none)) :
    ∃ t, copyIf (bif b then some (fresh seed p name sh) else none) s = .ok t ∧ SameOpt p t s ∧ ∀ u, t = some u → u.grad = true := by
  rcases hs with ⟨rfl, u, rfl, hu⟩ | ⟨rfl, rfl⟩
  · obtain ⟨t, e, h1, h2⟩ := copy_self (fresh seed p name sh) u hu.symm
    refine ⟨some t, e, h1, fun u hu => ?_⟩
    cases hu
    exact h2
  · exact ⟨none, rfl, trivial, fun u hu => by cases hu⟩

theorem copyIf_same' {p : Place} {sh : List Nat} (seed : String → List Nat → F) (name : String) (b : Bool) (s : Option (Ten F))
    (hs : (b = false ∧ Holds sh s) ∨ (b = true ∧ s = none)) :
    ∃ t, copyIf (bif b then none else some (fresh seed p name sh)) s = .ok t ∧ SameOpt p t s ∧ ∀ u, t = some u → u.grad = true := by
  have h := copyIf_same (p := p) (sh := sh) seed name (!b) s (by
    rcases hs with ⟨rfl, h⟩ | ⟨rfl, h⟩
    · exact .inl ⟨rfl, h⟩
    · exact .inr ⟨rfl, h⟩)
  cases b <;> simpa using h

omit [Casts F] in
theorem Holds.isSome {sh : List Nat} {s : Option (Ten F)} (h : Holds sh s) : s.isSome = true := by
  obtain ⟨u, rfl, _⟩ := h; rfl

end AttnBuild

open Spec
variable {F : Type} [Casts F]

/-- C109: the module that is built has the sizes, options (but those that were asked for) and parameters of the original; whatever it was
initialised with. -/
theorem C109_kept_partial (seed : String → List Nat → F) (m : Mha F) (hm : Formed m) (o : Options F)
    (ho : ∀ h, o.heads = some h → h ≠ 0 ∧ m.embed % h = 0) :
    ∃ c, buildFrom seed m (asked o) = .ok c ∧
      c.embed = m.embed ∧ c.kdim = m.kdim ∧ c.vdim = m.vdim ∧ c.heads = o.heads.getD m.heads ∧ c.dropout = o.dropout.getD m.dropout ∧
      c.zeroAttn = o.zeroAttn.getD m.zeroAttn ∧ c.batchFirst = o.batchFirst.getD m.batchFirst ∧ SameWeights (o.place.getD m.outW.place) c m ∧
      c.training = true ∧ (∀ t, (some t = c.inW ∨ some t = c.qW ∨ some t = c.kW ∨ some t = c.vW ∨ some t = c.inB ∨ some t = c.biasK ∨
        some t = c.biasV ∨ t = c.outW ∨ some t = c.outB) → t.grad = true) := by
  have hh : ¬ (o.heads.getD m.heads = 0 ∨ m.embed % o.heads.getD m.heads ≠ 0) := by
    cases e : o.heads with
    | none => simpa [e] using hm.heads
    | some h => simpa [e] using ho h e
  generalize hp : o.place.getD m.outW.place = p
  generalize hsame : (m.kdim == m.embed && m.vdim == m.embed) = same
  have hproj := hm.proj
  obtain ⟨inW, e1, s1, g1⟩ := copyIf_same (p := p) (sh := [3 * m.embed, m.embed]) seed "in_proj_weight" same m.inW (by
    rcases hproj with ⟨a, b, c, _⟩ | ⟨a, b, _⟩
    · exact .inl ⟨by rw [← hsame]; simp [a, b], c⟩
    · exact .inr ⟨by rw [← hsame]; simpa using a, b⟩)
  obtain ⟨qW, e2, s2, g2⟩ := copyIf_same' (p := p) (sh := [m.embed, m.embed]) seed "q_proj_weight" same m.qW (by
    rcases hproj with ⟨a, b, _, c, _⟩ | ⟨a, _, b, _⟩
    · exact .inr ⟨by rw [← hsame]; simp [a, b], c⟩
    · exact .inl ⟨by rw [← hsame]; simpa using a, b⟩)
  obtain ⟨kW, e3, s3, g3⟩ := copyIf_same' (p := p) (sh := [m.embed, m.kdim]) seed "k_proj_weight" same m.kW (by
    rcases hproj with ⟨a, b, _, _, c, _⟩ | ⟨a, _, _, b, _⟩
    · exact .inr ⟨by rw [← hsame]; simp [a, b], c⟩
    · exact .inl ⟨by rw [← hsame]; simpa using a, b⟩)
  obtain ⟨vW, e4, s4, g4⟩ := copyIf_same' (p := p) (sh := [m.embed, m.vdim]) seed "v_proj_weight" same m.vW (by
    rcases hproj with ⟨a, b, _, _, _, c⟩ | ⟨a, _, _, _, b⟩
    · exact .inr ⟨by rw [← hsame]; simp [a, b], c⟩
    · exact .inl ⟨by rw [← hsame]; simpa using a, b⟩)
  obtain ⟨inB, e5, s5, g5⟩ := copyIf_same (p := p) (sh := [3 * m.embed]) seed "in_proj_bias" m.inB.isSome m.inB (by
    rcases hm.bias with ⟨a, _⟩ | ⟨a, _⟩
    · exact .inl ⟨Holds.isSome a, a⟩
    · exact .inr ⟨by rw [a]; rfl, a⟩)
  obtain ⟨outW, e6, s6, g6⟩ := copy_self (fresh seed p "out_proj.weight" [m.embed, m.embed]) m.outW hm.outW.symm
  obtain ⟨outB, e7, s7, g7⟩ := copyIf_same (p := p) (sh := [m.embed]) seed "out_proj.bias" m.inB.isSome m.outB (by
    rcases hm.bias with ⟨a, b⟩ | ⟨a, b⟩
    · exact .inl ⟨Holds.isSome a, b⟩
    · exact .inr ⟨by rw [a]; rfl, b⟩)
  obtain ⟨biasK, e8, s8, g8⟩ := copyIf_same (p := p) (sh := [1, 1, m.embed]) seed "bias_k" m.biasK.isSome m.biasK (by
    rcases hm.biasKV with ⟨a, _⟩ | ⟨a, _⟩
    · exact .inl ⟨Holds.isSome a, a⟩
    · exact .inr ⟨by rw [a]; rfl, a⟩)
  obtain ⟨biasV, e9, s9, g9⟩ := copyIf_same (p := p) (sh := [1, 1, m.embed]) seed "bias_v" m.biasK.isSome m.biasV (by
    rcases hm.biasKV with ⟨a, b⟩ | ⟨a, b⟩
    · exact .inl ⟨Holds.isSome a, b⟩
    · exact .inr ⟨by rw [a]; rfl, b⟩)
  refine ⟨⟨m.embed, o.heads.getD m.heads, m.kdim, m.vdim, o.dropout.getD m.dropout, o.batchFirst.getD m.batchFirst,
    o.zeroAttn.getD m.zeroAttn, inW, qW, kW, vW, inB, biasK, biasV, outW, outB, true⟩, ?_, rfl, rfl, rfl, rfl, rfl, rfl, rfl,
    ⟨s1, s2, s3, s4, s5, s8, s9, s6, s7⟩, rfl, ?_⟩
  · simp only [buildFrom, asked, make, argsOf, Option.getD_none, hh, if_false, bind, Except.bind, Option.getD_some, hsame, hp, e1, e2, e3, e4,
      e5, e6, e7, e8, e9, pure, Except.pure]
  · rintro t (h | h | h | h | h | h | h | h | h)
    · exact g1 t h.symm
    · exact g2 t h.symm
    · exact g3 t h.symm
    · exact g4 t h.symm
    · exact g5 t h.symm
    · exact g8 t h.symm
    · exact g9 t h.symm
    · subst h; exact g6
    · exact g7 t h.symm

omit [Casts F] in
theorem AttnBuild.sameOpt_elim {q : Place} [Casts F] {α : Type} (f : Ten F → α) {a b : Option (Ten F)} (h : SameOpt q a b)
    (hf : ∀ x y, b = some y → SameTen q x y → f x = f y) : a.map f = b.map f := by
  cases a <;> cases b
  · rfl
  · exact h.elim
  · exact h.elim
  · exact congrArg some (hf _ _ rfl h)

/-- All parameters are of one type. -/
def Spec.OneType (m : Mha F) : Prop :=
  ∀ t, (some t = m.inW ∨ some t = m.qW ∨ some t = m.kW ∨ some t = m.vW ∨ some t = m.inB ∨ some t = m.biasK ∨ some t = m.biasV ∨
    some t = m.outB) → t.place.dtype = m.outW.place.dtype

/-- C109: what the module computes with is what the original computes with, whatever it was initialised with. -/
theorem C109_function {n H D : Nat} (seed : String → List Nat → F) (m : Mha F) (hm : Formed m) (he : m.embed = H * D) (hp : OneType m) :
    ∃ c, buildFrom seed m {} = .ok c ∧ c.heads = m.heads ∧ c.embed = m.embed ∧ c.batchFirst = m.batchFirst ∧
      (∀ {kd vd : Nat} N sqrt ex proj, (paramsOf c N sqrt ex proj : Attn.Nd.Params F n H D kd vd) = paramsOf m N sqrt ex proj) ∧
      (m.kdim = m.embed → m.vdim = m.embed → ∃ P, packedOf (e := H * D) m = some P ∧ packedOf (e := H * D) c = some P) ∧
      (∀ {kd vd : Nat}, m.kdim = kd → m.vdim = vd → ¬ (kd = H * D ∧ vd = H * D) →
        ∃ P, separateOf (e := H * D) (kd := kd) (vd := vd) m = some P ∧ separateOf (e := H * D) (kd := kd) (vd := vd) c = some P) := by
  obtain ⟨c, e, hc1, _, _, hc2, _, hz, hc3, hw, _⟩ := C109_kept_partial seed m hm {} (by intro h hh; cases hh)
  refine ⟨c, e, hc2, hc1, hc3, ?_⟩
  have key : ∀ (a b : Ten F), SameTen m.outW.place a b → b.place.dtype = m.outW.place.dtype →
      ∀ i, List.Forall₂ (· < ·) i b.shape → a.val i = b.val i := by
    intro a b h hd i hi
    rw [h.2.2 i hi, ofType, if_pos hd]
  have mat : ∀ (a b : Ten F) (r k : Nat), SameTen m.outW.place a b → b.place.dtype = m.outW.place.dtype → b.shape = [r, k] →
      a.mat r k = b.mat r k := by
    intro a b r k h hd hs
    funext i j
    refine key a b h hd _ ?_
    rw [hs]
    exact .cons i.2 (.cons j.2 .nil)
  have vec : ∀ (a b : Ten F) (r : Nat), SameTen m.outW.place a b → b.place.dtype = m.outW.place.dtype → b.shape = [r] →
      a.vec r = b.vec r := by
    intro a b r h hd hs
    funext i
    refine key a b h hd _ ?_
    rw [hs]
    exact .cons i.2 .nil
  have vec3 : ∀ (a b : Ten F) (r : Nat), SameTen m.outW.place a b → b.place.dtype = m.outW.place.dtype → b.shape = [1, 1, r] →
      (fun i : Fin r => a.val [0, 0, i]) = fun i : Fin r => b.val [0, 0, i] := by
    intro a b r h hd hs
    funext i
    refine key a b h hd _ ?_
    rw [hs]
    exact .cons Nat.one_pos (.cons Nat.one_pos (.cons i.2 .nil))
  have shape : ∀ {sh : List Nat} {a : Option (Ten F)} {t}, Holds sh a → a = some t → t.shape = sh := by
    rintro sh a t ⟨u, rfl, h⟩ h2
    cases h2
    exact h
  refine ⟨fun {kd vd} N sqrt ex proj => ?_, fun hk hv => ?_, fun {kd vd} hk hv hne => ?_⟩
  · have h1 : c.inB.map (fun b => b.vec (3 * (H * D))) = m.inB.map (fun b => b.vec (3 * (H * D))) := by
      refine sameOpt_elim _ hw.inB fun x y hy hxy => vec x y _ hxy (hp y (by simp [hy])) ?_
      rcases hm.bias with h | h
      · rw [shape h.1 hy, he]
      · rw [h.1] at hy; cases hy
    have h2 : c.outB.map (fun b => b.vec (H * D)) = m.outB.map (fun b => b.vec (H * D)) := by
      refine sameOpt_elim _ hw.outB fun x y hy hxy => vec x y _ hxy (hp y (by simp [hy])) ?_
      rcases hm.bias with h | h
      · rw [shape h.2 hy, he]
      · rw [h.2] at hy; cases hy
    have h3 : c.biasK.map (fun b => fun i : Fin (H * D) => b.val [0, 0, i]) = m.biasK.map (fun b => fun i : Fin (H * D) => b.val [0, 0, i]) := by
      refine sameOpt_elim _ hw.biasK fun x y hy hxy => vec3 x y _ hxy (hp y (by simp [hy])) ?_
      rcases hm.biasKV with h | h
      · rw [shape h.1 hy, he]
      · rw [h.1] at hy; cases hy
    have h4 : c.biasV.map (fun b => fun i : Fin (H * D) => b.val [0, 0, i]) = m.biasV.map (fun b => fun i : Fin (H * D) => b.val [0, 0, i]) := by
      refine sameOpt_elim _ hw.biasV fun x y hy hxy => vec3 x y _ hxy (hp y (by simp [hy])) ?_
      rcases hm.biasKV with h | h
      · rw [shape h.2 hy, he]
      · rw [h.2] at hy; cases hy
    have h5 : (c.biasK.bind fun k => c.biasV.map fun v => ((fun i : Fin (H * D) => k.val [0, 0, i]), fun i : Fin (H * D) => v.val [0, 0, i])) =
        (m.biasK.bind fun k => m.biasV.map fun v => ((fun i : Fin (H * D) => k.val [0, 0, i]), fun i : Fin (H * D) => v.val [0, 0, i])) := by
      cases ck : c.biasK <;> cases cv : c.biasV <;> cases mk : m.biasK <;> cases mv : m.biasV <;>
        simp_all
    have h6 : c.outW.mat (H * D) (H * D) = m.outW.mat (H * D) (H * D) :=
      mat _ _ _ _ hw.outW rfl (by rw [hm.outW, he])
    simp only [paramsOf, h1, h2, h5, h6]
    congr 1
  · have hinW : Holds [3 * m.embed, m.embed] m.inW := by
      rcases hm.proj with h | h
      · exact h.2.2.1
      · exact absurd ⟨hk, hv⟩ h.1
    have h1 : c.inW.map (fun w => w.mat (3 * (H * D)) (H * D)) = m.inW.map (fun w => w.mat (3 * (H * D)) (H * D)) := by
      refine sameOpt_elim _ hw.inW fun x y hy hxy => mat x y _ _ hxy (hp y (by simp [hy])) ?_
      rw [shape hinW hy, he]
    obtain ⟨w, ew, _⟩ := hinW
    refine ⟨.packed (w.mat (3 * (H * D)) (H * D)), by rw [packedOf, ew]; rfl, ?_⟩
    rw [ew] at h1
    cases hc : c.inW with
    | none => rw [hc] at h1; cases h1
    | some w' =>
      rw [hc] at h1
      have h1 : w'.mat (3 * (H * D)) (H * D) = w.mat (3 * (H * D)) (H * D) := Option.some.inj h1
      rw [packedOf, hc, Option.map_some, h1]
  · obtain ⟨hq, hkk, hvv⟩ : Holds [m.embed, m.embed] m.qW ∧ Holds [m.embed, m.kdim] m.kW ∧ Holds [m.embed, m.vdim] m.vW := by
      rcases hm.proj with h | h
      · exact absurd ⟨hk.symm.trans (h.1.trans he), hv.symm.trans (h.2.1.trans he)⟩ hne
      · exact h.2.2
    have h1 : c.qW.map (fun w => w.mat (H * D) (H * D)) = m.qW.map (fun w => w.mat (H * D) (H * D)) := by
      refine sameOpt_elim _ hw.qW fun x y hy hxy => mat x y _ _ hxy (hp y (by simp [hy])) ?_
      rw [shape hq hy, he]
    have h2 : c.kW.map (fun w => w.mat (H * D) kd) = m.kW.map (fun w => w.mat (H * D) kd) := by
      refine sameOpt_elim _ hw.kW fun x y hy hxy => mat x y _ _ hxy (hp y (by simp [hy])) ?_
      rw [shape hkk hy, he, hk]
    have h3 : c.vW.map (fun w => w.mat (H * D) vd) = m.vW.map (fun w => w.mat (H * D) vd) := by
      refine sameOpt_elim _ hw.vW fun x y hy hxy => mat x y _ _ hxy (hp y (by simp [hy])) ?_
      rw [shape hvv hy, he, hv]
    obtain ⟨a, ea, _⟩ := hq
    obtain ⟨b, eb, _⟩ := hkk
    obtain ⟨d, ed, _⟩ := hvv
    refine ⟨.separate (a.mat (H * D) (H * D)) (b.mat (H * D) kd) (d.mat (H * D) vd), by rw [separateOf, ea, eb, ed]; rfl, ?_⟩
    rw [ea] at h1
    rw [eb] at h2
    rw [ed] at h3
    cases hca : c.qW <;> cases hcb : c.kW <;> cases hcd : c.vW <;> simp_all [separateOf]

/-- C109: so the module streams textbook multi-head attention with the weights of the original over the last `sequence_len` frames. -/
theorem C109_stream {K : Type} [Field K] [Casts K] {n H D : Nat} (seed : String → List Nat → K) (m : Mha K) (hm : Formed m)
    (he : m.embed = H * D) (hk : m.kdim = m.embed) (hv : m.vdim = m.embed) (hp : OneType m) (hz : m.zeroAttn = false) (hb : m.biasK = none)
    (N : Nat) (hN : 2 ≤ N) (sqrt : Nat → K) (ex : K → K) :
    ∃ c w Pc Pm, construct seed .retroactive m N {} = .ok (c, N) ∧ c.heads = m.heads ∧
      packedOf c = some Pc ∧ packedOf m = some Pm ∧ Pm = .packed w ∧
      ∀ (h : List (Attn.Nd.Frame K n (H * D) (H * D) (H * D))) i x, Reach (Attn.Nd.retro (paramsOf c N sqrt ex Pc)) h i →
        ∃ i', (Attn.Nd.retro (paramsOf c N sqrt ex Pc)).step i true x = .ok (if h.length + 1 < N then none
          else some (textbook (paramsOf m N sqrt ex Pm) w (lastN N (h ++ [x]))), i') := by
  obtain ⟨c, e, hh, _, _, h1, h2, _⟩ := C109_function (n := n) seed m hm he hp
  obtain ⟨P, p1, p2⟩ := h2 hk hv
  obtain ⟨w, rfl⟩ : ∃ w, P = .packed w := by
    unfold packedOf at p1
    cases hw : m.inW with
    | none => rw [hw] at p1; cases p1
    | some w => rw [hw] at p1; exact ⟨_, (Option.some.inj p1).symm⟩
  refine ⟨c, w, .packed w, .packed w, by simp only [construct, e]; rfl, hh, p2, p1, rfl, ?_⟩
  rw [h1]
  intro h i x hi
  obtain ⟨i', hs, _⟩ := C64_retroactive (paramsOf m N sqrt ex (.packed w)) w rfl hz (by simp [paramsOf, hb]) hN hi x
  exact ⟨i', hs⟩

/-- C109: the row of the query alone, with the single-output class; which refuses an index behind the last frame. -/
theorem C109_single {K : Type} [Field K] [Casts K] {n H D : Nat} (seed : String → List Nat → K) (m : Mha K) (hm : Formed m)
    (he : m.embed = H * D) (hk : m.kdim = m.embed) (hv : m.vdim = m.embed) (hp : OneType m) (hz : m.zeroAttn = false) (hb : m.biasK = none)
    (N : Nat) (hN : 1 ≤ N) (qi : Int) (sqrt : Nat → K) (ex : K → K) (sf : Bool) :
    ((N : Int) ≤ qi → construct seed (.singleOutput qi) m N {} = .error .assertion) ∧
    (-(N : Int) ≤ qi → qi < N → ∃ c w Pc Pm, construct seed (.singleOutput qi) m N {} = .ok (c, N) ∧ c.heads = m.heads ∧
      packedOf c = some Pc ∧ packedOf m = some Pm ∧ Pm = .packed w ∧
      ∀ (h : List (Attn.Nd.Frame K n (H * D) (H * D) (H * D))) i x, Reach (Attn.Nd.single (paramsOf c N sqrt ex Pc) qi sf) h i →
        (h.length + 1 < N → ∃ i', (Attn.Nd.single (paramsOf c N sqrt ex Pc) qi sf).step i true x = .ok (none, i')) ∧
        (N ≤ h.length + 1 → ∃ y i', (Attn.Nd.single (paramsOf c N sqrt ex Pc) qi sf).step i true x = .ok (some y, i') ∧
          pyGet (textbook (paramsOf m N sqrt ex Pm) w (lastN N (h ++ [x]))) qi = .ok y)) := by
  obtain ⟨c, e, hh, _, _, h1, h2, _⟩ := C109_function (n := n) seed m hm he hp
  have hmake : ∃ c0, make seed (argsOf m {}) = .ok c0 := by
    cases hmk : make seed (argsOf m {}) with
    | ok c0 => exact ⟨c0, rfl⟩
    | error err => simp only [buildFrom, hmk, bind, Except.bind] at e; cases e
  obtain ⟨c0, hc0⟩ := hmake
  refine ⟨fun hq => ?_, fun hq hq' => ?_⟩
  · simp only [construct, hc0, if_neg (Int.not_lt.mpr hq)]
  obtain ⟨P, p1, p2⟩ := h2 hk hv
  obtain ⟨w, rfl⟩ : ∃ w, P = .packed w := by
    unfold packedOf at p1
    cases hw : m.inW with
    | none => rw [hw] at p1; cases p1
    | some w => rw [hw] at p1; exact ⟨_, (Option.some.inj p1).symm⟩
  refine ⟨c, w, .packed w, .packed w, by simp only [construct, hc0, if_pos hq', e]; rfl, hh, p2, p1, rfl, ?_⟩
  rw [h1]
  have f1 : (paramsOf m N sqrt ex (.packed w) : Attn.Nd.Params K n H D (H * D) (H * D)).proj = .packed w := rfl
  have f2 : (paramsOf m N sqrt ex (.packed w) : Attn.Nd.Params K n H D (H * D) (H * D)).zeroAttn = false := hz
  have f3 : (paramsOf m N sqrt ex (.packed w) : Attn.Nd.Params K n H D (H * D) (H * D)).biasKV = none := by simp [paramsOf, hb]
  have f4 : (paramsOf m N sqrt ex (.packed w) : Attn.Nd.Params K n H D (H * D) (H * D)).N = N := rfl
  generalize (paramsOf m N sqrt ex (.packed w) : Attn.Nd.Params K n H D (H * D) (H * D)) = P at f1 f2 f3 f4 ⊢
  subst f4
  intro h i x hi
  obtain ⟨ha, hb'⟩ := C64_single P w f1 f2 f3 hN qi hq hq' sf hi x
  refine ⟨ha, fun hl => ?_⟩
  obtain ⟨y, i', h3, h4, _⟩ := hb' hl
  exact ⟨y, i', h3, h4⟩

/-- The projections of a module of the same sizes. -/
theorem AttnBuild.proj_ok (seed : String → List Nat → F) (m : Mha F) (hm : Formed m) (p : Place) :
    ∃ inW qW kW vW,
      copyIf (bif (m.kdim == m.embed && m.vdim == m.embed) then some (fresh seed p "in_proj_weight" [3 * m.embed, m.embed]) else none)
        m.inW = .ok inW ∧
      copyIf (bif (m.kdim == m.embed && m.vdim == m.embed) then none else some (fresh seed p "q_proj_weight" [m.embed, m.embed]))
        m.qW = .ok qW ∧
      copyIf (bif (m.kdim == m.embed && m.vdim == m.embed) then none else some (fresh seed p "k_proj_weight" [m.embed, m.kdim]))
        m.kW = .ok kW ∧
      copyIf (bif (m.kdim == m.embed && m.vdim == m.embed) then none else some (fresh seed p "v_proj_weight" [m.embed, m.vdim]))
        m.vW = .ok vW ∧ SameOpt p inW m.inW ∧ SameOpt p qW m.qW ∧ SameOpt p kW m.kW ∧ SameOpt p vW m.vW ∧
      ∀ u, (inW = some u ∨ qW = some u ∨ kW = some u ∨ vW = some u) → u.grad = true := by
  generalize hsame : (m.kdim == m.embed && m.vdim == m.embed) = same
  have hproj := hm.proj
  obtain ⟨inW, e1, s1, g1⟩ := copyIf_same (p := p) (sh := [3 * m.embed, m.embed]) seed "in_proj_weight" same m.inW (by
    rcases hproj with ⟨a, b, c, _⟩ | ⟨a, b, _⟩
    · exact .inl ⟨by rw [← hsame]; simp [a, b], c⟩
    · exact .inr ⟨by rw [← hsame]; simpa using a, b⟩)
  obtain ⟨qW, e2, s2, g2⟩ := copyIf_same' (p := p) (sh := [m.embed, m.embed]) seed "q_proj_weight" same m.qW (by
    rcases hproj with ⟨a, b, _, c, _⟩ | ⟨a, _, b, _⟩
    · exact .inr ⟨by rw [← hsame]; simp [a, b], c⟩
    · exact .inl ⟨by rw [← hsame]; simpa using a, b⟩)
  obtain ⟨kW, e3, s3, g3⟩ := copyIf_same' (p := p) (sh := [m.embed, m.kdim]) seed "k_proj_weight" same m.kW (by
    rcases hproj with ⟨a, b, _, _, c, _⟩ | ⟨a, _, _, b, _⟩
    · exact .inr ⟨by rw [← hsame]; simp [a, b], c⟩
    · exact .inl ⟨by rw [← hsame]; simpa using a, b⟩)
  obtain ⟨vW, e4, s4, g4⟩ := copyIf_same' (p := p) (sh := [m.embed, m.vdim]) seed "v_proj_weight" same m.vW (by
    rcases hproj with ⟨a, b, _, _, _, c⟩ | ⟨a, _, _, _, b⟩
    · exact .inr ⟨by rw [← hsame]; simp [a, b], c⟩
    · exact .inl ⟨by rw [← hsame]; simpa using a, b⟩)
  exact ⟨inW, qW, kW, vW, e1, e2, e3, e4, s1, s2, s3, s4, by
    rintro u (h | h | h | h)
    · exact g1 u h
    · exact g2 u h
    · exact g3 u h
    · exact g4 u h⟩

/-- C109: a module with biases is not built into one without. -/
theorem C109_less_bias (seed : String → List Nat → F) (m : Mha F) (hm : Formed m) :
    (m.inB.isSome = true → buildFrom seed m { bias := some false } = .error .attribute) ∧
    (m.biasK.isSome = true → buildFrom seed m { biasKV := some false } = .error .attribute) := by
  have hh : ¬ (m.heads = 0 ∨ m.embed % m.heads ≠ 0) := by simpa using hm.heads
  obtain ⟨inW, qW, kW, vW, e1, e2, e3, e4, _⟩ := proj_ok seed m hm m.outW.place
  generalize hsame : (m.kdim == m.embed && m.vdim == m.embed) = same at e1 e2 e3 e4
  refine ⟨fun hb => ?_, fun hb => ?_⟩
  · obtain ⟨b, hb⟩ := Option.isSome_iff_exists.mp hb
    have e5 : copyIf (bif false then some (fresh seed m.outW.place "in_proj_bias" [3 * m.embed]) else none) m.inB = .error .attribute := by
      rw [hb]; rfl
    simp only [buildFrom, make, argsOf, Option.getD_none, hh, if_false, bind, Except.bind, Option.getD_some, hsame, e1, e2, e3, e4, e5]
  · obtain ⟨inB, e5, _⟩ := copyIf_same (p := m.outW.place) (sh := [3 * m.embed]) seed "in_proj_bias" m.inB.isSome m.inB (by
      rcases hm.bias with ⟨a, _⟩ | ⟨a, _⟩
      · exact .inl ⟨Holds.isSome a, a⟩
      · exact .inr ⟨by rw [a]; rfl, a⟩)
    obtain ⟨outW, e6, _⟩ := copy_self (fresh seed m.outW.place "out_proj.weight" [m.embed, m.embed]) m.outW hm.outW.symm
    obtain ⟨outB, e7, _⟩ := copyIf_same (p := m.outW.place) (sh := [m.embed]) seed "out_proj.bias" m.inB.isSome m.outB (by
      rcases hm.bias with ⟨a, b⟩ | ⟨a, b⟩
      · exact .inl ⟨Holds.isSome a, b⟩
      · exact .inr ⟨by rw [a]; rfl, b⟩)
    obtain ⟨b, hb⟩ := Option.isSome_iff_exists.mp hb
    have e8 : copyIf (bif false then some (fresh seed m.outW.place "bias_k" [1, 1, m.embed]) else none) m.biasK = .error .attribute := by
      rw [hb]; rfl
    simp only [buildFrom, make, argsOf, Option.getD_none, hh, if_false, bind, Except.bind, Option.getD_some, hsame, e1, e2, e3, e4, e5, e6, e7, e8]

/-- C109: a learned key and value that the original has not are those the new module was initialised with; all else is kept. -/
theorem C109_more_bias (seed : String → List Nat → F) (m : Mha F) (hm : Formed m) (hb : m.biasK = none) :
    ∃ c k v, buildFrom seed m { biasKV := some true } = .ok c ∧ c.biasK = some k ∧ c.biasV = some v ∧ k.val = seed "bias_k" ∧
      v.val = seed "bias_v" ∧ SameWeights m.outW.place { c with biasK := none, biasV := none } m := by
  have hh : ¬ (m.heads = 0 ∨ m.embed % m.heads ≠ 0) := by simpa using hm.heads
  have hv : m.biasV = none := by
    rcases hm.biasKV with ⟨⟨u, hu, _⟩, _⟩ | h
    · rw [hb] at hu; cases hu
    · exact h.2
  obtain ⟨inW, qW, kW, vW, e1, e2, e3, e4, s1, s2, s3, s4, _⟩ := proj_ok seed m hm m.outW.place
  generalize hsame : (m.kdim == m.embed && m.vdim == m.embed) = same at e1 e2 e3 e4
  obtain ⟨inB, e5, s5, _⟩ := copyIf_same (p := m.outW.place) (sh := [3 * m.embed]) seed "in_proj_bias" m.inB.isSome m.inB (by
    rcases hm.bias with ⟨a, _⟩ | ⟨a, _⟩
    · exact .inl ⟨Holds.isSome a, a⟩
    · exact .inr ⟨by rw [a]; rfl, a⟩)
  obtain ⟨outW, e6, s6, _⟩ := copy_self (fresh seed m.outW.place "out_proj.weight" [m.embed, m.embed]) m.outW hm.outW.symm
  obtain ⟨outB, e7, s7, _⟩ := copyIf_same (p := m.outW.place) (sh := [m.embed]) seed "out_proj.bias" m.inB.isSome m.outB (by
    rcases hm.bias with ⟨a, b⟩ | ⟨a, b⟩
    · exact .inl ⟨Holds.isSome a, b⟩
    · exact .inr ⟨by rw [a]; rfl, b⟩)
  refine ⟨⟨m.embed, m.heads, m.kdim, m.vdim, m.dropout, m.batchFirst, m.zeroAttn, inW, qW, kW, vW, inB,
    some (fresh seed m.outW.place "bias_k" [1, 1, m.embed]), some (fresh seed m.outW.place "bias_v" [1, 1, m.embed]), outW, outB, true⟩,
    _, _, ?_, rfl, rfl, rfl, rfl, ⟨s1, s2, s3, s4, s5, by rw [hb]; trivial, by rw [hv]; trivial, s6, s7⟩⟩
  have e8 : copyIf (bif true then some (fresh seed m.outW.place "bias_k" [1, 1, m.embed]) else none) m.biasK =
      .ok (some (fresh seed m.outW.place "bias_k" [1, 1, m.embed])) := by rw [hb]; rfl
  have e9 : copyIf (bif true then some (fresh seed m.outW.place "bias_v" [1, 1, m.embed]) else none) m.biasV =
      .ok (some (fresh seed m.outW.place "bias_v" [1, 1, m.embed])) := by rw [hv]; rfl
  simp only [buildFrom, make, argsOf, Option.getD_none, hh, if_false, bind, Except.bind, Option.getD_some, hsame, e1, e2, e3, e4, e5, e6, e7,
    e8, e9, pure, Except.pure]

/-- C109: a module of another size is not built: whatever else is asked for. -/
theorem C109_other_size (seed : String → List Nat → F) (m : Mha F) (hm : Formed m) (h1 : m.embed ≠ 1) (k : Kwargs F) (e : Nat)
    (hk : k.embed = some e) (he : e ≠ m.embed) : ∃ err, buildFrom seed m k = .error err := by
  unfold buildFrom
  cases hmk : make seed (argsOf m k) with
  | error err => exact ⟨err, rfl⟩
  | ok c =>
    have hs : c.outW.shape = [e, e] := by
      simp only [make] at hmk
      split at hmk
      · cases hmk
      · cases hmk
        simp [fresh, argsOf, hk]
    have hc : copy (some c.outW) m.outW = .error .runtime := by
      have : fits m.outW.shape c.outW.shape = false := by
        rw [hm.outW, hs]
        simp [fits, h1, Ne.symm he]
      simp only [copy, this]
      rfl
    show ∃ err, ((copyIf c.inW m.inW) >>= _) = _
    cases copyIf c.inW m.inW with
    | error err => exact ⟨err, rfl⟩
    | ok a1 =>
    show ∃ err, ((copyIf c.qW m.qW) >>= _) = _
    cases copyIf c.qW m.qW with
    | error err => exact ⟨err, rfl⟩
    | ok a2 =>
    show ∃ err, ((copyIf c.kW m.kW) >>= _) = _
    cases copyIf c.kW m.kW with
    | error err => exact ⟨err, rfl⟩
    | ok a3 =>
    show ∃ err, ((copyIf c.vW m.vW) >>= _) = _
    cases copyIf c.vW m.vW with
    | error err => exact ⟨err, rfl⟩
    | ok a4 =>
    show ∃ err, ((copyIf c.inB m.inB) >>= _) = _
    cases copyIf c.inB m.inB with
    | error err => exact ⟨err, rfl⟩
    | ok a5 =>
    show ∃ err, ((copy (some c.outW) m.outW) >>= _) = _
    rw [hc]
    exact ⟨_, rfl⟩

/-! ### Examples -/

/-- No conversion between types. -/
def exCasts : Casts Int := ⟨fun _ x => x⟩

/-- A frozen module in evaluation mode: two features, two heads, keys of three features, learned key and value. -/
def exTorchMha : Mha Int where
  embed := 2
  heads := 2
  kdim := 3
  vdim := 2
  dropout := 0
  batchFirst := true
  zeroAttn := false
  inW := none
  qW := some ⟨[2, 2], fun i => i.sum, Place.default, false⟩
  kW := some ⟨[2, 3], fun i => i.sum + 1, Place.default, false⟩
  vW := some ⟨[2, 2], fun i => i.sum + 2, Place.default, false⟩
  inB := some ⟨[6], fun i => i.sum + 3, Place.default, false⟩
  biasK := some ⟨[1, 1, 2], fun i => i.sum + 4, Place.default, false⟩
  biasV := some ⟨[1, 1, 2], fun i => i.sum + 5, Place.default, false⟩
  outW := ⟨[2, 2], fun i => i.sum + 6, Place.default, false⟩
  outB := some ⟨[2], fun i => i.sum + 7, Place.default, false⟩
  training := false

theorem exTorchMha_formed : Formed exTorchMha where
  heads := by decide
  proj := .inr ⟨by decide, rfl, ⟨_, rfl, rfl⟩, ⟨_, rfl, rfl⟩, ⟨_, rfl, rfl⟩⟩
  bias := .inl ⟨⟨_, rfl, rfl⟩, ⟨_, rfl, rfl⟩⟩
  biasKV := .inl ⟨⟨_, rfl, rfl⟩, ⟨_, rfl, rfl⟩⟩
  outW := rfl

/-- The same with one matrix and neither biases nor learned key and value. -/
def exTorchMhaPacked : Mha Int :=
  { exTorchMha with
    kdim := 2, inW := some ⟨[6, 2], fun i => i.sum, Place.default, false⟩, qW := none, kW := none, vW := none, inB := none, outB := none,
    biasK := none, biasV := none }

theorem exTorchMhaPacked_formed : Formed exTorchMhaPacked where
  heads := by decide
  proj := .inl ⟨rfl, rfl, ⟨_, rfl, rfl⟩, rfl, rfl, rfl⟩
  bias := .inr ⟨rfl, rfl⟩
  biasKV := .inr ⟨rfl, rfl⟩
  outW := rfl

example : OneType exTorchMha ∧ OneType exTorchMhaPacked := by
  constructor <;> (rintro t (h | h | h | h | h | h | h | h) <;> cases h <;> rfl)

/-- C109: neither the mode nor what is frozen is kept. -/
theorem C109_mode_refuted : ¬ ∀ (F : Type) (_ : Casts F) (seed : String → List Nat → F) (m c : Mha F), Formed m → buildFrom seed m {} = .ok c →
    c.training = m.training ∧ c.outW.grad = m.outW.grad := by
  intro h
  letI := exCasts
  obtain ⟨c, hc, _, _, _, _, _, _, _, _, ht, _⟩ := C109_kept_partial (fun _ _ => 0) exTorchMha exTorchMha_formed {} (by intro h hh; cases hh)
  have := (h Int exCasts (fun _ _ => 0) exTorchMha c exTorchMha_formed hc).1
  rw [ht] at this
  cases this

/-- C109: with a learned key and value asked for, what is built depends on how it was initialised. -/
theorem C109_initial_refuted : ¬ ∀ (F : Type) (_ : Casts F) (seed seed' : String → List Nat → F) (m : Mha F) (k : Kwargs F), Formed m →
    buildFrom seed m k = buildFrom seed' m k := by
  intro h
  letI := exCasts
  have h := h Int exCasts (fun _ _ => 0) (fun _ _ => 1) exTorchMhaPacked { biasKV := some true } exTorchMhaPacked_formed
  obtain ⟨c, k, v, e, hk, _, hv, _⟩ := C109_more_bias (fun _ _ => (0 : Int)) exTorchMhaPacked exTorchMhaPacked_formed rfl
  obtain ⟨c', k', v', e', hk', _, hv', _⟩ := C109_more_bias (fun _ _ => (1 : Int)) exTorchMhaPacked exTorchMhaPacked_formed rfl
  rw [e, e'] at h
  have h := Except.ok.inj h
  subst h
  rw [hk] at hk'
  cases hk'
  rw [hv] at hv'
  exact absurd (congrFun hv' []) (by decide)

end CoInf
