/-
C114: keyword arguments of `build_from`.
-/
import Verif.Model.BuildOpt
import Verif.Props.AttnBuild

set_option autoImplicit false

namespace CoInf
open BuildOpt
open AttnBuild (Ten copy copyIf fits source fits_self source_self copy_self)
open CoInf.Typed (Place Casts)

namespace Spec
variable {F : Type}

/-- A convolution of torch, as its constructor, any training and any conversion of its parameters leave it. -/
structure FormedConv (m : TorchConv F) : Prop where
  weight : m.weight.shape = m.sizes.outC :: m.sizes.inC / m.sizes.groups :: m.sizes.kernel
  bias : ∀ b, m.bias = some b → b.shape = [m.sizes.outC]

/-- Arguments a continual convolution can have. -/
def Allowed (a : ConvSizes) (fill : String) : Prop :=
  a.dilation.head? = some 1 ∧ (a.mode = "zeros" ∨ a.mode = "replicate") ∧ (fill = "zeros" ∨ fill = "replicate") ∧ a.groups ≠ 0 ∧
    a.groups ∣ a.inC ∧ a.groups ∣ a.outC

/-- The arguments of the module, but for those asked for. -/
def convWith (m : TorchConv F) (k : ConvKw) : ConvSizes :=
  ⟨k.inC.getD m.sizes.inC, k.outC.getD m.sizes.outC, k.kernel.getD m.sizes.kernel, k.stride.getD m.sizes.stride,
    k.padding.getD m.sizes.padding, k.dilation.getD m.sizes.dilation, k.groups.getD m.sizes.groups, k.mode.getD m.sizes.mode⟩

/-- The fill asked for, or else the padding mode of the module. -/
def fillWith (m : TorchConv F) (k : ConvKw) : String := ((k.fill.filter (· ≠ "")).getD m.sizes.mode)

/-- A linear module of torch. -/
structure FormedLinear (m : TorchLinear F) : Prop where
  weight : m.weight.shape = [m.outF, m.inF]
  bias : ∀ b, m.bias = some b → b.shape = [m.outF]

/-- The same weight of the same layer. -/
def SamePar [Casts F] (q : Place) (a b : Par F) : Prop := a.role = b.role ∧ a.layer = b.layer ∧ SameTen q a.ten b.ten

/-- A recurrent module of torch with one direction. -/
structure FormedRnn (c : Cell) (m : RnnMod F) : Prop where
  layers : m.sizes.layers ≠ 0
  hidden : m.sizes.hidden ≠ 0
  proj : m.sizes.proj < m.sizes.hidden
  noProj : c ≠ .lstm → m.sizes.proj = 0
  nonlinearity : m.sizes.nonlinearity = "tanh" ∨ m.sizes.nonlinearity = "relu"
  flat : m.flat.map (fun w => (w.role, w.layer, w.ten.shape)) = flatShapes c m.sizes

/-- The weight of this name. -/
def weightOf (m : RnnMod F) (r : Role) (l : Nat) : Option (Ten F) := (m.flat.find? fun w => w.role = r ∧ w.layer = l).map (·.ten)

end Spec

namespace BuildOpt
open Spec
variable {F : Type}

theorem check_ok (a : ConvSizes) (fill : String) : a.check fill = .ok () ↔ Allowed a fill := by
  simp only [ConvSizes.check, Allowed, Nat.dvd_iff_mod_eq_zero, List.mem_cons, List.not_mem_nil, or_false]
  constructor
  · intro h
    split at h
    · cases h
    split at h
    · cases h
    split at h
    · cases h
    split at h
    · cases h
    rename_i h1 h2 h3 h4
    push Not at h1 h2 h3
    refine ⟨h1, h2.1, ?_, h3⟩
    rcases h2.2 with h | h | h
    · exact .inl h
    · exact .inr h
    · exact absurd h h4
  · rintro ⟨h1, h2, h3, h4, h5, h6⟩
    rw [if_neg (by simpa using h1), if_neg, if_neg, if_neg]
    · rcases h3 with rfl | rfl <;> decide
    · push Not; exact ⟨h4, h5, h6⟩
    · push Not; exact ⟨h2, by tauto⟩

theorem convFill_eq (m : TorchConv F) (k : ConvKw) : convFill m k = fillWith m k := by
  unfold convFill fillWith
  cases k.fill with
  | none => rfl
  | some f => by_cases h : f = "" <;> simp [Option.filter, h]

variable [Casts F]

theorem copy_ok (d s : Ten F) (t : Option (Ten F)) (h : copy (some d) s = .ok t) : fits s.shape d.shape = true ∧
    ∃ u, t = some u ∧ u.shape = d.shape ∧ u.place = d.place ∧ u.grad = d.grad ∧
      ∀ i, u.val i = ofType s.place.dtype d.place.dtype (s.val (source s.shape i)) := by
  simp only [copy] at h
  split at h
  · rename_i hf
    cases h
    exact ⟨hf, _, rfl, rfl, rfl, rfl, fun _ => rfl⟩
  · cases h

theorem copy_fits (d s : Ten F) (h : fits s.shape d.shape = true) :
    ∃ u, copy (some d) s = .ok (some u) ∧ u.shape = d.shape ∧ u.place = d.place ∧ u.grad = d.grad ∧
      ∀ i, u.val i = ofType s.place.dtype d.place.dtype (s.val (source s.shape i)) := by
  refine ⟨{ d with val := fun i => ofType s.place.dtype d.place.dtype (s.val (source s.shape i)) }, ?_, rfl, rfl, rfl, fun _ => rfl⟩
  simp only [copy, h, if_true]
  rfl

theorem copy_unfit (d s : Ten F) (h : fits s.shape d.shape = false) : copy (some d) s = .error .runtime := by
  simp [copy, h]

end BuildOpt

open Spec
variable {F : Type} [Casts F]

/-- C114: a convolution is built with the parameters of the original exactly if the arguments are known and allowed, and the shapes of the
parameters stay as they are; then it has the arguments of the original but for those asked for, whatever it was initialised with. -/
theorem C114_conv_exact (seed : String → List Nat → F) (dflt : Place) (m : TorchConv F) (hm : FormedConv m) (k : ConvKw) :
    (∃ c, buildConv seed dflt m k = .ok c ∧ SameTen (k.place.getD dflt) c.weight m.weight ∧ SameOpt (k.place.getD dflt) c.bias m.bias ∧
        c.sizes = convWith m k ∧ c.fill = fillWith m k) ↔
      k.unknown = [] ∧ Allowed (convWith m k) (fillWith m k) ∧ (convWith m k).outC = m.sizes.outC ∧
        (convWith m k).inC / (convWith m k).groups = m.sizes.inC / m.sizes.groups ∧ (convWith m k).kernel = m.sizes.kernel ∧
        k.bias.getD m.bias.isSome = m.bias.isSome := by
  have hs : convSizes m k = convWith m k := rfl
  unfold buildConv makeConv
  rw [hs, convFill_eq]
  generalize convWith m k = a
  generalize fillWith m k = f
  generalize k.place.getD dflt = q
  generalize hbias : k.bias.getD m.bias.isSome = b
  by_cases hu : k.unknown = []
  swap
  · rw [if_pos hu]
    exact ⟨fun ⟨c, h, _⟩ => (nomatch h), fun h => absurd h.1 hu⟩
  rw [if_neg (by simpa using hu)]
  by_cases hc : a.check f = .ok ()
  swap
  · have : ∃ e, a.check f = .error e := by
      cases h : a.check f with
      | error e => exact ⟨e, rfl⟩
      | ok u => cases u; exact absurd h hc
    obtain ⟨e, he⟩ := this
    rw [he]
    exact ⟨fun ⟨c, h, _⟩ => (nomatch h), fun h => absurd ((check_ok a f).2 h.2.1) hc⟩
  rw [hc]
  constructor
  · rintro ⟨c, h, hw, hb, -, -⟩
    simp only [Bind.bind, Except.bind, pure, Except.pure] at h
    split at h
    · cases h
    rename_i w ew
    split at h
    · cases h
    rename_i bb eb
    cases h
    obtain ⟨-, u, rfl, hsh, -⟩ := copy_ok _ _ _ ew
    have h1 : a.shape = m.weight.shape := hsh.symm.trans hw.1
    rw [hm.weight] at h1
    simp only [ConvSizes.shape, List.cons.injEq] at h1
    refine ⟨hu, (check_ok a f).1 hc, h1.1, h1.2.1, h1.2.2, ?_⟩
    cases hmb : m.bias with
    | none =>
      rw [hmb] at eb hb
      simp only [copyIf] at eb
      cases eb
      cases b with
      | false => rfl
      | true => exact absurd hb (by simp [SameOpt])
    | some s =>
      cases b with
      | true => rfl
      | false =>
        rw [hmb] at eb
        simp [copyIf, copy] at eb
  · rintro ⟨-, ha, h1, h2, h3, hb⟩
    have hsh : (AttnBuild.fresh seed q "weight" a.shape).shape = m.weight.shape := by
      rw [hm.weight]; simp [AttnBuild.fresh, ConvSizes.shape, h1, h2, h3]
    obtain ⟨w, ew, hw, -⟩ := copy_self _ _ hsh
    obtain ⟨bb, eb, hbb, -⟩ := AttnBuild.copyIf_same (p := q) (sh := [a.outC]) seed "bias" b m.bias (by
      cases hmb : m.bias with
      | none => right; rw [hmb] at hb; exact ⟨hb, rfl⟩
      | some s => left; rw [hmb] at hb; exact ⟨hb, s, rfl, by rw [h1]; exact hm.bias s hmb⟩)
    refine ⟨⟨a, f, w, bb⟩, ?_, hw, hbb, rfl, rfl⟩
    simp only [Bind.bind, Except.bind, pure, Except.pure, ew, eb, Option.getD]

/-- C114, violated: `bias=True` for a convolution without bias adds the random numbers the parameter was initialised with. -/
theorem C114_conv_bias_added (seed : String → List Nat → F) (dflt : Place) (m : TorchConv F) (hm : FormedConv m)
    (ha : Allowed m.sizes m.sizes.mode) (hb : m.bias = none) :
    ∃ c b, buildConv seed dflt m { bias := some true } = .ok c ∧ SameTen dflt c.weight m.weight ∧ c.bias = some b ∧ b.val = seed "bias" := by
  obtain ⟨w, ew, hw, -⟩ := copy_self (AttnBuild.fresh seed dflt "weight" m.sizes.shape) m.weight hm.weight.symm
  refine ⟨⟨m.sizes, m.sizes.mode, w, some (AttnBuild.fresh seed dflt "bias" [m.sizes.outC])⟩, _, ?_, hw, rfl, rfl⟩
  have hc := (check_ok _ _).2 ha
  unfold buildConv makeConv
  rw [if_neg (by simp)]
  show (do
    let c ← (do m.sizes.check m.sizes.mode; pure _ : Except Err (CoConv F)); _) = _
  rw [hc]
  simp only [Bind.bind, Except.bind, pure, Except.pure, convSizes, convFill, Option.getD, hb, copyIf, cond_true]
  rw [ew]

/-- C114: `bias=False` for a convolution with bias raises (`comodule.bias` is `None`). -/
theorem C114_conv_bias_dropped (seed : String → List Nat → F) (dflt : Place) (m : TorchConv F) (hm : FormedConv m)
    (ha : Allowed m.sizes m.sizes.mode) (hb : m.bias.isSome) :
    buildConv seed dflt m { bias := some false } = .error .attribute := by
  obtain ⟨w, ew, hw, -⟩ := copy_self (AttnBuild.fresh seed dflt "weight" m.sizes.shape) m.weight hm.weight.symm
  obtain ⟨s, hs⟩ := Option.isSome_iff_exists.1 hb
  have hc := (check_ok _ _).2 ha
  unfold buildConv makeConv
  rw [if_neg (by simp)]
  show (do
    let c ← (do m.sizes.check m.sizes.mode; pure _ : Except Err (CoConv F)); _) = _
  rw [hc]
  simp only [Bind.bind, Except.bind, pure, Except.pure, convSizes, convFill, Option.getD, hs, copyIf, cond_false, copy]
  simp only [copy] at ew
  rw [ew]

/-- C114, violated: another `kernel_size` for a convolution whose kernel has size one repeats its weight at each place. -/
theorem C114_conv_kernel_repeated (seed : String → List Nat → F) (dflt : Place) (m : TorchConv F) (hm : FormedConv m) (K : Nat)
    (ha : Allowed m.sizes m.sizes.mode) (hk : m.sizes.kernel = [1]) :
    ∃ c, buildConv seed dflt m { kernel := some [K] } = .ok c ∧ SameOpt dflt c.bias m.bias ∧
      c.weight.shape = [m.sizes.outC, m.sizes.inC / m.sizes.groups, K] ∧
      ∀ o i j, o < m.sizes.outC → i < m.sizes.inC / m.sizes.groups → j < K →
        c.weight.val [o, i, j] = ofType m.weight.place.dtype dflt.dtype (m.weight.val [o, i, 0]) := by
  have hw0 := hm.weight
  rw [hk] at hw0
  generalize hI : m.sizes.inC / m.sizes.groups = I at *
  obtain ⟨w, ew, h1, h2, -, h4⟩ := copy_fits (AttnBuild.fresh seed dflt "weight" [m.sizes.outC, I, K]) m.weight (by
    rw [hw0]; simp [AttnBuild.fresh, fits])
  obtain ⟨bb, eb, hbb, -⟩ := AttnBuild.copyIf_same (p := dflt) (sh := [m.sizes.outC]) seed "bias" m.bias.isSome m.bias (by
    cases hmb : m.bias with
    | none => exact .inr ⟨rfl, rfl⟩
    | some s => exact .inl ⟨rfl, s, rfl, hm.bias s hmb⟩)
  refine ⟨⟨{ m.sizes with kernel := [K] }, m.sizes.mode, w, bb⟩, ?_, hbb, h1, fun o i j ho hi hj => ?_⟩
  · have hc := (check_ok { m.sizes with kernel := [K] } m.sizes.mode).2 ha
    unfold buildConv makeConv
    rw [if_neg (by simp)]
    show (do
      let c ← (do ({ m.sizes with kernel := [K] } : ConvSizes).check m.sizes.mode; pure _ : Except Err (CoConv F)); _) = _
    rw [hc]
    simp only [Bind.bind, Except.bind, pure, Except.pure, convSizes, convFill, Option.getD, ConvSizes.shape, hI]
    simp only [copy] at ew ⊢
    rw [ew]
    simp only [eb]
  · show w.val _ = _
    rw [h4, hw0]
    have : source [m.sizes.outC, I, 1] [o, i, j] = [o, i, 0] := by
      simp only [source, List.length_cons, List.length_nil, Nat.sub_self, List.drop_zero, List.zipWith_cons_cons, List.zipWith_nil_left,
        if_true, List.cons.injEq, and_true]
      constructor <;> split <;> omega
    rw [this]
    rfl

/-- C114: a linear module is built with the parameters of the original exactly if the arguments are known and sizes and bias stay as they
are. -/
theorem C114_linear_exact (seed : String → List Nat → F) (m : TorchLinear F) (hm : FormedLinear m) (k : LinearKw) :
    (∃ c, buildLinear seed m k = .ok c ∧ SameTen (k.place.getD m.weight.place) c.weight m.weight ∧
        SameOpt (k.place.getD m.weight.place) c.bias m.bias ∧ c.inF = m.inF ∧ c.outF = m.outF ∧ c.channelDim = k.channelDim) ↔
      k.unknown = [] ∧ k.outF.getD m.outF = m.outF ∧ k.inF.getD m.inF = m.inF ∧ k.bias.getD m.bias.isSome = m.bias.isSome := by
  unfold buildLinear
  generalize k.place.getD m.weight.place = q
  generalize hbias : k.bias.getD m.bias.isSome = b
  generalize k.inF.getD m.inF = i
  generalize k.outF.getD m.outF = o
  by_cases hu : k.unknown = []
  swap
  · rw [if_pos hu]
    exact ⟨fun ⟨c, h, _⟩ => (nomatch h), fun h => absurd h.1 hu⟩
  rw [if_neg (by simpa using hu)]
  constructor
  · rintro ⟨c, h, hw, hb, h1, h2, -⟩
    simp only [Bind.bind, Except.bind, pure, Except.pure] at h
    split at h
    · cases h
    rename_i w ew
    split at h
    · cases h
    rename_i bb eb
    cases h
    refine ⟨hu, h2, h1, ?_⟩
    cases hmb : m.bias with
    | none =>
      rw [hmb] at eb hb
      simp only [copyIf] at eb
      cases eb
      cases b with
      | false => rfl
      | true => exact absurd hb (by simp [SameOpt])
    | some s =>
      cases b with
      | true => rfl
      | false =>
        rw [hmb] at eb
        simp [copyIf, copy] at eb
  · rintro ⟨-, rfl, rfl, hb⟩
    obtain ⟨w, ew, hw, -⟩ := copy_self (AttnBuild.fresh seed q "weight" [m.outF, m.inF]) m.weight hm.weight.symm
    obtain ⟨bb, eb, hbb, -⟩ := AttnBuild.copyIf_same (p := q) (sh := [m.outF]) seed "bias" b m.bias (by
      cases hmb : m.bias with
      | none => right; rw [hmb] at hb; exact ⟨hb, rfl⟩
      | some s => left; rw [hmb] at hb; exact ⟨hb, s, rfl, hm.bias s hmb⟩)
    refine ⟨⟨m.inF, m.outF, k.channelDim, w, bb⟩, ?_, hw, hbb, rfl, rfl, rfl⟩
    simp only [Bind.bind, Except.bind, pure, Except.pure, ew, eb, Option.getD]

/-- C114: options that convolutions and linear modules do not have are refused. -/
theorem C114_unknown_raises (seed : String → List Nat → F) (dflt : Place) :
    (∀ (m : TorchConv F) (k : ConvKw), k.unknown ≠ [] → buildConv seed dflt m k = .error .type) ∧
      ∀ (m : TorchLinear F) (k : LinearKw), k.unknown ≠ [] → buildLinear seed m k = .error .type :=
  ⟨fun _ _ h => if_pos h, fun _ _ h => if_pos h⟩

/-! ### Examples -/

/-- A pointwise convolution of two channels in one group, without bias. -/
def exTorchConv : TorchConv Int where
  sizes := ⟨2, 4, [1], [1], [0], [1], 2, "zeros"⟩
  weight := ⟨[4, 1, 1], fun i => i.sum, Place.default, false⟩
  bias := none

theorem exTorchConv_formed : FormedConv exTorchConv := ⟨rfl, fun b h => by cases h⟩

example : Allowed exTorchConv.sizes exTorchConv.sizes.mode := ⟨rfl, .inl rfl, .inl rfl, by decide, by decide, by decide⟩

/-- The same with a bias. -/
def exTorchConvBias : TorchConv Int := { exTorchConv with bias := some ⟨[4], fun i => i.sum, Place.default, true⟩ }

example : FormedConv exTorchConvBias := ⟨rfl, fun b h => by cases h; rfl⟩

/-- Options that change stride, padding, fill, type and device. -/
example : let k : ConvKw := { stride := some [2], padding := some [3], fill := some "replicate", place := some ⟨.double, .cpu⟩ }
    k.unknown = [] ∧ Allowed (convWith exTorchConv k) (fillWith exTorchConv k) ∧ (convWith exTorchConv k).outC = exTorchConv.sizes.outC ∧
      (convWith exTorchConv k).inC / (convWith exTorchConv k).groups = exTorchConv.sizes.inC / exTorchConv.sizes.groups ∧
      (convWith exTorchConv k).kernel = exTorchConv.sizes.kernel ∧ k.bias.getD exTorchConv.bias.isSome = exTorchConv.bias.isSome :=
  ⟨rfl, ⟨rfl, .inl rfl, .inr rfl, by decide, by decide, by decide⟩, rfl, rfl, rfl, rfl⟩

/-- A linear module. -/
def exTorchLinear : TorchLinear Int := ⟨2, 3, ⟨[3, 2], fun i => i.sum, Place.default, true⟩, some ⟨[3], fun i => i.sum, Place.default, true⟩⟩

example : FormedLinear exTorchLinear ∧ ({ channelDim := 1, bias := some true } : LinearKw).bias.getD exTorchLinear.bias.isSome =
    exTorchLinear.bias.isSome := ⟨⟨rfl, fun b h => by cases h; rfl⟩, rfl⟩

/-- C114: what `build_from` makes of a convolution depends on how it was initialised. -/
theorem C114_initial_refuted : ¬ ∀ (F : Type) (_ : Casts F) (seed seed' : String → List Nat → F) (dflt : Place) (m : TorchConv F) (k : ConvKw),
    FormedConv m → buildConv seed dflt m k = buildConv seed' dflt m k := by
  intro h
  letI := exCasts
  have h := h Int exCasts (fun _ _ => 0) (fun _ _ => 1) Place.default exTorchConv { bias := some true } exTorchConv_formed
  have ha : Allowed exTorchConv.sizes exTorchConv.sizes.mode := ⟨rfl, .inl rfl, .inl rfl, by decide, by decide, by decide⟩
  obtain ⟨c, b, e, _, hb, hv⟩ := C114_conv_bias_added (fun _ _ => (0 : Int)) Place.default exTorchConv exTorchConv_formed ha rfl
  obtain ⟨c', b', e', _, hb', hv'⟩ := C114_conv_bias_added (fun _ _ => (1 : Int)) Place.default exTorchConv exTorchConv_formed ha rfl
  rw [e, e'] at h
  have h := Except.ok.inj h
  subst h
  rw [hb] at hb'
  cases hb'
  rw [hv] at hv'
  exact absurd (congrFun hv' []) (by decide)

end CoInf
