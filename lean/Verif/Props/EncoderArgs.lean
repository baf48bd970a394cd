/-
Property C119: the arguments of the functions that make encoder layers.
-/
import Verif.Model.EncoderArgs

set_option autoImplicit false

namespace CoInf
open EncoderBuild EncoderArgs

namespace Spec

/-- The sizes and numbers of `nn.TransformerEncoderLayer(d_model, nhead, dim_feedforward, dropout, layer_norm_eps=eps)`. -/
structure TorchLayer where
  attention : Int × Int × ℚ
  linear1 : Int × Int
  linear2 : Int × Int
  norms : List (Int × ℚ)
  dropouts : List ℚ
  deriving DecidableEq

def torchLayerOf (d h f : Int) (p eps : ℚ) : TorchLayer :=
  ⟨(d, h, p), (d, f), (f, d), [(d, eps), (d, eps)], [p, p]⟩

/-- The numbers are such that torch makes a layer of them, and `sequence_len` is a positive integer. -/
structure Usable {H : Type} (a : Args H) (n : Int) : Prop where
  model : 0 < a.d_model
  heads : 0 < a.nhead ∧ a.nhead ∣ a.d_model
  feedforward : 0 ≤ a.dim_feedforward
  dropout : 0 ≤ a.dropout ∧ a.dropout ≤ 1
  len : a.sequence_len = some n ∧ 0 < n

/-- The function that the documentation of `activation` describes: the argument itself or the function with this name. -/
inductive ActivationIs {H : Type} (relu gelu : H → H) : Activation H → (H → H) → Prop
  | itself (k : Callable) (f : H → H) : ActivationIs relu gelu (.fn k f) f
  | relu : ActivationIs relu gelu (.name "relu") relu
  | gelu : ActivationIs relu gelu (.name "gelu") gelu

/-- The documented texts, with the class of the attention (`none`: retroactive) and, for single-output attention, whether `forward`
has one output. -/
def documentedKinds : List (String × Option Bool) :=
  [("retroactive", none), ("single_output", some false), ("single_output_forward", some true)]

end Spec

open Spec

namespace EncoderArgs
variable {H : Type}

/-- The part of a layer that torch's layer has as well. -/
def Made.torch (m : Made H) : TorchLayer := ⟨m.attn, m.linear1, m.linear2, [m.norm1, m.norm2], [m.drop1, m.drop2]⟩

theorem lenOf_ok {s : Option Int} {n : Int} : lenOf s = .ok n ↔ s = some n ∧ 0 < n := by
  cases s with
  | none => simp [lenOf]
  | some k =>
    show (if k > 0 then Except.ok k else Except.error Err.assertion) = .ok n ↔ _
    by_cases h : k > 0
    · rw [if_pos h]
      constructor
      · intro e; cases e; exact ⟨rfl, h⟩
      · rintro ⟨e, -⟩; cases e; rfl
    · rw [if_neg h]
      constructor
      · intro e; cases e
      · rintro ⟨e, h'⟩; cases e; omega

theorem sized_ok {n : Int} : sized n = .ok () ↔ 0 ≤ n := by
  unfold sized; split <;> simp <;> omega

theorem mhaInit_ok {d h : Int} : mhaInit d h = .ok () ↔ 0 < d ∧ 0 < h ∧ h ∣ d := by
  unfold mhaInit
  by_cases h1 : d ≤ 0 ∨ h ≤ 0
  · rw [if_pos h1]; simp; omega
  · rw [if_neg h1]
    by_cases h2 : d % h = 0
    · rw [if_pos h2]; simp only [true_iff]; exact ⟨by omega, by omega, Int.dvd_of_emod_eq_zero h2⟩
    · rw [if_neg h2]; simp only [reduceCtorEq, false_iff]; rintro ⟨-, -, h3⟩; exact h2 (Int.emod_eq_zero_of_dvd h3)

theorem linearInit_ok {n m : Int} : linearInit n m = .ok () ↔ 0 ≤ n ∧ 0 ≤ m := by
  unfold linearInit
  rw [← sized_ok, ← sized_ok (n := m)]
  cases h1 : sized n with
  | error e => simp [bind, Except.bind]
  | ok u => simp [bind, Except.bind]

theorem dropInit_ok {p : ℚ} : dropInit p = .ok () ↔ 0 ≤ p ∧ p ≤ 1 := by
  unfold dropInit
  by_cases h : p < 0 ∨ 1 < p
  · rw [if_pos h]; simp only [reduceCtorEq, false_iff, not_and, not_le]
    intro h0; rcases h with h | h
    · exact absurd h (not_lt.2 h0)
    · exact h
  · rw [if_neg h]; simp only [true_iff]
    rw [not_or, not_lt, not_lt] at h; exact h

theorem bind_ok {A B : Type} {x : Except Err A} {f : A → Except Err B} {b : B} :
    (x >>= f) = .ok b ↔ ∃ a, x = .ok a ∧ f a = .ok b := by
  cases x <;> simp [bind, Except.bind]

theorem bind_unit_ok {B : Type} {x : Except Err Unit} {y : Except Err B} {b : B} :
    (x >>= fun _ => y) = .ok b ↔ x = .ok () ∧ y = .ok b := by
  cases x <;> simp [bind, Except.bind]

theorem ensure_ok {p : Prop} [Decidable p] : ensure p = .ok () ↔ p := by
  unfold ensure
  by_cases h : p <;> simp [h]

theorem adopted_ok {k : Callable} : k.adopted = .ok () ↔ k = .python ∨ k = .listed := by
  cases k <;> simp [Callable.adopted]

/-- The delay of single-output attention for the query `q` and sequences of `n` frames. -/
def age (n q : Int) : Int := if q ≥ 0 then n - q - 1 else -q - 1

theorem singleWith_ok {c : Except Err (Callable × (H → H))} {a : Args H} {sf : Bool} {q : Int} {m : Made H} :
    singleWith c a sf q = .ok m ↔ ∃ n k f, Usable a n ∧ q < n ∧ c = .ok (k, f) ∧ (k = .python ∨ k = .listed) ∧
      m = { norm1 := (a.d_model, a.layer_norm_eps), norm2 := (a.d_model, a.layer_norm_eps),
            attn := (a.d_model, a.nhead, a.dropout), cls := some (q, sf), len := n,
            linear1 := (a.d_model, a.dim_feedforward), act := f, drop1 := a.dropout,
            linear2 := (a.dim_feedforward, a.d_model), drop2 := a.dropout,
            shortcut := if sf then .select (age n q) else .identity } := by
  unfold singleWith
  rw [bind_ok]
  simp only [bind_unit_ok, bind_ok (x := c), ensure_ok, lenOf_ok, sized_ok, mhaInit_ok, linearInit_ok, dropInit_ok, adopted_ok]
  constructor
  · rintro ⟨n, hn, h1, h2, h3, h4, h5, h6, f, hf, h7, h8, h9⟩
    exact ⟨n, f.1, f.2, ⟨h2.1, h2.2, h4.2, h5, hn⟩, h3, hf, h7, (Except.ok.inj h9).symm⟩
  · rintro ⟨n, k, f, hu, hq, hc, hk, rfl⟩
    have := hu.model
    have := hu.len.2
    refine ⟨n, hu.len, by omega, ⟨hu.model, hu.heads⟩, hq, ⟨by omega, hu.feedforward⟩, hu.dropout,
      ⟨hu.feedforward, by omega⟩, (k, f), hc, hk, ?_, rfl⟩
    intro _
    split <;> omega

theorem retroWith_ok {c : Except Err (Callable × (H → H))} {a : Args H} {m : Made H} :
    retroWith c a = .ok m ↔ ∃ n k f, Usable a n ∧ c = .ok (k, f) ∧
      m = { norm1 := (a.d_model, a.layer_norm_eps), norm2 := (a.d_model, a.layer_norm_eps),
            attn := (a.d_model, a.nhead, a.dropout), cls := none, len := n,
            linear1 := (a.d_model, a.dim_feedforward), act := f, drop1 := a.dropout,
            linear2 := (a.dim_feedforward, a.d_model), drop2 := a.dropout, shortcut := .unity (n - 1) } := by
  unfold retroWith
  rw [bind_ok]
  simp only [bind_unit_ok, bind_ok (x := c), lenOf_ok, sized_ok, mhaInit_ok, linearInit_ok, dropInit_ok]
  constructor
  · rintro ⟨n, hn, h1, h2, h4, f, hf, h5, h6, h9⟩
    exact ⟨n, f.1, f.2, ⟨h2.1, h2.2, h4.2, h5, hn⟩, hf, (Except.ok.inj h9).symm⟩
  · rintro ⟨n, k, f, hu, hc, rfl⟩
    have := hu.model
    exact ⟨n, hu.len, by omega, ⟨hu.model, hu.heads⟩, ⟨by omega, hu.feedforward⟩, (k, f), hc, hu.dropout,
      ⟨hu.feedforward, by omega⟩, rfl⟩

end EncoderArgs

namespace EncoderArgs
variable {H : Type}

theorem singleWith_error {a : Args H} {n : Int} (hu : Usable a n) {c : Except Err (Callable × (H → H))} (sf : Bool) (q : Int)
    (hc : c = .error .assertion ∨ ∃ f, c = .ok f ∧ f.1.adopted = .error .assertion) :
    singleWith c a sf q = .error .assertion := by
  have h := hu.model
  unfold singleWith
  rw [lenOf_ok.2 hu.len, sized_ok.2 (show 0 ≤ a.d_model by omega), mhaInit_ok.2 ⟨hu.model, hu.heads⟩,
    linearInit_ok.2 ⟨show 0 ≤ a.d_model by omega, hu.feedforward⟩, dropInit_ok.2 hu.dropout,
    linearInit_ok.2 ⟨hu.feedforward, show 0 ≤ a.d_model by omega⟩]
  by_cases hq : q < n
  · simp only [ensure_ok.2 hq, bind, Except.bind]
    rcases hc with rfl | ⟨f, rfl, hf⟩
    · rfl
    · simp only [hf]
  · simp only [ensure, if_neg hq, bind, Except.bind]

theorem retroWith_error {a : Args H} {n : Int} (hu : Usable a n) :
    retroWith (.error .assertion) a = .error .assertion := by
  have h := hu.model
  unfold retroWith
  rw [lenOf_ok.2 hu.len, sized_ok.2 (show 0 ≤ a.d_model by omega), mhaInit_ok.2 ⟨hu.model, hu.heads⟩,
    linearInit_ok.2 ⟨show 0 ≤ a.d_model by omega, hu.feedforward⟩]
  rfl

end EncoderArgs

/-! ### C119 -/

section C119
variable {H : Type}

/-- **C119**, the layer functions: exactly which arguments they accept (numbers that torch accepts, a positive `sequence_len`, a
query before the end of the sequence, and an activation that can be called and, for single-output layers, is a function
defined in Python or a module of a listed class), and the layer then has the sizes, numbers and the activation of torch's
layer.  With one output in `forward`, the residual connection selects the frame of the query. -/
theorem C119_layers (a : Args H) :
    (∀ sf q m, singleOutput a sf q = .ok m ↔ ∃ n k f, Usable a n ∧ q < n ∧ a.activation = .fn k f ∧ (k = .python ∨ k = .listed) ∧
      m.torch = torchLayerOf a.d_model a.nhead a.dim_feedforward a.dropout a.layer_norm_eps ∧ m.act = f ∧ m.len = n ∧
      m.cls = some (q, sf) ∧
      m.shortcut = (if sf then .select (if 0 ≤ q then n - 1 - q else -1 - q) else .identity)) ∧
    (∀ m, retroactive a = .ok m ↔ ∃ n k f, Usable a n ∧ a.activation = .fn k f ∧
      m.torch = torchLayerOf a.d_model a.nhead a.dim_feedforward a.dropout a.layer_norm_eps ∧ m.act = f ∧ m.len = n ∧
      m.cls = none ∧ m.shortcut = .unity (n - 1)) := by
  have hg : ∀ k f, asGiven a.activation = .ok (k, f) ↔ a.activation = .fn k f := by
    intro k f
    cases a.activation <;> simp [asGiven]
  constructor
  · intro sf q m
    unfold singleOutput
    rw [singleWith_ok]
    refine exists_congr fun n => exists_congr fun k => exists_congr fun f => and_congr_right fun _ => and_congr_right fun _ =>
      and_congr (hg k f) (and_congr_right fun _ => ?_)
    have e : age n q = if 0 ≤ q then n - 1 - q else -1 - q := by
      unfold age; split <;> omega
    rw [e]
    constructor
    · rintro rfl; exact ⟨rfl, rfl, rfl, rfl, rfl⟩
    · obtain ⟨n1, n2, at', cls, len, l1, act, d1, l2, d2, sh⟩ := m
      rintro ⟨h1, h2, h3, h4, h5⟩
      simp only [Made.torch, torchLayerOf, TorchLayer.mk.injEq, List.cons.injEq, and_true] at h1 h2 h3 h4 h5
      obtain ⟨e1, e2, e3, ⟨e4, e5⟩, e6, e7⟩ := h1
      subst e1 e2 e3 e4 e5 e6 e7 h2 h3 h4 h5
      rfl
  · intro m
    unfold retroactive
    rw [retroWith_ok]
    refine exists_congr fun n => exists_congr fun k => exists_congr fun f => and_congr_right fun _ => and_congr (hg k f) ?_
    constructor
    · rintro rfl; exact ⟨rfl, rfl, rfl, rfl, rfl⟩
    · obtain ⟨n1, n2, at', cls, len, l1, act, d1, l2, d2, sh⟩ := m
      rintro ⟨h1, h2, h3, h4, h5⟩
      simp only [Made.torch, torchLayerOf, TorchLayer.mk.injEq, List.cons.injEq, and_true] at h1 h2 h3 h4 h5
      obtain ⟨e1, e2, e3, ⟨e4, e5⟩, e6, e7⟩ := h1
      subst e1 e2 e3 e4 e5 e6 e7 h2 h3 h4 h5
      rfl

/-- **C119**, the factory, as far as it holds.  For numbers that torch accepts, a positive `sequence_len` and an activation that is
`"relu"`, a function defined in Python or a module of a listed class, each of the texts for continual attention gives a layer of
this kind with the sizes, numbers and the activation of torch's layer.  What is missing: the text `"regular"`
(`C119_regular_refuted`), the activation `"gelu"` (`C70_gelu_refuted`) and other callables (`C119_builtin_refuted`). -/
theorem C119_factory_partial (relu gelu : H → H) {a : Args H} {n : Int} (hu : Usable a n) {f : H → H}
    (hf : ActivationIs relu gelu a.activation f) (hg : a.activation ≠ .name "gelu")
    (hk : ∀ k g, a.activation = .fn k g → k = .python ∨ k = .listed) :
    ∀ t ∈ documentedKinds, ∃ m, factory relu a (.text t.1) = .ok (some m) ∧
      m.torch = torchLayerOf a.d_model a.nhead a.dim_feedforward a.dropout a.layer_norm_eps ∧ m.act = f ∧ m.len = n ∧
      m.cls = t.2.map fun sf => (-1, sf) := by
  have hr : ∃ k, resolve relu a.activation = .ok (k, f) ∧ (k = .python ∨ k = .listed) := by
    generalize a.activation = act at hf hg hk
    cases hf with
    | itself k f' => exact ⟨k, rfl, hk k _ rfl⟩
    | relu => exact ⟨_, rfl, .inl rfl⟩
    | gelu => exact absurd rfl hg
  obtain ⟨k, hr, hk'⟩ := hr
  have hs : ∀ sf, ∃ m, singleWith (resolve relu a.activation) a sf (-1) = .ok m ∧
      m.torch = torchLayerOf a.d_model a.nhead a.dim_feedforward a.dropout a.layer_norm_eps ∧ m.act = f ∧ m.len = n ∧
      m.cls = some (-1, sf) := fun sf =>
    ⟨_, singleWith_ok.2 ⟨n, k, f, hu, by have := hu.len.2; omega, hr, hk', rfl⟩, rfl, rfl, rfl, rfl⟩
  intro t ht
  simp only [documentedKinds, List.mem_cons, List.not_mem_nil, or_false] at ht
  rcases ht with rfl | rfl | rfl
  · refine ⟨_, congrArg (Except.map some) (retroWith_ok.2 ⟨n, k, f, hu, hr, rfl⟩), rfl, rfl, rfl, rfl⟩
  · obtain ⟨m, h, h'⟩ := hs false
    exact ⟨m, congrArg (Except.map some) h, h'⟩
  · obtain ⟨m, h, h'⟩ := hs true
    exact ⟨m, congrArg (Except.map some) h, h'⟩

/-- **C119** fails for the documented text `"regular"`: the factory returns `None`, whatever the arguments are. -/
theorem C119_regular_refuted (relu : H → H) (a : Args H) : factory relu a (.text "regular") = .ok none := rfl

/-- **C119** fails for the documented names of activations in the layer functions: with arguments that are accepted otherwise,
both raise `AssertionError`. -/
theorem C119_names_refuted {a : Args H} {n : Int} (hu : Usable a n) (s : String) (ha : a.activation = .name s) (sf : Bool) (q : Int) :
    singleOutput a sf q = .error .assertion ∧ retroactive a = .error .assertion := by
  unfold singleOutput retroactive
  rw [ha]
  exact ⟨singleWith_error hu sf q (.inl rfl), retroWith_error hu⟩

/-- **C119** fails for functions of torch that are written in C++ and for callables without a registered conversion: single-output
layers raise `AssertionError`, retroactive ones are made. -/
theorem C119_builtin_refuted (relu : H → H) {a : Args H} {n : Int} (hu : Usable a n) {k : Callable} {f : H → H}
    (ha : a.activation = .fn k f) (hk : k = .builtin ∨ k = .other) :
    factory relu a (.text "single_output") = .error .assertion ∧
    factory relu a (.text "single_output_forward") = .error .assertion ∧
    ∃ m, factory relu a (.text "retroactive") = .ok (some m) ∧ m.act = f := by
  have hr : resolve relu a.activation = .ok (k, f) := by rw [ha]; rfl
  have hs : ∀ sf, singleWith (resolve relu a.activation) a sf (-1) = .error .assertion := fun sf =>
    singleWith_error hu sf _ (.inr ⟨_, hr, by rcases hk with rfl | rfl <;> rfl⟩)
  exact ⟨congrArg (Except.map some) (hs false), congrArg (Except.map some) (hs true), _,
    congrArg (Except.map some) (retroWith_ok.2 ⟨n, k, f, hu, hr, rfl⟩), rfl⟩

/-- **C119**, other names of activations: with arguments that are accepted otherwise, the factory raises `AssertionError`. -/
theorem C119_unknown_names (relu : H → H) {a : Args H} {n : Int} (hu : Usable a n) {s : String} (ha : a.activation = .name s)
    (h1 : s ≠ "relu") (h2 : s ≠ "gelu") : ∀ t ∈ documentedKinds, factory relu a (.text t.1) = .error .assertion := by
  have hr : resolve relu a.activation = .error .assertion := by
    rw [ha]
    unfold resolve
    split
    · rename_i h; cases h
    · rename_i h; cases h; exact absurd rfl h1
    · rename_i h; cases h; exact absurd rfl h2
    · rfl
  have hs : ∀ sf, singleWith (resolve relu a.activation) a sf (-1) = .error .assertion := fun sf =>
    singleWith_error hu sf _ (.inl hr)
  intro t ht
  simp only [documentedKinds, List.mem_cons, List.not_mem_nil, or_false] at ht
  rcases ht with rfl | rfl | rfl
  · exact congrArg (Except.map some) (show retroWith (resolve relu a.activation) a = .error .assertion by rw [hr]; exact retroWith_error hu)
  · exact congrArg (Except.map some) (hs false)
  · exact congrArg (Except.map some) (hs true)

/-- **C119** fails for the documented default of `sequence_len`: without it, all layer functions and all texts for continual
attention raise `TypeError`. -/
theorem C119_default_refuted (relu : H → H) {a : Args H} (ha : a.sequence_len = none) :
    (∀ sf q, singleOutput a sf q = .error .type) ∧ retroactive a = .error .type ∧
    ∀ t ∈ documentedKinds, factory relu a (.text t.1) = .error .type := by
  have hs : ∀ c sf q, singleWith c a sf q = .error .type := fun c sf q => by unfold singleWith; rw [ha]; rfl
  have hr : ∀ c, retroWith c a = .error .type := fun c => by unfold retroWith; rw [ha]; rfl
  refine ⟨fun sf q => hs _ sf q, hr _, fun t ht => ?_⟩
  simp only [documentedKinds, List.mem_cons, List.not_mem_nil, or_false] at ht
  rcases ht with rfl | rfl | rfl
  · exact congrArg (Except.map some) (hr _)
  · exact congrArg (Except.map some) (hs _ _ _)
  · exact congrArg (Except.map some) (hs _ _ _)

/-- **C119**, the argument of the factory's function: texts other than the four documented ones raise `ValueError`, and each of
these four means one member of `MhaType`, different texts different ones. -/
theorem C119_texts :
    (∀ (relu : H → H) (a : Args H) (s : String), s ≠ "regular" → s ∉ documentedKinds.map Prod.fst →
      factory relu a (.text s) = .error .value) ∧
    ∀ m : MhaType, ∃ s, (s = "regular" ∨ s ∈ documentedKinds.map Prod.fst) ∧
      (∀ (relu : H → H) (a : Args H), factory relu a (.text s) = factory relu a (.member m)) ∧
      ∀ s', mhaType (.text s') = .ok m → s' = s := by
  constructor
  · intro relu a s h1 h2
    simp only [documentedKinds, List.map_cons, List.map_nil, List.mem_cons, List.not_mem_nil, or_false, not_or] at h2
    unfold factory mhaType
    simp only [if_neg h1, if_neg h2.1, if_neg h2.2.1, if_neg h2.2.2]
  · intro m
    cases m
    · refine ⟨"retroactive", .inr (by simp [documentedKinds]), fun _ _ => rfl, fun s' h => ?_⟩
      unfold mhaType at h; simp only at h
      split at h <;> [assumption; skip]
      repeat' (split at h <;> try cases h)
    · refine ⟨"single_output", .inr (by simp [documentedKinds]), fun _ _ => rfl, fun s' h => ?_⟩
      unfold mhaType at h; simp only at h
      split at h
      · cases h
      split at h <;> [assumption; skip]
      repeat' (split at h <;> try cases h)
    · refine ⟨"single_output_forward", .inr (by simp [documentedKinds]), fun _ _ => rfl, fun s' h => ?_⟩
      unfold mhaType at h; simp only at h
      split at h
      · cases h
      split at h
      · cases h
      split at h <;> [assumption; skip]
      repeat' (split at h <;> try cases h)
    · refine ⟨"regular", .inl rfl, fun _ _ => rfl, fun s' h => ?_⟩
      unfold mhaType at h; simp only at h
      split at h
      · cases h
      split at h
      · cases h
      split at h
      · cases h
      split at h <;> [assumption; cases h]

/-! ### Examples -/

/-- A layer for frames of 512 features, the example of the documentation (transformer.py:467-470). -/
def exArgs : Args ℚ :=
  { d_model := 512, nhead := 8, dim_feedforward := 2048, dropout := 1 / 10, activation := .fn .python (max 0),
    layer_norm_eps := 1 / 100000, sequence_len := some 32 }

example : Usable exArgs 32 :=
  ⟨by decide, ⟨by decide, by decide⟩, by decide, ⟨by decide +kernel, by decide +kernel⟩, rfl, by decide⟩

example : ActivationIs (max 0) id exArgs.activation (max 0) := .itself _ _

example : ∃ m, singleOutput exArgs true 4 = .ok m ∧ m.shortcut = .select 27 :=
  ⟨_, singleWith_ok.2 ⟨32, .python, max 0, ⟨by decide, ⟨by decide, by decide⟩, by decide,
    ⟨by decide +kernel, by decide +kernel⟩, rfl, by decide⟩, by decide, rfl, .inl rfl, rfl⟩, rfl⟩

end C119

end CoInf
