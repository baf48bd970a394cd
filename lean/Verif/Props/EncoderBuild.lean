/-
Property C70: `TransformerEncoder.build_from` makes an encoder that computes what the torch encoder computes.
-/
import Verif.Model.EncoderBuild
import Verif.Spec.EncoderBuild
import Verif.Props.Transformer

set_option autoImplicit false

namespace CoInf
open Spec Transformer EncoderBuild

namespace EncoderBuild

/-! ### The transfer does not look at the values -/

section transfer
variable {V W : Type}

theorem insertBy_map {A C : Type} (ka : A → Str) (kc : C → Str) (g : A → C) (h : ∀ a, kc (g a) = ka a) (a : A) :
    ∀ l : List A, insertBy kc (g a) (l.map g) = (insertBy ka a l).map g
  | [] => rfl
  | b :: l => by
    simp only [insertBy, List.map_cons, h]
    split
    · rfl
    · rw [insertBy_map ka kc g h a l]; rfl

theorem sorted_map {A C : Type} (ka : A → Str) (kc : C → Str) (g : A → C) (h : ∀ a, kc (g a) = ka a) (l : List A) :
    sorted kc (l.map g) = (sorted ka l).map g := by
  induction l with
  | nil => rfl
  | cons a l ih =>
    simp only [sorted, List.map_cons, List.foldr_cons] at ih ⊢
    rw [ih, insertBy_map ka kc g h]

theorem pair_map (f : V → W) (nk : List Str) : ∀ (ms : List (Str × Nat)) (rs : List (Str × V)),
    pair nk ms (rs.map fun e => (e.1, f e.2)) = (pair nk ms rs).map (List.map fun e => (e.1, f e.2))
  | [], rs => by simp [pair, Except.map]
  | _ :: _, [] => rfl
  | m :: ms, r :: rs => by
    simp only [pair, List.map_cons, pair_map f nk ms rs]
    cases pair nk ms rs <;> rfl

theorem transfer_map (f : V → W) (nk : List Str) (sd : List (Str × V)) :
    transfer nk (sd.map fun e => (e.1, f e.2)) = (transfer nk sd).map (List.map fun e => (e.1, f e.2)) := by
  unfold transfer
  simp only [sorted_map Prod.fst Prod.fst (fun e : Str × V => (e.1, f e.2)) (fun _ => rfl), List.zip_map_right, List.all_map,
    Function.comp_def, Prod.map, id]
  by_cases h : (((sorted Prod.fst (nk.zipIdx.map fun k => (normalise k.1, k.2))).zip (sorted Prod.fst sd)).all fun p =>
      lastTwo p.1.1 == lastTwo p.2.1) = true
  · rw [if_pos h, if_pos h]; exact pair_map f nk _ _
  · rw [if_neg h, if_neg h]; rfl

theorem lookup_map_snd {A : Type} [BEq A] (f : V → W) (a : A) : ∀ l : List (A × V),
    (l.map fun e => (e.1, f e.2)).lookup a = (l.lookup a).map f
  | [] => rfl
  | e :: l => by
    simp only [List.map_cons, List.lookup]
    cases a == e.1
    · exact lookup_map_snd f a l
    · rfl

end transfer

/-! ### Every parameter gets the right weight -/

/-- What the parameter of a layer is for. -/
def roleOf : Slot → Role
  | .in_proj_weight => .inW
  | .in_proj_bias => .inB
  | .out_proj_weight => .outW
  | .out_proj_bias => .outB
  | .linear1_weight => .w1
  | .linear1_bias => .b1
  | .linear2_weight => .w2
  | .linear2_bias => .b2
  | .norm1_weight => .n1W
  | .norm1_bias => .n1B
  | .norm2_weight => .n2W
  | .norm2_bias => .n2B

/-- The parameter of the torch encoder that belongs to a parameter of the continual one. -/
def source {V : Type} (w : Nat → Role → V) (final : V × V) : Place → V
  | .layer i s => w i (roleOf s)
  | .finalWeight => final.1
  | .finalBias => final.2

/-- Labels for the parameters of the torch encoder. -/
abbrev Label := (Nat × Role) ⊕ Bool

def labelled (n : Nat) (norm : Bool) : List (String × Label) :=
  torchDict n (fun i r => .inl (i, r)) (if norm then some (.inr true, .inr false) else none)

/-- With the labels as values, every parameter of the continual encoder receives its own label. -/
def right (n : Nat) (norm : Bool) : Bool :=
  match transfer ((net n norm).map Prod.snd) ((labelled n norm).map fun e => (e.1.toList, e.2)) with
  | .error _ => false
  | .ok sd => (net n norm).all fun p => decide (sd.lookup p.2 = some (source (fun i r => Sum.inl (i, r)) (.inr true, .inr false) p.1))

theorem right_all : ∀ n ∈ [1, 2], ∀ norm, right n norm = true := by decide +kernel

/-- All parameters of a layer. -/
def slots : List Slot := [.in_proj_weight, .in_proj_bias, .out_proj_weight, .out_proj_bias, .linear1_weight, .linear1_bias,
  .linear2_weight, .linear2_bias, .norm1_weight, .norm1_bias, .norm2_weight, .norm2_bias]

theorem places : ∀ n ∈ [1, 2], ∀ norm : Bool, ∀ i ∈ List.range n, ∀ s ∈ slots,
    ((net n norm).lookup (.layer i s)).isSome = true := by decide +kernel

theorem final_places : ∀ n ∈ [1, 2], ((net n true).lookup .finalWeight).isSome = true ∧
    ((net n true).lookup .finalBias).isSome = true := by decide +kernel

theorem mem_of_lookup {A C : Type} [DecidableEq A] {a : A} {c : C} : ∀ {l : List (A × C)}, l.lookup a = some c → (a, c) ∈ l
  | e :: l, h => by
    simp only [List.lookup] at h
    by_cases ha : a = e.1
    · subst ha
      simp only [beq_self_eq_true] at h
      cases h
      exact List.mem_cons_self ..
    · rw [beq_eq_false_iff_ne.2 ha] at h
      exact List.mem_cons_of_mem _ (mem_of_lookup h)

section build
variable {V F X B E H : Type} [Field F] [Fintype E]

/-- The state dict, from the labels. -/
theorem torchDict_eq (n : Nat) (w : Nat → Role → V) (final : Option (V × V)) (d : V × V) (hd : ∀ p ∈ final, p = d) :
    torchDict n w final = (labelled n final.isSome).map fun e =>
      (e.1, Sum.elim (fun p : Nat × Role => w p.1 p.2) (fun b => if b then d.1 else d.2) e.2) := by
  unfold labelled torchDict
  cases final with
  | none => simp [List.map_flatMap, Function.comp_def]
  | some p =>
    obtain rfl := hd p rfl
    simp [List.map_flatMap, Function.comp_def]

/-- After `load_state_dict`, every parameter of the new encoder has the value of the parameter of the torch encoder that
it belongs to. -/
theorem transferred (n : Nat) (hn : n = 1 ∨ n = 2) (w : Nat → Role → V) (final : Option (V × V)) :
    ∃ sd, transfer ((net n final.isSome).map Prod.snd) ((torchDict n w final).map fun e => (e.1.toList, e.2)) = .ok sd ∧
      ∀ p ∈ net n final.isSome, ∀ d, (∀ q ∈ final, q = d) → sd.lookup p.2 = some (source w d p.1) := by
  have hr := right_all n (by simpa using hn) final.isSome
  unfold right at hr
  have hnone : ∀ q : V × V, final = some q → ∀ d, (∀ q ∈ final, q = d) → q = d := fun q hq d h => h q hq
  split at hr
  · cases hr
  · rename_i sd hsd
    have key : ∀ d : V × V, (∀ q ∈ final, q = d) →
        transfer ((net n final.isSome).map Prod.snd) ((torchDict n w final).map fun e => (e.1.toList, e.2)) =
        .ok (sd.map fun e => (e.1, Sum.elim (fun p : Nat × Role => w p.1 p.2) (fun b => if b then d.1 else d.2) e.2)) := by
      intro d hd
      rw [torchDict_eq n w final d hd, List.map_map]
      have := transfer_map (Sum.elim (fun p : Nat × Role => w p.1 p.2) (fun b => if b then d.1 else d.2))
        ((net n final.isSome).map Prod.snd) ((labelled n final.isSome).map fun e => (e.1.toList, e.2))
      rw [List.map_map, hsd] at this
      exact this
    cases final with
    | none =>
      have d0 : V × V := (w 0 .inW, w 0 .inW)
      refine ⟨_, key d0 (by simp), fun p hp d hd => ?_⟩
      have h1 := key d (by simp)
      rw [key d0 (by simp)] at h1
      rw [Except.ok.inj h1, lookup_map_snd, of_decide_eq_true (List.all_eq_true.1 hr p hp)]
      cases p.1 <;> rfl
    | some q =>
      refine ⟨_, key q (by simp), fun p hp d hd => ?_⟩
      obtain rfl := hd q rfl
      rw [lookup_map_snd, of_decide_eq_true (List.all_eq_true.1 hr p hp)]
      cases p.1 <;> rfl

theorem encoder_one [Add X] [Zero X] (mk : Nat → Layer F X B E) (norm : Option (X → X)) (h : (mk 0).attn.N ≠ 0) :
    encoder mk ((1 : Nat) : Int) norm = .ok (withNorm (Sequential.mod (.single (singleLayer (mk 0) (-1) false))) norm) := by
  unfold encoder; rw [if_neg h, if_pos (by decide)]

theorem encoder_two [Add X] [Zero X] (mk : Nat → Layer F X B E) (norm : Option (X → X)) (h : (mk 0).attn.N ≠ 0) :
    encoder mk ((2 : Nat) : Int) norm = .ok (withNorm (twoLayers (mk 0) (mk 1)) norm) := by
  unfold encoder; rw [if_neg h, if_neg (by decide), if_neg (by decide)]

theorem encoder_congr [Add X] [Zero X] {mk mk' : Nat → Layer F X B E} {n : Nat} (hn : n = 1 ∨ n = 2) (norm : Option (X → X))
    (h0 : (mk 0).attn.N ≠ 0) (h : ∀ i < n, mk i = mk' i) : encoder mk n norm = encoder mk' n norm := by
  rcases hn with hn | hn
  · rw [hn, encoder_one _ _ h0, encoder_one _ _ (by rw [← h 0 (by omega)]; exact h0), h 0 (by omega)]
  · rw [hn, encoder_two _ _ h0, encoder_two _ _ (by rw [← h 0 (by omega)]; exact h0), h 0 (by omega), h 1 (by omega)]

end build
end EncoderBuild

/-! ### C70 -/

section C70
variable {V F X B E H : Type} [Field F] [Fintype E] [AddCommGroup X]

/-- What the torch encoder computes on a clip, where `A` says how the modules compute with their parameters. -/
def torchForward (A : Arch V F X B E H) (act : H → H) (normFirst : Bool) (n : Nat) (w : Nat → Role → V)
    (final : Option (V × V)) (xs : List X) : List X :=
  ((List.range n).foldl (fun ys i =>
    let c := A.attn (w i .inW) (w i .inB) (w i .outW) (w i .outB)
    torchLayer normFirst (multihead c.ex c.scale c.q c.k c.v c.out) (A.norm (w i .n1W) (w i .n1B))
      (fun y => A.linear2 (w i .w2) (w i .b2) (act (A.linear1 (w i .w1) (w i .b1) y)))
      (A.norm (w i .n2W) (w i .n2B)) ys) xs).map
    (match final with
      | none => id
      | some p => A.norm p.1 p.2)

/-- The torch encoder with these weights. -/
def torchEncoder (k : Callable) (act : H → H) (normFirst : Bool) (n : Nat) (w : Nat → Role → V) (final : Option (V × V)) :
    TorchEncoder V H where
  numLayers := n
  kind := k
  activation := act
  normFirst := normFirst
  norm := final.isSome
  stateDict := torchDict n w final

/-- The weights of layer `i` of the torch encoder in the places of a continual layer. -/
def layerOf (A : Arch V F X B E H) (act : H → H) (N : Nat) (w : Nat → Role → V) (i : Nat) : Layer F X B E :=
  mkLayer A act N fun s => w i (roleOf s)

def finalOf (A : Arch V F X B E H) (final : Option (V × V)) : Option (X → X) := final.map fun p => A.norm p.1 p.2

theorem buildFrom_eq (A : Arch V F X B E H) (relu act : H → H) {k : Callable} (hk : k = .python ∨ k = .listed) (nf : Bool) {n : Nat} (hn : n = 1 ∨ n = 2)
    (w : Nat → Role → V) (final : Option (V × V)) (N : Nat) (hN : N ≠ 0) (init : Place → V) :
    buildFrom A relu (torchEncoder k act nf n w final) N init = encoder (layerOf A act N w) n (finalOf A final) := by
  have hk' : k.adopted = .ok () := by rcases hk with rfl | rfl <;> rfl
  unfold buildFrom torchEncoder
  rw [if_neg (show ¬ n = 0 by omega)]
  have hok : ∃ m, construct A relu (.fn k act) N n final.isSome init = .ok m := by
    unfold construct resolve
    simp only [hk']
    rcases hn with hn | hn
    · rw [hn]; exact ⟨_, encoder_one _ _ hN⟩
    · rw [hn]; exact ⟨_, encoder_two _ _ hN⟩
  obtain ⟨m, hm⟩ := hok
  simp only [hm]
  obtain ⟨sd, h1, h2⟩ := transferred n hn w final
  simp only [h1]
  have hl : ∀ d, (∀ q ∈ final, q = d) → ∀ p, ((net n final.isSome).lookup p).isSome = true →
      loaded (net n final.isSome) sd init p = source w d p := by
    intro d hd p hp
    obtain ⟨k, hk⟩ := Option.isSome_iff_exists.1 hp
    unfold loaded
    rw [hk]
    simp only [h2 _ (mem_of_lookup hk) d hd, Option.getD_some]
  have d0 : V × V := (w 0 .inW, w 0 .inW)
  have hd : ∃ d, ∀ q ∈ final, q = d := by
    cases final with
    | none => exact ⟨d0, by simp⟩
    | some q => exact ⟨q, by simp⟩
  obtain ⟨d, hd⟩ := hd
  rw [if_pos (List.all_eq_true.2 fun k hk => by
    obtain ⟨p, hp, rfl⟩ := List.mem_map.1 hk
    rw [h2 p hp d hd]; rfl)]
  have hfin : (if final.isSome = true then
      some (A.norm (loaded (net n final.isSome) sd init .finalWeight) (loaded (net n final.isSome) sd init .finalBias))
      else none) = finalOf A final := by
    cases final with
    | none => rfl
    | some q =>
      obtain rfl := hd q rfl
      have hp := final_places n (by simpa using hn)
      rw [if_pos (show (some q).isSome = true from rfl), hl q hd _ hp.1, hl q hd _ hp.2]; rfl
  unfold construct resolve
  simp only [hk']
  rw [hfin]
  refine encoder_congr hn _ hN fun i hi => ?_
  unfold layerOf
  congr 1
  funext s
  rw [hl d hd _ (places n (by simpa using hn) _ i (List.mem_range.2 hi) s (by cases s <;> decide))]
  rfl

/-- **C70**, one layer, as far as it holds.  For every torch encoder with one post-norm layer (any weights, any activation
that is a function defined in Python or a module of a listed class, final norm or none) and every `sequence_len ≥ 1`: `build_from` succeeds; `forward` of the result is the torch encoder; after
any history, from frame `sequence_len` on each step returns the last token of the torch encoder on the last
`sequence_len` frames. What is missing: `norm_first`, see `C70_norm_first_refuted`, and other
activations, see `C70_builtin_refuted`. -/
theorem C70_one_layer_partial (A : Arch V F X B E H) (relu act : H → H) {k : Callable}
    (hk : k = .python ∨ k = .listed) (w : Nat → Role → V) (final : Option (V × V))
    (N : Nat) (hN : 1 ≤ N) (init : Place → V) :
    ∃ m, buildFrom A relu (torchEncoder k act false 1 w final) N init = .ok m ∧
      (∀ i xs, xs ≠ [] → (m.fwd i xs).map Prod.fst = .ok (torchForward A act false 1 w final xs)) ∧
      ∀ {h i}, Reach m h i → ∀ x, N ≤ h.length + 1 →
        ∃ j z, (torchForward A act false 1 w final (lastN N (h ++ [x]))).getLast? = some z ∧
          m.step i true x = .ok (some z, j) := by
  obtain ⟨m, h1, h2, h3⟩ := C37_one_layer_partial (layerOf A act N w) hN (finalOf A final)
  have e : ∀ xs, torchForward A act false 1 w final xs = (layerOn (layerOf A act N w 0) xs).map ((finalOf A final).getD id) := by
    intro xs; cases final <;> rfl
  refine ⟨m, by rw [buildFrom_eq A relu act hk false (.inl rfl) w final N (by omega)]; exact h1, fun i xs hne => ?_,
    fun hi x hl => ?_⟩
  · rw [h3 i xs hne, e]
  · obtain ⟨j, z, hz, hs⟩ := h2 hi x hl
    refine ⟨j, _, ?_, hs⟩
    rw [e, List.getLast?_map]
    erw [hz]; rfl

/-- **C70**, two layers, as far as it holds.  For every torch encoder with two post-norm layers, such
activations and every `sequence_len ≥ 2`: `build_from` succeeds; `forward` returns the last token of the torch encoder; after any history, the
steps from frame `sequence_len` to frame `2 (sequence_len - 1)` return the last token of the torch encoder on the last
`sequence_len` frames.  What is missing: later frames (`C37_two_layers_refuted`), more than two layers
(`C70_many_layers_refuted`), `norm_first`. -/
theorem C70_two_layers_partial (A : Arch V F X B E H) (relu act : H → H) {k : Callable}
    (hk : k = .python ∨ k = .listed) (w : Nat → Role → V) (final : Option (V × V))
    (N : Nat) (hN : 2 ≤ N) (init : Place → V) :
    ∃ m, buildFrom A relu (torchEncoder k act false 2 w final) N init = .ok m ∧
      (∀ i xs, xs ≠ [] → ∃ z, (torchForward A act false 2 w final xs).getLast? = some z ∧
        (m.fwd i xs).map Prod.fst = .ok [z]) ∧
      ∀ {h i}, Reach m h i → ∀ x, N ≤ h.length + 1 → h.length + 1 ≤ 2 * (N - 1) →
        ∃ j z, (torchForward A act false 2 w final (lastN N (h ++ [x]))).getLast? = some z ∧
          m.step i true x = .ok (some z, j) := by
  obtain ⟨m, h1, h2, h3⟩ := C37_two_layers_partial (layerOf A act N w) hN (finalOf A final)
  have e : ∀ xs, torchForward A act false 2 w final xs =
      (layerOn (layerOf A act N w 1) (layerOn (layerOf A act N w 0) xs)).map ((finalOf A final).getD id) := by
    intro xs; cases final <;> rfl
  refine ⟨m, by rw [buildFrom_eq A relu act hk false (.inr rfl) w final N (by omega)]; exact h1, fun i xs hne => ?_,
    fun hi x hl hl' => ?_⟩
  · obtain ⟨z, hz, hs⟩ := h3 i xs hne
    refine ⟨_, ?_, hs⟩
    rw [e, List.getLast?_map, hz]; rfl
  · obtain ⟨j, z, hz, hs⟩ := h2 hi x hl hl'
    refine ⟨j, _, ?_, hs⟩
    rw [e, List.getLast?_map]
    erw [hz]; rfl

/-- **C70** fails for three or more layers: `build_from` raises. -/
theorem C70_many_layers_refuted (A : Arch V F X B E H) (relu : H → H) (t : TorchEncoder V H) (ht : 3 ≤ t.numLayers) (N : Nat)
    (init : Place → V) : buildFrom A relu t N init = .error .assertion := by
  unfold buildFrom
  rw [if_neg (by omega)]
  have : construct A relu (.fn t.kind t.activation) N t.numLayers t.norm init = .error .assertion := by
    unfold construct resolve
    simp only
    cases t.kind with
    | builtin => rfl
    | other => rfl
    | python => exact C37_many_layers_refuted _ _ (by omega) _
    | listed => exact C37_many_layers_refuted _ _ (by omega) _
  rw [this]

/-- **C70** fails for activations that are functions of torch written in C++ (`nn.TransformerEncoderLayer(..., activation="gelu")`
keeps `nn.functional.gelu`, which is one) or callables without a registered conversion: `build_from` raises, whatever the
number of layers, the weights and `sequence_len`. -/
theorem C70_builtin_refuted (A : Arch V F X B E H) (relu : H → H) (t : TorchEncoder V H) (ht : 1 ≤ t.numLayers)
    (hk : t.kind = .builtin ∨ t.kind = .other) (N : Nat) (init : Place → V) :
    buildFrom A relu t N init = .error .assertion := by
  unfold buildFrom
  rw [if_neg (by omega)]
  have : construct A relu (.fn t.kind t.activation) N t.numLayers t.norm init = .error .assertion := by
    unfold construct resolve
    rcases hk with hk | hk <;> rw [hk] <;> rfl
  rw [this]

end C70

/-- Tokens and all parameters are rational numbers; uniform attention whose output is scaled by the weight of the
projection. -/
def exArch : Arch ℚ ℚ ℚ Unit Unit ℚ where
  attn := fun wi bi wo bo => { N := 1, q := fun x _ _ => x, k := fun x _ _ => x, v := fun x _ _ => wi * x + bi, scale := 1,
                               ex := fun _ => 1, out := fun r => wo * r () () + bo }
  linear1 := fun w b x => w * x + b
  linear2 := fun w b x => w * x + b
  norm := fun w b x => w * x + b

/-- Different weights for all parameters of all layers. -/
def exWeights (i : Nat) : Role → ℚ
  | .inW => 1 + i | .inB => 1 / 2 | .outW => 3 | .outB => -1 + i
  | .w1 => 2 | .b1 => -3 | .w2 => 1 / 3 | .b2 => 5
  | .n1W => 1 / 4 | .n1B => 7 | .n2W => -2 - i | .n2B => 11

/-- **C70** fails for `norm_first`: `build_from` drops the option, and the new encoder computes something else. -/
theorem C70_norm_first_refuted :
    (∀ {V F X B E H : Type} [Field F] [Fintype E] [AddCommGroup X] (A : Arch V F X B E H) (relu : H → H)
      (t : TorchEncoder V H) (b : Bool) (N : Nat) (init : Place → V),
      buildFrom A relu { t with normFirst := b } N init = buildFrom A relu t N init) ∧
    ∃ m, buildFrom exArch (max 0) (torchEncoder .python (max 0) true 1 exWeights none) 2 (fun _ => 0) = .ok m ∧
      (m.fwd m.init [1, 2]).map Prod.fst ≠ .ok (torchForward exArch (max 0) true 1 exWeights none [1, 2]) := by
  refine ⟨fun _ _ _ _ _ _ => rfl, ?_⟩
  obtain ⟨m, h1, _, h3⟩ := C37_one_layer_partial (layerOf exArch (max 0) 2 exWeights) (by decide) (finalOf exArch none)
  refine ⟨m, (buildFrom_eq _ _ _ (.inl rfl) _ (.inl rfl) _ _ _ (by decide) _).trans h1, ?_⟩
  rw [h3 _ _ (by simp)]
  intro h
  have h' := Except.ok.inj h
  revert h'
  decide +kernel

/-- **C70** fails for the factory's `activation="gelu"`: whatever function `gelu` is, if it differs from `relu` somewhere
then there are weights for which the encoder made with `activation="gelu"` does not compute what the one made with a
Python function that computes `gelu` computes (it computes what the one made with `relu` does). -/
theorem C70_gelu_refuted (relu gelu : ℚ → ℚ) (h : relu ≠ gelu) :
    (∀ {V F X B E : Type} [Field F] [Fintype E] [AddCommGroup X] (A : Arch V F X B E ℚ) (N n : Nat) (norm : Bool)
      (get : Place → V), construct A relu (.name "gelu") N n norm get = construct A relu (.fn .python relu) N n norm get) ∧
    ∃ get x m m', construct exArch relu (.name "gelu") 1 1 false get = .ok m ∧
      construct exArch relu (.fn .python gelu) 1 1 false get = .ok m' ∧
      (m.fwd m.init [x]).map Prod.fst ≠ (m'.fwd m'.init [x]).map Prod.fst := by
  refine ⟨fun _ _ _ _ _ => rfl, ?_⟩
  obtain ⟨y, hy⟩ := Function.ne_iff.1 h
  let get : Place → ℚ := fun p => match p with
    | .layer _ .norm1_weight => 1
    | .layer _ .norm2_weight => 1
    | .layer _ .linear1_weight => 1
    | .layer _ .linear2_weight => 1
    | _ => 0
  obtain ⟨m, h1, _, h3⟩ := C37_one_layer_partial (fun i => mkLayer exArch relu 1 fun s => get (.layer i s)) (Nat.le_refl 1) none
  obtain ⟨m', h1', _, h3'⟩ := C37_one_layer_partial (fun i => mkLayer exArch gelu 1 fun s => get (.layer i s)) (Nat.le_refl 1) none
  refine ⟨get, y, m, m', h1, h1', ?_⟩
  rw [h3 _ _ (by simp), h3' _ _ (by simp)]
  intro he
  have he' := Except.ok.inj he
  simp [layerOn_map, mkLayer, exArch, get, ffn, tok] at he'
  exact hy he'

/-! ### Examples -/

example : torchForward exArch (max 0) false 2 exWeights (some (1, 2)) [1, 2] ≠
    torchForward exArch (max 0) false 2 (fun _ => exWeights 0) (some (1, 2)) [1, 2] := by decide +kernel

example : (torchEncoder (V := ℚ) (H := ℚ) .python (max 0) false 2 exWeights (some (1, 2))).stateDict.length = 26 := by decide +kernel

end CoInf
