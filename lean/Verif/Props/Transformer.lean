/-
Properties C35 (retroactive residual), C36 (encoder layers) and C37 (encoder).
-/
import Verif.Lemmas.EncoderLayer
import Verif.Props.Attention
import Mathlib.Algebra.Group.Defs
import Mathlib.Algebra.Order.Ring.Rat

set_option autoImplicit false

namespace CoInf
open Spec Transformer

/-! ### C35 -/

section C35
variable {X : Type}

/-- **C35**, as far as it holds.  `RetroactiveUnity` of any delay `D = n + 1`, after any history of calls: up to the
`2 D`-th frame since the last `clean_state`, `forward_step` returns the last `D + 1` frames in order (and `None` while
there are fewer).  What is missing: later frames, see `C35_stale_refuted`. -/
theorem C35_window_partial (fill : X → X) (n : Nat) {h : List X} {i : (Unity.mod fill n).Inst}
    (hi : Reach (Unity.mod fill n) h i) (x : X) (hl : h.length + 1 ≤ 2 * (n + 1)) :
    ∃ j, (Unity.mod fill n).step i true x =
      .ok (if h.length < n + 1 then none else some (lastN (n + 2) (h ++ [x])), j) := by
  have S : Soft (Unity.mod fill n) (Unity.phi (n + 1)) := ⟨_, (Unity.simRel fill n).soft⟩
  obtain ⟨j, hj, _⟩ := Soft.step_of S hi x (o := if h.length < n + 1 then none else some (lastN (n + 2) (h ++ [x]))) (by
    rw [Unity.phi_snoc]
    congr 1
    by_cases hc : n + 1 ≤ h.length
    · rw [if_pos hc, if_neg (by omega)]
      unfold Unity.held
      rw [if_pos (by simpa using hl)]; rfl
    · rw [if_neg hc, if_pos (by omega)]; rfl)
  exact ⟨j, hj⟩

theorem phi_eq_slide {D : Nat} (hD : 1 ≤ D) (h : List X) (hl : h.length ≤ 2 * D) :
    Unity.phi D h = slide (D + 1) 1 id h := by
  induction h using List.reverseRecOn with
  | nil =>
    have : windowCount (D + 1) 1 0 = 0 := by simp [windowCount]
    simp [Unity.phi, slide, this]
  | append_singleton h x ih =>
    rw [Unity.phi_snoc, Attn.slide_one, ih (by simp at hl; omega)]
    congr 1
    by_cases hc : D ≤ h.length
    · rw [if_pos hc, if_pos (by omega), Unity.held, if_pos hl]; rfl
    · rw [if_neg hc, if_neg (by omega)]

/-- **C35**, chunks: feeding up to `2 D` frames to a clean object in any way gives the windows of `D + 1` frames. -/
theorem C35_chunks_partial (fill : X → X) (n : Nat) {i : (Unity.mod fill n).Inst} (hi : Reach (Unity.mod fill n) [] i)
    (ops : List (Op X)) (hf : ∀ op ∈ ops, op.feeds) (hl : (framesOf ops).length ≤ 2 * (n + 1)) :
    ∃ rs j, run (Unity.mod fill n) i ops = .ok (rs, j) ∧ outsOf rs = slide (n + 2) 1 id (framesOf ops) := by
  have H := (Unity.simRel fill n).soft
  obtain ⟨rs, j, h1, h2, _⟩ := H.feed ops (H.of_reach hi) hf
  refine ⟨rs, j, h1, ?_⟩
  rw [H.phi_nil] at h2
  rw [phi_eq_slide (by omega) _ (by simpa using hl)] at h2
  simpa using h2.symm

theorem held_ne {D : Nat} (hD : 1 ≤ D) {h : List X} (hn : h.Nodup) (hl : 2 * D < h.length) :
    ∃ y, h[D - 1]? = some y ∧ y ∈ Unity.held D h ∧ y ∉ lastN (D + 1) h := by
  have hlt : D - 1 < h.length := by omega
  refine ⟨h[D - 1], List.getElem?_eq_getElem hlt, ?_, ?_⟩
  · unfold Unity.held
    rw [if_neg (by omega)]
    simp [List.getElem?_eq_getElem hlt]
  · intro hm
    unfold lastN at hm
    obtain ⟨k, hk, he⟩ := List.getElem_of_mem hm
    rw [List.getElem_drop] at he
    have hk' : k < h.length - (h.length - (D + 1)) := by simpa using hk
    have := (List.Nodup.getElem_inj_iff hn).1 he
    omega

/-- **C35** fails from frame `2 D + 1` on, for every delay and every stream of different frames: the result contains
frame number `D - 1` of the stream forever, and never is the last window. -/
theorem C35_stale_refuted (fill : X → X) (n : Nat) {h : List X} {i : (Unity.mod fill n).Inst}
    (hi : Reach (Unity.mod fill n) h i) (x : X) (hn : (h ++ [x]).Nodup) (hl : 2 * (n + 1) ≤ h.length) :
    ∃ j w y, (Unity.mod fill n).step i true x = .ok (some w, j) ∧ w ≠ lastN (n + 2) (h ++ [x]) ∧
      h[n]? = some y ∧ y ∈ w ∧ y ∉ lastN (n + 2) (h ++ [x]) := by
  have S : Soft (Unity.mod fill n) (Unity.phi (n + 1)) := ⟨_, (Unity.simRel fill n).soft⟩
  obtain ⟨j, hj, _⟩ := Soft.step_of S hi x (o := some (Unity.held (n + 1) (h ++ [x]))) (by
    rw [Unity.phi_snoc, if_pos (by omega)]; rfl)
  obtain ⟨y, h1, h2, h3⟩ := held_ne (D := n + 1) (by omega) hn (by simp; omega)
  refine ⟨j, _, y, hj, fun e => h3 (e ▸ h2), ?_, h2, h3⟩
  rw [← h1, Nat.add_sub_cancel, List.getElem?_append_left (by omega)]

/-- Non-vacuous: delay 2, frames 1..6; the fifth result is still right up to frame 4, wrong from frame 5 on. -/
example : callSteps (Unity.mod (fun _ : Nat => 0) 1) ([], 0) [1, 2, 3, 4, 5, 6] =
    .ok ([none, none, some [1, 2, 3], some [2, 3, 4], some [4, 2, 5], some [2, 5, 6]], ([5, 6, 2], 0)) := by rfl

end C35

/-! ### C36 -/

section C36
variable {F X B E : Type} [Field F] [Fintype E]

/-- The encoder layer with the weights `p`, on a clip. -/
abbrev layerOn [Add X] (p : Layer F X B E) (xs : List X) : List X :=
  encoderLayer (multihead p.attn.ex p.attn.scale p.attn.q p.attn.k p.attn.v p.attn.out) p.norm1 p.ff p.norm2 xs

variable [AddCommGroup X] (p : Layer F X B E)

theorem block_eq : block p = ffn p := by
  funext x; unfold block ffn; rw [add_comm]

theorem layerOn_eq (xs : List X) : layerOn p xs = (List.zipWith (fun a b : X => a + b) xs
    (multihead p.attn.ex p.attn.scale p.attn.q p.attn.k p.attn.v p.attn.out xs)).map (block p) := by
  rw [block_eq]; rfl

theorem layerOn_map (xs : List X) : layerOn p xs = xs.map fun x => ffn p (x + tok p xs x) := encoderLayer_eq p xs

/-- **C36**, retroactive layer, as far as it holds.  For every `sequence_len = N ≥ 2`, weights, norms and feed-forward
function, after any history of calls: up to frame `2 (N - 1)` since the last `clean_state`, `forward_step` returns
`None` for the first `N - 1` frames and then all tokens of the encoder layer on the last `N` frames; `forward` returns
the same for these frames.  What is missing: later frames, see `C36_retroactive_refuted`. -/
theorem C36_retroactive_partial (hN : 2 ≤ p.attn.N) {h : List X} {i : (retroLayer p).Inst}
    (hi : Reach (retroLayer p) h i) (x : X) (hl : h.length + 1 ≤ 2 * (p.attn.N - 1)) :
    (∃ j, (retroLayer p).step i true x = .ok (if h.length + 1 < p.attn.N then none
      else some (layerOn p (lastN p.attn.N (h ++ [x]))), j)) ∧
    ((retroLayer p).fwd i (lastN p.attn.N (h ++ [x]))).map Prod.fst = .ok [layerOn p (lastN p.attn.N (h ++ [x]))] := by
  constructor
  · obtain ⟨j, hj⟩ := retroLayer_step p hN hi x
    refine ⟨j, ?_⟩
    rw [hj]
    by_cases hc : h.length + 1 < p.attn.N
    · rw [if_pos hc, if_pos hc]
    · rw [if_neg hc, if_neg hc, layerOn_eq, Unity.held, if_pos (by simpa using hl),
        show p.attn.N - 1 + 1 = p.attn.N by omega]
  · have hne : lastN p.attn.N (h ++ [x]) ≠ [] := by
      intro h0
      have := congrArg List.length h0
      simp [lastN] at this
      omega
    rw [retroLayer_fwd p i hne, layerOn_eq]

/-- **C36** fails for the retroactive layer from frame `2 N - 1` on, for every stream of different frames and every
layer whose feed-forward block (with norms) does not merge tokens: no step ever returns what `forward` returns. -/
theorem C36_retroactive_refuted (hN : 2 ≤ p.attn.N) (hinj : Function.Injective (block p)) {h : List X}
    {i : (retroLayer p).Inst} (hi : Reach (retroLayer p) h i) (x : X) (hn : (h ++ [x]).Nodup)
    (hl : 2 * (p.attn.N - 1) ≤ h.length) :
    ∃ j w, (retroLayer p).step i true x = .ok (some w, j) ∧ w ≠ layerOn p (lastN p.attn.N (h ++ [x])) := by
  obtain ⟨j, hj⟩ := retroLayer_step p hN hi x
  rw [if_neg (by omega)] at hj
  refine ⟨j, _, hj, fun e => ?_⟩
  rw [layerOn_eq] at e
  have e := List.map_injective_iff.2 hinj e
  obtain ⟨y, _, h2, h3⟩ := held_ne (D := p.attn.N - 1) (by omega) hn (by simp; omega)
  have hw : lastN (p.attn.N - 1 + 1) (h ++ [x]) = lastN p.attn.N (h ++ [x]) := by
    rw [show p.attn.N - 1 + 1 = p.attn.N by omega]
  rw [hw] at h3
  have l1 : (Unity.held (p.attn.N - 1) (h ++ [x])).length = p.attn.N := by
    rw [held_length (by omega) (by simp; omega)]; omega
  have l2 : (lastN p.attn.N (h ++ [x])).length = p.attn.N := lastN_length _ _ (by simp; omega)
  have l3 : (multihead p.attn.ex p.attn.scale p.attn.q p.attn.k p.attn.v p.attn.out (lastN p.attn.N (h ++ [x]))).length
      = p.attn.N := by unfold multihead; rw [List.length_map, l2]
  have : Unity.held (p.attn.N - 1) (h ++ [x]) = lastN p.attn.N (h ++ [x]) := by
    apply List.ext_getElem (by omega)
    intro k k1 k2
    have := congrArg (fun l => l[k]?) e
    simp only [List.getElem?_zipWith] at this
    rw [List.getElem?_eq_getElem k1, List.getElem?_eq_getElem k2, List.getElem?_eq_getElem (by omega)] at this
    simpa using this
  exact h3 (this ▸ h2)

/-- **C36**, single-output layer with `single_output_forward`.  For every `sequence_len = N`, every `query_index` from
`-N` to `N - 1`, all weights, after any history of calls: from frame `N` on, `forward_step` returns token `query_index`
of the encoder layer on the last `N` frames; `forward` returns this token for these frames. -/
theorem C36_single_output {qi : Int} (hq : -(p.attn.N : Int) ≤ qi) (hq' : qi < p.attn.N) {h : List X}
    {i : (singleLayer p qi true).Inst} (hi : Reach (singleLayer p qi true) h i) (x : X) :
    (h.length + 1 < p.attn.N → ∃ j, (singleLayer p qi true).step i true x = .ok (none, j)) ∧
    (p.attn.N ≤ h.length + 1 → ∃ j z, pyGet (layerOn p (lastN p.attn.N (h ++ [x]))) qi = .ok z ∧
      (singleLayer p qi true).step i true x = .ok (some z, j) ∧
      ((singleLayer p qi true).fwd i (lastN p.attn.N (h ++ [x]))).map Prod.fst = .ok [z]) := by
  have hN : 1 ≤ p.attn.N := by omega
  have hnq : 0 ≤ Attn.nq p.attn.N qi ∧ Attn.nq p.attn.N qi < p.attn.N := by
    unfold Attn.nq; split <;> omega
  obtain ⟨h1, h2⟩ := singleLayer_step p true hN hnq.1 hnq.2 hi x
  refine ⟨h1, fun hle => ?_⟩
  obtain ⟨j, y, z, hy, hz, hs⟩ := h2 hle
  obtain ⟨z', hz', hz''⟩ := pyGet_window (qi := qi) (N := p.attn.N) (l := h ++ [x]) (by simpa using hle) hnq.1 hnq.2
  have hzz : z = z' := Except.ok.inj (hz.symm.trans hz')
  have hyz : y = z := by
    rw [hzz]
    have e : (h ++ [x]).length - 1 - (Attn.nq p.attn.N qi).toNat = h.length - resDelay p qi true := by
      simp [resDelay]
    rw [e, hy] at hz''
    exact Option.some.inj hz''
  subst hyz
  refine ⟨j, _, ?_, hs, ?_⟩
  · rw [layerOn_map, Attn.pyGet_map, hz]; rfl
  · have hlen : (lastN p.attn.N (h ++ [x])).length = p.attn.N := lastN_length _ _ (by simpa using hle)
    refine singleLayer_fwd_one p i ?_ hz
    have hwin := pyGet_window (qi := -1 - ((Attn.nq p.attn.N qi).toNat : Int)) (N := p.attn.N) (l := h ++ [x])
      (by simpa using hle) (by unfold Attn.nq; split <;> omega) (by
        have := hnq.2
        have := hnq.1
        generalize Attn.nq p.attn.N qi = q at *
        unfold Attn.nq; split <;> omega)
    obtain ⟨y', k1, k2⟩ := hwin
    have e : Attn.nq p.attn.N (-1 - ((Attn.nq p.attn.N qi).toNat : Int)) = Attn.nq p.attn.N qi := by
      have := hnq.1
      generalize Attn.nq p.attn.N qi = q at *
      unfold Attn.nq; split <;> omega
    rw [e] at k2
    rw [hz''] at k2
    cases k2
    rw [k1, hzz]

/-- **C36**, single-output layer without `single_output_forward` (the default), as far as it holds: for the last query
(`query_index = -1`, the default, or `N - 1`), each step returns the last token of the encoder layer on the last `N`
frames, and `forward` returns all tokens.  What is missing: other values of `query_index`, see
`C36_single_output_refuted`. -/
theorem C36_last_query_partial {qi : Int} (hN : 1 ≤ p.attn.N) (hq : qi = -1 ∨ qi = p.attn.N - 1) {h : List X}
    {i : (singleLayer p qi false).Inst} (hi : Reach (singleLayer p qi false) h i) (x : X) :
    (h.length + 1 < p.attn.N → ∃ j, (singleLayer p qi false).step i true x = .ok (none, j)) ∧
    (p.attn.N ≤ h.length + 1 → ∃ j z, (layerOn p (lastN p.attn.N (h ++ [x]))).getLast? = some z ∧
      (singleLayer p qi false).step i true x = .ok (some z, j)) ∧
    ∀ xs, xs ≠ [] → ((singleLayer p qi false).fwd i xs).map Prod.fst = .ok (layerOn p xs) := by
  have hnq : Attn.nq p.attn.N qi = 0 := by
    rcases hq with rfl | rfl
    · rfl
    · unfold Attn.nq; split <;> omega
  obtain ⟨h1, h2⟩ := singleLayer_step p false hN (by omega) (by omega) hi x
  refine ⟨h1, fun hle => ?_, fun xs hne => singleLayer_fwd_all p i hne⟩
  obtain ⟨j, y, z, hy, hz, hs⟩ := h2 hle
  have hyx : y = x := by
    have e : h.length - resDelay p qi false = h.length := rfl
    rw [e] at hy
    simpa using hy.symm
  obtain ⟨z', hz', hz''⟩ := pyGet_window (qi := qi) (N := p.attn.N) (l := h ++ [x]) (by simpa using hle) (by omega) (by omega)
  have hzx : z = x := by
    have : z = z' := Except.ok.inj (hz.symm.trans hz')
    rw [this]
    rw [hnq] at hz''
    simpa using hz''.symm
  subst hyx hzx
  refine ⟨j, _, ?_, hs⟩
  rw [layerOn_map, List.getLast?_map]
  have : (lastN p.attn.N (h ++ [z])).getLast? = some z := by
    unfold lastN
    rw [List.getLast?_drop, if_neg (by simp; omega)]
    simp
  rw [this]; rfl

/-- **C36** fails for the single-output layer without `single_output_forward` and any other `query_index`: if the
block does not merge tokens, then every step whose newest token differs from token `query_index` of the window returns
something else than token `query_index` of the layer output - the residual connection adds the newest token to the
attention of the selected one. -/
theorem C36_single_output_refuted {qi : Int} (hq : 1 ≤ Attn.nq p.attn.N qi) (hq' : Attn.nq p.attn.N qi < p.attn.N)
    (hinj : Function.Injective (ffn p)) {h : List X} {i : (singleLayer p qi false).Inst}
    (hi : Reach (singleLayer p qi false) h i) (x : X) (hl : p.attn.N ≤ h.length + 1)
    (hx : pyGet (lastN p.attn.N (h ++ [x])) qi ≠ .ok x) :
    ∃ j w z, (singleLayer p qi false).step i true x = .ok (some w, j) ∧
      pyGet (layerOn p (lastN p.attn.N (h ++ [x]))) qi = .ok z ∧ w ≠ z := by
  obtain ⟨h1, h2⟩ := singleLayer_step p false (by omega) (by omega) hq' hi x
  obtain ⟨j, y, z, hy, hz, hs⟩ := h2 hl
  have hyx : y = x := by
    have e : h.length - resDelay p qi false = h.length := rfl
    rw [e] at hy
    simpa using hy.symm
  subst hyx
  refine ⟨j, _, ffn p (z + tok p (lastN p.attn.N (h ++ [y])) z), hs, ?_, fun e => ?_⟩
  · rw [layerOn_map, Attn.pyGet_map, hz]; rfl
  · exact hx (add_right_cancel (hinj e) ▸ hz)

end C36

/-! ### C37 -/

section C37
variable {F X B E : Type} [Field F] [Fintype E] [AddCommGroup X] (mk : Nat → Layer F X B E)

/-- **C37** fails: no encoder with three or more layers can be built. -/
theorem C37_many_layers_refuted (n : Int) (hn : 3 ≤ n) (norm : Option (X → X)) :
    encoder mk n norm = .error .assertion := by
  unfold encoder
  split
  · rfl
  · rw [if_neg (by omega), if_pos (by omega)]; rfl

/-- **C37**, one layer: the encoder can be built, and after any history, from frame `sequence_len` on each step returns
the last token of the layer on the last `sequence_len` frames; `forward` returns all tokens of the layer. -/
theorem C37_one_layer_partial (hN : 1 ≤ (mk 0).attn.N) (norm : Option (X → X)) :
    ∃ m, encoder mk 1 norm = .ok m ∧
      (∀ {h i}, Reach m h i → ∀ x, (mk 0).attn.N ≤ h.length + 1 →
        ∃ j z, (layerOn (mk 0) (lastN (mk 0).attn.N (h ++ [x]))).getLast? = some z ∧
          m.step i true x = .ok (some (norm.getD id z), j)) ∧
      ∀ i xs, xs ≠ [] → (m.fwd i xs).map Prod.fst = .ok ((layerOn (mk 0) xs).map (norm.getD id)) := by
  refine ⟨_, by unfold encoder; rw [if_neg (by omega), if_pos rfl], ?_, ?_⟩
  · intro h i hi x hl
    have hnq : Attn.nq (mk 0).attn.N (-1) = 0 := rfl
    have S0 := singleLayer_soft (mk 0) (qi := -1) false hN (by omega) (by omega)
    obtain ⟨i0, hi0⟩ := S0.exists_reach h
    obtain ⟨_, k2, _⟩ := C36_last_query_partial (mk 0) (qi := -1) hN (.inl rfl) hi0 x
    obtain ⟨j0, z, hz, hs⟩ := k2 hl
    obtain ⟨o, j1, a1, a2, _⟩ := S0.reach.step x hi0
    rw [hs] at a1
    cases a1
    have S := withNorm_soft (Sequential.soft_single S0) norm
    obtain ⟨j, hj, _⟩ := Soft.step_of S hi x (o := some (normOf norm z)) (by rw [a2, List.map_append]; rfl)
    exact ⟨j, z, hz, hj⟩
  · intro i xs hne
    refine withNorm_fwd norm i (fun j => singleLayer_fwd_all (mk 0) j hne) ?_
    rw [layerOn_map]; simpa using hne

theorem lastToken_eq (p : Layer F X B E) {rows : List X} (hne : rows ≠ []) :
    (layerOn p rows).getLast? = some (lastToken p rows) := by
  rw [layerOn_map, List.getLast?_map, List.getLast?_eq_some_getLast hne]
  simp [lastToken, List.getLast?_eq_some_getLast hne]

/-- **C37**, two layers: the encoder can be built; `forward` returns the last token of the second layer on the output
of the first; after any history, the steps from frame `sequence_len` to frame `2 (sequence_len - 1)` return this token
for the last `sequence_len` frames.  What is missing: later frames, see `C37_two_layers_refuted`. -/
theorem C37_two_layers_partial (hN : 2 ≤ (mk 0).attn.N) (norm : Option (X → X)) :
    ∃ m, encoder mk 2 norm = .ok m ∧
      (∀ {h i}, Reach m h i → ∀ x, (mk 0).attn.N ≤ h.length + 1 → h.length + 1 ≤ 2 * ((mk 0).attn.N - 1) →
        ∃ j z, (layerOn (mk 1) (layerOn (mk 0) (lastN (mk 0).attn.N (h ++ [x])))).getLast? = some z ∧
          m.step i true x = .ok (some (norm.getD id z), j)) ∧
      ∀ i xs, xs ≠ [] → ∃ z, (layerOn (mk 1) (layerOn (mk 0) xs)).getLast? = some z ∧
        (m.fwd i xs).map Prod.fst = .ok [norm.getD id z] := by
  refine ⟨_, by unfold encoder; rw [if_neg (by omega), if_neg (by decide), if_neg (by decide)], ?_, ?_⟩
  · intro h i hi x hl hl'
    have e := retroPhi_snoc (mk 0) hN h x
    rw [if_pos hl, Unity.held, if_pos (by simpa using hl'), show (mk 0).attn.N - 1 + 1 = (mk 0).attn.N by omega] at e
    have S := withNorm_soft (twoLayers_soft (mk 0) (mk 1) hN) norm
    obtain ⟨j, hj, _⟩ := Soft.step_of S hi x
      (o := some (normOf norm (lastToken (mk 1) (layerOn (mk 0) (lastN (mk 0).attn.N (h ++ [x])))))) (by
        rw [e, layerOn_eq]; simp)
    refine ⟨j, _, lastToken_eq (mk 1) ?_, hj⟩
    rw [layerOn_map]
    intro h0
    have := congrArg List.length h0
    simp [lastN] at this
    omega
  · intro i xs hne
    refine ⟨_, lastToken_eq (mk 1) (rows := layerOn (mk 0) xs) (by rw [layerOn_map]; simpa using hne), ?_⟩
    have := withNorm_fwd norm i (fun j => twoLayers_fwd (mk 0) (mk 1) j hne) (by simp)
    rw [layerOn_eq]
    exact this

/-- `sequence_len` 2, uniform attention; the value of a token is `a` times the token. -/
def exLayer (a : ℚ) : Layer ℚ ℚ Unit Unit where
  attn := { N := 2, q := fun x _ _ => x, k := fun x _ _ => x, v := fun x _ _ => a * x, scale := 1, ex := fun _ => 1,
            out := fun r => r () () }
  norm1 := id
  norm2 := id
  ff := fun _ => 0

/-- **C37** fails for two layers and late frames.  With a first layer that returns its input and a second one that adds
the mean (uniform attention), `sequence_len = 2`, the third step of the stream `1, 2, 3` returns `3 + (1 + 3) / 2`
instead of `3 + (2 + 3) / 2`, the value of `forward` on the last two frames. -/
theorem C37_two_layers_refuted : ∃ (mk : Nat → Layer ℚ ℚ Unit Unit) (m : CoMod (.stream ℚ) (.stream ℚ)),
    (mk 0).attn.N = 2 ∧ encoder mk 2 none = .ok m ∧
    (m.fwd m.init [2, 3]).map Prod.fst = .ok [11 / 2] ∧
    (callSteps m m.init [1, 2, 3]).map Prod.fst = .ok [none, some (7 / 2), some 5] := by
  refine ⟨fun k => exLayer k, _, rfl, rfl, ?_, ?_⟩ <;> decide +kernel

/-- Non-vacuous: an encoder layer over the rationals, three streams. -/
def exEnc : Layer ℚ ℚ (Fin 2) (Fin 2) where
  attn := exAttn
  norm1 := fun x => 2 * x - 1
  norm2 := fun x => x / 3
  ff := fun x => x * x

example : (callSteps (retroLayer exEnc) (retroLayer exEnc).init [1, -2, 3, 1/2]).map Prod.fst =
    .ok [none, none, some (layerOn exEnc [1, -2, 3]), some (layerOn exEnc [-2, 3, 1/2])] := by
  decide +kernel

example : (callSteps (singleLayer exEnc (-2) true) (singleLayer exEnc (-2) true).init [1, -2, 3, 1/2, 5]).map Prod.fst =
    .ok [none, none, (layerOn exEnc [1, -2, 3])[1]?, (layerOn exEnc [-2, 3, 1/2])[1]?,
      (layerOn exEnc [3, 1/2, 5])[1]?] := by
  decide +kernel

example : layerOn exEnc [1, -2, 3] ≠ [0, 0, 0] := by decide +kernel

/-- The hypotheses of the refutations are met: a block that does not merge tokens. -/
example : Function.Injective (block (exLayer 1)) ∧ Function.Injective (ffn (exLayer 1)) := by
  constructor <;> intro a b h <;> simpa [block, ffn, exLayer] using h

end C37

end CoInf
