/-
Properties C32, C33, C34 (continual attention), and the parts of C08, C10, C26, C42 and C46 that concern attention.
-/
import Verif.Lemmas.Retro
import Verif.Lemmas.Soft
import Verif.Model.WarmUp
import Mathlib.Analysis.SpecialFunctions.Exp
import Mathlib.Analysis.SpecialFunctions.Sqrt

set_option autoImplicit false

namespace CoInf
open Spec Attn
variable {F X Y B E : Type} [Field F] [Fintype E]

/-! ### C32 -/

/-- **C32.** Take any `RetroactiveMultiheadAttention` with `sequence_len ≥ 2` (any number of heads, projections,
weights) after any history of calls, in which the frames `h` have been fed since the last `clean_state`.
A `forward_step` returns `None` while fewer than `sequence_len` frames have been seen; from then on it returns the
attention of *all* queries of the last `sequence_len` frames over their keys and values - which is also what `forward`
returns for these frames. -/
theorem C32_window_partial (c : Cfg F X Y B E) (hN : 2 ≤ c.N) {h : List X} {i : (retro c).Inst} (hi : Reach (retro c) h i)
    (x : X) :
    ∃ i', (retro c).step i true x = .ok (if h.length + 1 < c.N then none
        else some (multihead c.ex c.scale c.q c.k c.v c.out (lastN c.N (h ++ [x]))), i') ∧
      ∀ j, (retro c).fwd j (lastN c.N (h ++ [x])) =
        .ok ([multihead c.ex c.scale c.q c.k c.v c.out (lastN c.N (h ++ [x]))], j) := by
  have H := (retro_ok c hN).soft
  obtain ⟨o, i', h1, h2, _⟩ := H.step x (H.of_reach hi)
  refine ⟨i', ?_, fun j => ?_⟩
  · rw [h1]
    have e : slide c.N 1 (multihead c.ex c.scale c.q c.k c.v c.out) (h ++ [x]) =
        slide c.N 1 (multihead c.ex c.scale c.q c.k c.v c.out) h ++ o.toList := h2
    rw [slide_one] at e
    have e' := List.append_cancel_left e
    congr 2
    by_cases hc : h.length + 1 < c.N
    · rw [if_pos hc]
      rw [if_neg (by omega)] at e'
      cases o with
      | none => rfl
      | some y => simp at e'
    · rw [if_neg hc]
      rw [if_pos (by omega)] at e'
      cases o with
      | none => simp at e'
      | some y => simp at e'; rw [e']
  · show Except.ok ([full c _], j) = _
    rw [full_eq]

/-- **C32**, chunks: whatever mixture of `forward_step` and `forward_steps` feeds the frames (on a clean object), the
outputs are the attentions of all windows of `sequence_len` consecutive frames, in order. -/
theorem C32_chunks_partial (c : Cfg F X Y B E) (hN : 2 ≤ c.N) {i : (retro c).Inst} (hi : Reach (retro c) [] i)
    (ops : List (Op X)) (hf : ∀ op ∈ ops, op.feeds) :
    ∃ rs j, run (retro c) i ops = .ok (rs, j) ∧
      outsOf rs = slide c.N 1 (multihead c.ex c.scale c.q c.k c.v c.out) (framesOf ops) := by
  have H := (retro_ok c hN).soft
  obtain ⟨rs, j, h1, h2, _⟩ := H.feed ops (H.of_reach hi) hf
  refine ⟨rs, j, h1, ?_⟩
  rw [H.phi_nil] at h2
  simpa using h2.symm

/-- **C32** fails for `sequence_len = 1`: every step raises (there is no past query to be stored). -/
theorem C32_length_one_refuted (c : Cfg F X Y B E) (hN : c.N = 1) (u : Bool) (x : X) :
    (retro c).step (retro c).init u x = .error .index ∧
    (retro c).fwd (retro c).init [x] = .ok ([multihead c.ex c.scale c.q c.k c.v c.out [x]], (retro c).init) := by
  constructor
  · show Attn.step (retroBase c) none u x = _
    have hd : retroDefault c = .ok ⟨[], [], [], [0], [0]⟩ := by simp [retroDefault, hN]
    have hs : retroSdpa c ⟨[], [], [], [0], [0]⟩ x = .error .index := rfl
    simp [Attn.step, Attn.pstep, start, hd, hs, Except.map]
  · show Except.ok ([full c _], _) = _
    rw [full_eq]

/-! ### C33 -/

/-- **C33.** Any `SingleOutputMultiheadAttention` with `sequence_len ≥ 1` and `-sequence_len ≤ query_index <
sequence_len`, after any history: from the `sequence_len`-th frame on, `forward_step` returns row `query_index` (Python
indexing) of the attention over the last `sequence_len` frames.  With `single_output_forward`, `forward` returns that row
too; otherwise it returns all rows. -/
theorem C33_row (c : Cfg F X Y B E) (hN : 1 ≤ c.N) (qi : Int) (hq : -(c.N : Int) ≤ qi) (hq' : qi < c.N) (sf : Bool)
    {h : List X} {i : (single c qi sf).Inst} (hi : Reach (single c qi sf) h i) (x : X) :
    (h.length + 1 < c.N → ∃ i', (single c qi sf).step i true x = .ok (none, i')) ∧
    (c.N ≤ h.length + 1 → ∃ y i', (single c qi sf).step i true x = .ok (some y, i') ∧
      pyGet (multihead c.ex c.scale c.q c.k c.v c.out (lastN c.N (h ++ [x]))) qi = .ok y ∧
      ∀ j, (single c qi sf).fwd j (lastN c.N (h ++ [x])) = .ok (if sf then [y]
        else multihead c.ex c.scale c.q c.k c.v c.out (lastN c.N (h ++ [x])), j)) := by
  have hn : 0 ≤ nq c.N qi ∧ nq c.N qi < c.N := by unfold nq; split <;> omega
  have H := (single_ok c sf hN hn.1 hn.2).soft
  obtain ⟨o, i', h1, h2, _⟩ := H.step x (H.of_reach hi)
  have e : slide c.N 1 (rowOf c qi) (h ++ [x]) = slide c.N 1 (rowOf c qi) h ++ o.toList := h2
  rw [slide_one] at e
  have e' := List.append_cancel_left e
  constructor
  · intro hc
    rw [if_neg (by omega)] at e'
    cases o with
    | none => exact ⟨i', h1⟩
    | some y => simp at e'
  · intro hc
    rw [if_pos hc] at e'
    cases o with
    | none => simp at e'
    | some y =>
      have hlen : (lastN c.N (h ++ [x])).length = c.N := lastN_length _ _ (by simpa using hc)
      obtain ⟨z, hz⟩ : ∃ z, pyGet (lastN c.N (h ++ [x])) qi = .ok z := by
        by_cases h0 : qi < 0
        · simp only [pyGet, hlen, if_pos h0]
          rw [if_neg (by omega)]
          have : (qi + (c.N : Int)).toNat < (lastN c.N (h ++ [x])).length := by omega
          rw [List.getElem?_eq_getElem this]
          exact ⟨_, rfl⟩
        · simp only [pyGet, if_neg h0]
          have : qi.toNat < (lastN c.N (h ++ [x])).length := by omega
          rw [List.getElem?_eq_getElem this]
          exact ⟨_, rfl⟩
      have hrow : pyGet (multihead c.ex c.scale c.q c.k c.v c.out (lastN c.N (h ++ [x]))) qi =
          .ok (c.out (attention c.ex c.scale c.q c.k c.v (lastN c.N (h ++ [x])) z)) := by
        unfold multihead
        rw [pyGet_map, hz]; rfl
      have hy : y = c.out (attention c.ex c.scale c.q c.k c.v (lastN c.N (h ++ [x])) z) := by
        simp only [rowOf, hrow] at e'
        simpa using e'.symm
      refine ⟨y, i', h1, by rw [hrow, hy], fun j => ?_⟩
      show (singleFwd c qi sf _).map _ = _
      cases sf with
      | true =>
        simp only [singleFwd, if_true, hz, Except.map, fullRow]
        rw [attnRow_eq, hy]
      | false =>
        simp only [singleFwd, Except.map]
        rw [← full_eq]; rfl

/-- **C33**, chunks. -/
theorem C33_chunks (c : Cfg F X Y B E) (hN : 1 ≤ c.N) (qi : Int) (hq : -(c.N : Int) ≤ qi) (hq' : qi < c.N) (sf : Bool)
    {i : (single c qi sf).Inst} (hi : Reach (single c qi sf) [] i) (ops : List (Op X)) (hf : ∀ op ∈ ops, op.feeds) :
    ∃ rs j, run (single c qi sf) i ops = .ok (rs, j) ∧
      (outsOf rs).map some = slide c.N 1 (fun win =>
        (pyGet (multihead c.ex c.scale c.q c.k c.v c.out win) qi).toOption) (framesOf ops) := by
  have hn : 0 ≤ nq c.N qi ∧ nq c.N qi < c.N := by unfold nq; split <;> omega
  have H := (single_ok c sf hN hn.1 hn.2).soft
  obtain ⟨rs, j, h1, h2, _⟩ := H.feed ops (H.of_reach hi) hf
  refine ⟨rs, j, h1, ?_⟩
  rw [H.phi_nil] at h2
  have h3 : slide c.N 1 (rowOf c qi) (framesOf ops) = outsOf rs := by simpa using h2
  rw [← h3]
  unfold slide
  rw [List.map_map]
  apply List.map_congr_left
  intro k hk
  have hb := windowCount_bound (List.mem_range.1 hk)
  have hlen : (((framesOf ops).drop (k * 1)).take c.N).length = c.N := by simp; omega
  simp only [Function.comp, rowOf]
  have hl : (multihead c.ex c.scale c.q c.k c.v c.out (((framesOf ops).drop (k * 1)).take c.N)).length = c.N := by
    unfold multihead; rw [List.length_map, hlen]
  generalize multihead c.ex c.scale c.q c.k c.v c.out (((framesOf ops).drop (k * 1)).take c.N) = l at hl
  by_cases h0 : qi < 0
  · simp only [pyGet, hl, if_pos h0]
    rw [if_neg (by omega)]
    have : (qi + (c.N : Int)).toNat < l.length := by omega
    rw [List.getElem?_eq_getElem this]
    rfl
  · simp only [pyGet, if_neg h0]
    have : qi.toNat < l.length := by omega
    rw [List.getElem?_eq_getElem this]
    rfl

/-! ### C34 -/

/-- **C34**: on an attention module (of either kind: `b` is any instance of the base class) that has been fed at least one
frame, an `update_state=False` call returns what the updating call returns and leaves the object as it was. -/
theorem C34_probe_partial {O : Type} (b : Base X O) (st : b.S × Int) (x : X) (xs : List X) (p : Bool) :
    b.mod.step (some st) false x = (b.mod.step (some st) true x).map (fun r => (r.1, some st)) ∧
    b.mod.steps (some st) p false xs = (b.mod.steps (some st) p true xs).map (fun r => (r.1, some st)) := by
  constructor
  · show Attn.step b _ _ _ = Except.map _ (Attn.step b _ _ _)
    unfold Attn.step
    cases pstep b x (some st) <;> rfl
  · show Attn.steps b (some st) p false xs = (Attn.steps b (some st) p true xs).map (fun r => (r.1, some st))
    have key : ∀ (xs : List X) (s : Option (b.S × Int)) os s', s.isSome → loop b s xs = .ok (os, s') → s'.isSome := by
      intro xs
      induction xs with
      | nil => intro s os s' hs h; cases h; exact hs
      | cons x xs ih =>
        intro s os s' hs h
        simp only [loop] at h
        cases h1 : pstep b x s with
        | error e => rw [h1] at h; cases h
        | ok q =>
          obtain ⟨o, s1⟩ := q
          rw [h1] at h
          simp only at h
          cases h2 : loop b s1 xs with
          | error e => rw [h2] at h; cases h
          | ok q =>
            obtain ⟨os', s2⟩ := q
            rw [h2] at h
            cases h
            refine ih s1 _ _ ?_ h2
            unfold pstep at h1
            cases hs : start b s with
            | error e => rw [hs] at h1; cases h1
            | ok st =>
              rw [hs] at h1
              simp only at h1
              cases h3 : b.sdpa st.1 x with
              | error e => rw [h3] at h1; cases h1
              | ok q => rw [h3] at h1; cases h1; rfl
    unfold Attn.steps
    cases h : loop b (some st) xs with
    | error e => rfl
    | ok q =>
      obtain ⟨os, s'⟩ := q
      obtain ⟨st', rfl⟩ := Option.isSome_iff_exists.1 (key xs _ _ _ rfl h)
      simp only
      cases xs.isEmpty <;> rfl

/-- **C34** fails on a fresh (or cleaned) module: every `update_state=False` call raises `UnboundLocalError`, whereas the
updating call returns. -/
theorem C34_fresh_refuted (c : Cfg F X Y B E) (hN : 2 ≤ c.N) (x : X) (xs : List X) (hx : xs ≠ []) (p : Bool) :
    (retro c).step (retro c).init false x = .error .unbound ∧
    (retro c).steps (retro c).init p false xs = .error .unbound ∧
    (∃ r, (retro c).step (retro c).init true x = .ok r) ∧ ∃ r, (retro c).steps (retro c).init p true xs = .ok r := by
  have H := retro_ok c hN
  have r0 : Attn.Rel (retroBase c) (RetroInv c) [] none := rfl
  obtain ⟨o, s, h1, _, _⟩ := pstep_ok H x r0
  obtain ⟨ys, s', h2, _, _, h4⟩ := loop_ok H xs r0
  refine ⟨?_, ?_, ?_, ?_⟩
  · show Attn.step (retroBase c) none false x = _
    simp [Attn.step, h1]
  · show Attn.steps (retroBase c) none p false xs = _
    simp [Attn.steps, h2]
  · obtain ⟨o, i', h, _⟩ := H.soft.step x r0
    exact ⟨_, h⟩
  · obtain ⟨o, i', h, _⟩ := H.soft.steps xs hx r0
    exact ⟨_, h⟩

theorem C34_fresh_single_refuted (c : Cfg F X Y B E) (hN : 1 ≤ c.N) (qi : Int) (hq : -(c.N : Int) ≤ qi) (hq' : qi < c.N)
    (sf : Bool) (x : X) (xs : List X) (p : Bool) :
    (single c qi sf).step (single c qi sf).init false x = .error .unbound ∧
    (single c qi sf).steps (single c qi sf).init p false xs = .error .unbound := by
  have hn : 0 ≤ nq c.N qi ∧ nq c.N qi < c.N := by unfold nq; split <;> omega
  have H := single_ok c sf hN hn.1 hn.2
  have r0 : Attn.Rel (singleBase c qi sf) (SingleInv c qi) [] none := rfl
  obtain ⟨o, s, h1, _, _⟩ := pstep_ok H x r0
  obtain ⟨ys, s', h2, _, _, h4⟩ := loop_ok H xs r0
  constructor
  · show Attn.step (singleBase c qi sf) none false x = _
    simp [Attn.step, h1]
  · show Attn.steps (singleBase c qi sf) none p false xs = _
    simp [Attn.steps, h2]

/-- A clip without frames raises in `forward_steps` too, with or without `update_state`, on every attention module. -/
theorem C34_empty_refuted {O : Type} (b : Base X O) (i : b.mod.Inst) (p u : Bool) :
    ∃ e, b.mod.steps i p u [] = .error e := by
  show ∃ e, Attn.steps b i p u [] = .error e
  cases i <;> cases u <;> exact ⟨_, rfl⟩

/-! ### Other properties, for attention -/

/-- **C10**, attention: after `clean_state` the object is a new one. -/
theorem C10_attention {O : Type} (b : Base X O) (i : b.mod.Inst) : b.mod.clean i = b.mod.init := rfl

/-- **C26**, attention: threading the state through `_forward_step` gives what `forward_step` calls give. -/
theorem C26_attention {O : Type} (b : Base X O) (s : Option (b.S × Int)) (xs : List X) :
    threadSteps b.mod s xs = callSteps b.mod s xs := by
  induction xs generalizing s with
  | nil => rfl
  | cons x xs ih =>
    have e : b.mod.step s true x = b.mod.pstep x s := by
      show Attn.step b s true x = Attn.pstep b x s
      unfold Attn.step
      cases Attn.pstep b x s <;> rfl
    show (b.mod.pstep x s >>= _) = (b.mod.step s true x >>= _)
    rw [e]
    cases b.mod.pstep x s with
    | error e => rfl
    | ok q =>
      simp only [ok_bind]
      rw [ih]

/-- **C46**, retroactive attention: after at least one frame, the state has `sequence_len - 1` rows of queries, sums and
weighted sums, and `sequence_len` keys and values. -/
theorem C46_retro_state_size (c : Cfg F X Y B E) (hN : 2 ≤ c.N) {h : List X} {i : (retro c).Inst}
    (hi : Reach (retro c) h i) (hne : h ≠ []) :
    ∃ s idx, i = some (s, idx) ∧ s.Q.length = c.N - 1 ∧ s.d.length = c.N - 1 ∧ s.AV.length = c.N - 1 ∧
      s.K.length = c.N ∧ s.V.length = c.N := by
  have hr := (retro_ok c hN).soft.of_reach hi
  cases i with
  | none => exact absurd hr hne
  | some p =>
    obtain ⟨s, idx⟩ := p
    obtain ⟨_, ⟨dj, AVj, Qj, l1, l2, l3, hK, hV, hQ, hd, hAV⟩, _⟩ := hr
    have lq : (lastN (c.N - 1) (h.map (sq c))).length = min (c.N - 1) h.length := by simp [lastN]; omega
    refine ⟨s, idx, rfl, ?_, ?_, ?_, ?_, ?_⟩
    · rw [hQ, List.length_append, lq]; omega
    · rw [hd, List.length_append, List.length_map, lq]; omega
    · rw [hAV, List.length_append, List.length_map, lq]; omega
    · rw [hK, padLast_length]
    · rw [hV, padLast_length]

/-- **C46**, single-output attention. -/
theorem C46_single_state_size (c : Cfg F X Y B E) (hN : 1 ≤ c.N) (qi : Int) (hq : -(c.N : Int) ≤ qi) (hq' : qi < c.N)
    (sf : Bool) {h : List X} {i : (single c qi sf).Inst} (hi : Reach (single c qi sf) h i) (hne : h ≠ []) :
    ∃ s idx, i = some (s, idx) ∧ s.Q.length = (nq c.N qi).toNat ∧ s.K.length = c.N ∧ s.V.length = c.N := by
  have hn : 0 ≤ nq c.N qi ∧ nq c.N qi < c.N := by unfold nq; split <;> omega
  have hr := (single_ok c sf hN hn.1 hn.2).soft.of_reach hi
  cases i with
  | none => exact absurd hr hne
  | some p =>
    obtain ⟨s, idx⟩ := p
    obtain ⟨_, ⟨hK, hV, hQ⟩, _⟩ := hr
    exact ⟨s, idx, rfl, by rw [hQ, padLast_length], by rw [hK, padLast_length], by rw [hV, padLast_length]⟩

/-- **C42**, retroactive attention (`sequence_len ≥ 2`): after `warm_up`, every step returns a tensor. -/
theorem C42_retro (c : Cfg F X Y B E) (hN : 2 ≤ c.N) {i : (retro c).Inst} (hi : Reach (retro c) [] i) (pad : X)
    (xs : List X) :
    ∃ i1 os i2, warmUp (retro c) i pad = .ok i1 ∧ callSteps (retro c) i1 xs = .ok (os, i2) ∧
      os.length = xs.length ∧ os.all Option.isSome := by
  have H := (retro_ok c hN).soft
  have hne : List.replicate (c.N - 1) pad ≠ [] := by
    intro e
    have := congrArg List.length e
    simp at this
    omega
  obtain ⟨ys, i1, h1, _, h3⟩ := H.steps _ hne (H.of_reach hi)
  rw [List.nil_append] at h3
  obtain ⟨os, i2, h4, h5, _, h6⟩ := H.callSteps_eq xs h3
  refine ⟨i1, os, i2, ?_, h4, h5, ?_⟩
  · simp only [warmUp]
    rw [if_neg (by omega), show ((c.N : Int) - 1).toNat = c.N - 1 by omega]
    have h1 : Attn.steps (retroBase c) i false true (List.replicate (c.N - 1) pad) = _ := h1
    rw [h1]
  · rw [List.all_eq_true]
    intro o ho
    obtain ⟨t, ht, rfl⟩ := List.getElem_of_mem ho
    have e := h6 t (by omega)
    have hx : xs.take (t + 1) = xs.take t ++ [xs[t]] := by simp
    rw [hx, ← List.append_assoc] at e
    have e2 : slide c.N 1 (multihead c.ex c.scale c.q c.k c.v c.out) (List.replicate (c.N - 1) pad ++ xs.take t ++ [xs[t]]) =
      slide c.N 1 (multihead c.ex c.scale c.q c.k c.v c.out) (List.replicate (c.N - 1) pad ++ xs.take t) ++ _ := e
    rw [slide_one, if_pos (by simp; omega)] at e2
    have e3 := List.append_cancel_left e2
    rw [List.getElem?_eq_getElem ht] at e3
    cases ho : os[t] with
    | none => rw [ho] at e3; simp at e3
    | some y => rfl

/-- **C42** fails for single-output attention: it reports the number of remembered queries as its delay, but its first
output comes with the `sequence_len`-th frame.  With `query_index = -1` the delay is 0 and `warm_up` raises; with any other
query index but the first, `warm_up` is too short. -/
theorem C42_single_refuted (c : Cfg F X Y B E) (sf : Bool) (pad : X) :
    (1 ≤ c.N → ∃ e, warmUp (single c (-1) sf) (single c (-1) sf).init pad = .error e) ∧
    (∀ qi : Int, -(c.N : Int) < qi → qi < -1 → ∃ i1, warmUp (single c qi sf) (single c qi sf).init pad = .ok i1 ∧
      ∀ x, ∃ i2, (single c qi sf).step i1 true x = .ok (none, i2)) := by
  constructor
  · intro hN
    obtain ⟨e, he⟩ := C34_empty_refuted (singleBase c (-1) sf) none false true
    refine ⟨e, ?_⟩
    have hd : (single c (-1) sf).delay = 0 := by simp [nq]
    simp only [warmUp]
    rw [if_neg (by simp [nq])]
    have : (nq c.N (-1)).toNat = 0 := by simp [nq]
    rw [this, List.replicate_zero]
    have he' : Attn.steps (singleBase c (-1) sf) none false true [] = .error e := he
    rw [he']
  · intro qi hq hq'
    have hnq : nq c.N qi = -qi - 1 := by unfold nq; rw [if_neg (by omega)]
    have H := (single_ok c sf (qi := qi) (by omega) (by omega) (by omega)).soft
    have hne : List.replicate (nq c.N qi).toNat pad ≠ [] := by
      intro e
      have := congrArg List.length e
      simp at this
      omega
    obtain ⟨ys, i1, h1, _, h3⟩ := H.steps _ hne H.init
    rw [List.nil_append] at h3
    refine ⟨i1, ?_, fun x => ?_⟩
    · simp only [warmUp]
      rw [if_neg (by omega)]
      have h1 : Attn.steps (singleBase c qi sf) none false true (List.replicate (nq c.N qi).toNat pad) = _ := h1
      rw [h1]
    · obtain ⟨o, i2, h4, h5, _⟩ := H.step x h3
      have e2 : slide c.N 1 (rowOf c qi) (List.replicate (nq c.N qi).toNat pad ++ [x]) =
        slide c.N 1 (rowOf c qi) (List.replicate (nq c.N qi).toNat pad) ++ o.toList := h5
      rw [slide_one, if_neg (by simp; omega)] at e2
      have e3 := List.append_cancel_left e2
      cases o with
      | none => exact ⟨i2, h4⟩
      | some y => simp at e3

/-! ### Examples -/

/-- Two heads of dimension two over the rationals, `sequence_len` 3; a stand-in for the exponential that can be
evaluated. -/
def exAttn : Cfg ℚ ℚ ℚ (Fin 2) (Fin 2) where
  N := 3
  q := fun x b e => x + b + e
  k := fun x b e => 2 * x - b * e
  v := fun x b e => x * (1 + b) + e
  scale := 1 / 2
  ex := fun a => a * a + 1
  out := fun r => ∑ b, ∑ e, (1 + b + 2 * e) * r b e

/-- The same with the real exponential. -/
noncomputable def exReal : Cfg ℝ (Fin 2 → ℝ) (Fin 2 → ℝ) (Fin 1) (Fin 2) where
  N := 4
  q := fun x _ => x
  k := fun x _ => x
  v := fun x _ => x
  scale := 1 / Real.sqrt 2
  ex := Real.exp
  out := fun r => r 0

example (a : Fin 2 → ℝ) : ∃ i', (retro exReal).step (retro exReal).init true a = .ok (none, i') :=
  let ⟨i', h, _⟩ := C32_window_partial exReal (by decide) .init a
  ⟨i', h⟩

/-- Five steps of retroactive attention: two without output, then the attention of each window. -/
example : (callSteps (retro exAttn) (retro exAttn).init [1, -2, 3, 1/2, 5]).map Prod.fst =
    .ok [none, none, some (multihead exAttn.ex exAttn.scale exAttn.q exAttn.k exAttn.v exAttn.out [1, -2, 3]),
      some (multihead exAttn.ex exAttn.scale exAttn.q exAttn.k exAttn.v exAttn.out [-2, 3, 1/2]),
      some (multihead exAttn.ex exAttn.scale exAttn.q exAttn.k exAttn.v exAttn.out [3, 1/2, 5])] := by
  decide +kernel

example : (callSteps (single exAttn (-2) true) (single exAttn (-2) true).init [1, -2, 3, 1/2]).map Prod.fst =
    .ok [none, none, (multihead exAttn.ex exAttn.scale exAttn.q exAttn.k exAttn.v exAttn.out [1, -2, 3])[1]?,
      (multihead exAttn.ex exAttn.scale exAttn.q exAttn.k exAttn.v exAttn.out [-2, 3, 1/2])[1]?] := by
  decide +kernel

end CoInf
