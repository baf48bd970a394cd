/-
Property C64: multi-head attention with batch, projections and heads.
-/
import Verif.Lemmas.AttnNd
import Verif.Props.Attention

set_option autoImplicit false

namespace CoInf
open Spec Attn
variable {F : Type} [Field F] {n H D kd vd : Nat}

/-- Multi-head attention of all queries of a clip, as in the paper, for each batch entry. -/
def textbook (p : Nd.Params F n H D (H * D) (H * D)) (w : Nd.Mat F (3 * (H * D)) (H * D))
    (xs : List (Nd.Frame F n (H * D) (H * D) (H * D))) : List (Nd.Mat F n (H * D)) :=
  xs.map fun x b e => Mha.mha (Nd.weights p w) p.ex (p.sqrt D) (xs.map (Nd.token b)) (Nd.token b x) e

theorem textbook_eq {p : Nd.Params F n H D (H * D) (H * D)} {w : Nd.Mat F (3 * (H * D)) (H * D)}
    (hp : p.proj = .packed w) (xs : List (Nd.Frame F n (H * D) (H * D) (H * D))) :
    multihead (Nd.cfg p).ex (Nd.cfg p).scale (Nd.cfg p).q (Nd.cfg p).k (Nd.cfg p).v (Nd.cfg p).out xs = textbook p w xs := by
  unfold multihead textbook
  apply List.map_congr_left
  intro x _
  funext b e
  exact Nd.out_eq hp xs x b e

/-- **C64**, retroactive: any batch size, number of heads, size of heads, packed projection weights and biases,
`sequence_len ≥ 2`, after any history of calls.  From the `sequence_len`-th frame on, a step returns textbook multi-head
attention of all queries over the last `sequence_len` frames; so does `forward`. -/
theorem C64_retroactive (p : Nd.Params F n H D (H * D) (H * D)) (w : Nd.Mat F (3 * (H * D)) (H * D))
    (hp : p.proj = .packed w) (hz : p.zeroAttn = false) (hb : p.biasKV = none) (hN : 2 ≤ p.N)
    {h : List (Nd.Frame F n (H * D) (H * D) (H * D))} {i : (Nd.retro p).Inst} (hi : Reach (Nd.retro p) h i)
    (x : Nd.Frame F n (H * D) (H * D) (H * D)) :
    ∃ i', (Nd.retro p).step i true x = .ok (if h.length + 1 < p.N then none
        else some (textbook p w (lastN p.N (h ++ [x]))), i') ∧
      ∀ j xs, (Nd.retro p).fwd j xs = .ok ([textbook p w xs], j) := by
  have key : ∀ b : Base _ _, b = Attn.retroBase (Nd.cfg p) → ∀ i : b.mod.Inst, Reach b.mod h i →
      ∃ i', b.mod.step i true x = .ok (if h.length + 1 < p.N then none
        else some (textbook p w (lastN p.N (h ++ [x]))), i') ∧
      ∀ j xs, b.mod.fwd j xs = .ok ([textbook p w xs], j) := by
    rintro b rfl i hi
    obtain ⟨i', h1, _⟩ := C32_window_partial (Nd.cfg p) hN hi x
    rw [textbook_eq hp] at h1
    refine ⟨i', h1, fun j xs => ?_⟩
    show Except.ok ([full (Nd.cfg p) _], j) = _
    rw [full_eq, textbook_eq hp]
  exact key _ (Nd.retroBase_eq hp hz hb) i hi

/-- **C64**, single output: a step returns row `query_index` of textbook multi-head attention over the last
`sequence_len` frames; with `single_output_forward`, so does `forward`, otherwise it returns all rows. -/
theorem C64_single (p : Nd.Params F n H D (H * D) (H * D)) (w : Nd.Mat F (3 * (H * D)) (H * D))
    (hp : p.proj = .packed w) (hz : p.zeroAttn = false) (hb : p.biasKV = none) (hN : 1 ≤ p.N) (qi : Int)
    (hq : -(p.N : Int) ≤ qi) (hq' : qi < p.N) (sf : Bool)
    {h : List (Nd.Frame F n (H * D) (H * D) (H * D))} {i : (Nd.single p qi sf).Inst} (hi : Reach (Nd.single p qi sf) h i)
    (x : Nd.Frame F n (H * D) (H * D) (H * D)) :
    (h.length + 1 < p.N → ∃ i', (Nd.single p qi sf).step i true x = .ok (none, i')) ∧
    (p.N ≤ h.length + 1 → ∃ y i', (Nd.single p qi sf).step i true x = .ok (some y, i') ∧
      pyGet (textbook p w (lastN p.N (h ++ [x]))) qi = .ok y ∧
      ∀ j, (Nd.single p qi sf).fwd j (lastN p.N (h ++ [x])) = .ok (if sf then [y]
        else textbook p w (lastN p.N (h ++ [x])), j)) := by
  have key : ∀ b : Base _ _, b = Attn.singleBase (Nd.cfg p) qi sf → ∀ i : b.mod.Inst, Reach b.mod h i →
      (h.length + 1 < p.N → ∃ i', b.mod.step i true x = .ok (none, i')) ∧
      (p.N ≤ h.length + 1 → ∃ y i', b.mod.step i true x = .ok (some y, i') ∧
      pyGet (textbook p w (lastN p.N (h ++ [x]))) qi = .ok y ∧
      ∀ j, b.mod.fwd j (lastN p.N (h ++ [x])) = .ok (if sf then [y] else textbook p w (lastN p.N (h ++ [x])), j)) := by
    rintro b rfl i hi
    have h := C33_row (Nd.cfg p) hN qi hq hq' sf hi x
    rw [textbook_eq hp] at h
    exact h
  exact key _ (Nd.singleBase_eq hp hz hb qi sf) i hi

/-- **C64**, batch: what a module returns for a batch entry depends only on that entry of the frames. -/
theorem C64_independent (p : Nd.Params F n H D (H * D) (H * D)) (w : Nd.Mat F (3 * (H * D)) (H * D))
    (hp : p.proj = .packed w) (hz : p.zeroAttn = false) (hb : p.biasKV = none) (hN : 2 ≤ p.N) (b : Fin n)
    (xs ys : List (Nd.Frame F n (H * D) (H * D) (H * D))) (h : xs.map (Nd.token b) = ys.map (Nd.token b))
    {i j : (Nd.retro p).Inst} (hi : Reach (Nd.retro p) [] i) (hj : Reach (Nd.retro p) [] j) :
    ∃ os i' os' j', callSteps (Nd.retro p) i xs = .ok (os, i') ∧ callSteps (Nd.retro p) j ys = .ok (os', j') ∧
      os.map (Option.map (List.map fun m => m b)) = os'.map (Option.map (List.map fun m => m b)) := by
  -- the textbook rows of entry `b`
  have tb : ∀ xs ys : List (Nd.Frame F n (H * D) (H * D) (H * D)), xs.map (Nd.token b) = ys.map (Nd.token b) →
      (textbook p w xs).map (fun m => m b) = (textbook p w ys).map (fun m => m b) := by
    intro xs ys h
    have : ∀ zs : List (Nd.Frame F n (H * D) (H * D) (H * D)), (textbook p w zs).map (fun m => m b) =
        (zs.map (Nd.token b)).map fun t e => Mha.mha (Nd.weights p w) p.ex (p.sqrt D) (zs.map (Nd.token b)) t e := by
      intro zs
      unfold textbook
      rw [List.map_map, List.map_map]
      rfl
    rw [this, this, h]
  have key : ∀ (xs ys h h' : List (Nd.Frame F n (H * D) (H * D) (H * D))) (i j : (Nd.retro p).Inst),
      Reach (Nd.retro p) h i → Reach (Nd.retro p) h' j → h.map (Nd.token b) = h'.map (Nd.token b) →
      xs.map (Nd.token b) = ys.map (Nd.token b) →
      ∃ os i' os' j', callSteps (Nd.retro p) i xs = .ok (os, i') ∧ callSteps (Nd.retro p) j ys = .ok (os', j') ∧
        os.map (Option.map (List.map fun m => m b)) = os'.map (Option.map (List.map fun m => m b)) := by
    intro xs
    induction xs with
    | nil =>
      intro ys h h' i j hi hj e e'
      have : ys = [] := by simpa using e'.symm
      subst this
      exact ⟨[], i, [], j, rfl, rfl, rfl⟩
    | cons x xs ih =>
      intro ys h h' i j hi hj e e'
      cases ys with
      | nil => simp at e'
      | cons y ys =>
        rw [List.map_cons, List.map_cons, List.cons.injEq] at e'
        obtain ⟨i1, h1, _⟩ := C64_retroactive p w hp hz hb hN hi x
        obtain ⟨j1, h2, _⟩ := C64_retroactive p w hp hz hb hN hj y
        have e1 : (h ++ [x]).map (Nd.token b) = (h' ++ [y]).map (Nd.token b) := by simp [e, e'.1]
        have hl : h.length = h'.length := by simpa using congrArg List.length e
        obtain ⟨os, i2, os', j2, h3, h4, h5⟩ := ih ys (h ++ [x]) (h' ++ [y]) i1 j1
          (by simpa using Reach.step true x hi h1) (by simpa using Reach.step true y hj h2) e1 e'.2
        have c1 : callSteps (Nd.retro p) i (x :: xs) = .ok ((if h.length + 1 < p.N then none
            else some (textbook p w (lastN p.N (h ++ [x])))) :: os, i2) := by
          show ((Nd.retro p).step i true x >>= _) = _
          rw [h1]
          show (callSteps (Nd.retro p) i1 xs >>= _) = _
          rw [h3]
          rfl
        have c2 : callSteps (Nd.retro p) j (y :: ys) = .ok ((if h'.length + 1 < p.N then none
            else some (textbook p w (lastN p.N (h' ++ [y])))) :: os', j2) := by
          show ((Nd.retro p).step j true y >>= _) = _
          rw [h2]
          show (callSteps (Nd.retro p) j1 ys >>= _) = _
          rw [h4]
          rfl
        refine ⟨_, i2, _, j2, c1, c2, ?_⟩
        rw [List.map_cons, List.map_cons, h5, hl]
        congr 1
        split
        · rfl
        · simp only [Option.map]
          rw [tb]
          rw [← Attn.lastN_map, ← Attn.lastN_map, e1]
  exact key xs ys [] [] i j hi hj rfl h

/-- **C64**: the three ways in which torch evaluates the packed in-projection (one product for self-attention, two if only
key and value are the same tensor, three otherwise) give the same queries, keys and values. -/
theorem C64_projection {E : Nat} (w : Nd.Mat F (3 * E) E) (b : Option (Fin (3 * E) → F)) (q k : Nd.Mat F n E) :
    Nd.packedSelf w b q = Nd.qkv (.packed w) b ⟨q, q, q⟩ ∧ Nd.packedKV w b q k = Nd.qkv (.packed w) b ⟨q, k, k⟩ := by
  constructor
  · unfold Nd.packedSelf Nd.qkv
    simp only [Prod.mk.injEq]
    refine ⟨?_, ?_, ?_⟩ <;> funext r e <;> rw [Nd.linear_apply, Nd.chunk_bias] <;> unfold Nd.chunk3 <;>
      rw [Nd.linear_apply]
  · unfold Nd.packedKV Nd.qkv
    simp only [Prod.mk.injEq]
    refine ⟨?_, ?_, ?_⟩ <;> funext r e <;> rw [Nd.linear_apply, Nd.linear_apply, Nd.chunk_bias]
    · simp only [Nd.chunk0]
      cases b <;> rfl
    · simp only [Nd.chunk1]
      cases b <;> rfl
    · simp only [Nd.chunk2]
      have hw : ∀ {α : Type} (f : Fin (3 * E) → α) (h : E + (E + e.val) < 3 * E) (h' : 2 * E + e.val < 3 * E),
          f ⟨E + (E + e.val), h⟩ = f ⟨2 * E + e.val, h'⟩ := fun f h h' => congrArg f (Fin.ext (by
            show E + (E + e.val) = 2 * E + e.val
            omega))
      cases b with
      | none =>
        congr 1
        exact Finset.sum_congr rfl fun j _ => by rw [hw w]
      | some b =>
        congr 1
        · exact Finset.sum_congr rfl fun j _ => by rw [hw w]
        · exact hw b _ _

/-- **C64** fails for the options `add_zero_attn` and `add_bias_kv`, and for key or value sizes other than `embed_dim`:
the constructor accepts them and `forward` returns an attention, but every step raises, whatever the state and the
input. -/
theorem C64_options_refuted (p : Nd.Params F n H D kd vd) (hN : 1 ≤ p.N) (qi : Int) (hq : -(p.N : Int) ≤ qi)
    (hq' : qi < p.N) (sf u : Bool)
    (ho : p.zeroAttn = true ∨ p.biasKV.isSome ∨ p.proj.isPacked = false) (x : Nd.Frame F n (H * D) kd vd) :
    ∃ e, (∀ i, (Nd.retro p).step i u x = .error e) ∧ (∀ i, (Nd.single p qi sf).step i u x = .error e) ∧
      ∀ i xs, ∃ ys, (Nd.retro p).fwd i xs = .ok ([ys], i) ∧ ys.length = xs.length := by
  have hc : ∃ e, Nd.check p = .error e := by
    unfold Nd.check
    by_cases h1 : p.zeroAttn = true
    · exact ⟨_, if_pos h1⟩
    · rw [if_neg h1]
      by_cases h2 : p.proj.isPacked = true
      · rw [if_pos h2]
        have h3 : p.biasKV.isSome := by
          rcases ho with h | h | h
          · exact absurd h h1
          · exact h
          · rw [h2] at h; cases h
        exact ⟨_, if_pos h3⟩
      · rw [if_neg h2]
        by_cases h4 : kd = vd
        · exact ⟨_, if_pos h4⟩
        · exact ⟨_, if_neg h4⟩
  obtain ⟨e, he⟩ := hc
  refine ⟨e, fun i => ?_, fun i => ?_, fun i xs => ⟨_, rfl, by simp⟩⟩
  · show Attn.step (Nd.retroBase p) i u x = _
    cases i with
    | some st => simp only [Attn.step, Attn.pstep, start, he]
    | none =>
      have hd : retroDefault (Nd.cfg p) = .ok _ := if_neg (Nat.one_le_iff_ne_zero.1 hN)
      simp only [Attn.step, Attn.pstep, start, he, hd, Except.map]
  · show Attn.step (Nd.singleBase p qi sf) i u x = _
    cases i with
    | some st => simp only [Attn.step, Attn.pstep, start, he]
    | none =>
      have hn : ¬nq (Nd.cfg p).N qi < 0 := by
        show ¬nq p.N qi < 0
        unfold nq; split <;> omega
      have hd : singleDefault (Nd.cfg p) qi = .ok _ := if_neg hn
      simp only [Attn.step, Attn.pstep, start, he, hd, Except.map]

/-! ### Examples -/

/-- Batch of two, two heads of size two, `sequence_len` 2, over the rationals with computable stand-ins for the
exponential and the square root. -/
def exMha : Nd.Params ℚ 2 2 2 4 4 where
  N := 2
  proj := .packed fun i j => (i.val : ℚ) - 2 * j.val
  inBias := some fun i => (i.val : ℚ) / 3
  biasKV := none
  zeroAttn := false
  outW := fun i j => (i.val : ℚ) * j.val + 1
  outB := none
  sqrt := fun n => n + 1
  ex := fun a => a * a + 1

/-- A frame whose rows differ. -/
def exQkv (a : ℚ) : Nd.Frame ℚ 2 4 4 4 := ⟨fun b e => a + b - e, fun b e => a * b + e, fun b e => a - b * e⟩

example : ∃ i', (Nd.retro exMha).step (Nd.retro exMha).init true (exQkv 1) = .ok (none, i') := by
  obtain ⟨i', h, _⟩ := C64_retroactive (n := 2) (H := 2) (D := 2) exMha _ rfl rfl rfl (by decide) .init (exQkv 1)
  exact ⟨i', h⟩

/-- Entry 3 of the rows of batch entry 1: the steps, and the textbook formula. -/
example : (callSteps (Nd.retro exMha) (Nd.retro exMha).init [exQkv 1, exQkv (-2)]).map
      (fun r => r.1.map (Option.map (List.map fun m => m 1 3))) =
    .ok [none, some ((textbook (n := 2) (H := 2) (D := 2) exMha (fun i j => (i.val : ℚ) - 2 * j.val)
      [exQkv 1, exQkv (-2)]).map fun m => m 1 3)] := by
  decide +kernel

/-- A module with a key bias satisfies the hypotheses of the refutation. -/
example (x : Nd.Frame ℚ 2 4 4 4) : ∃ e, ∀ i,
    (Nd.retro (n := 2) (H := 2) (D := 2) { exMha with biasKV := some (fun _ => 1, fun _ => 2) }).step i true x = .error e := by
  obtain ⟨e, h, _⟩ := C64_options_refuted (n := 2) (H := 2) (D := 2)
    { exMha with biasKV := some (fun _ => 1, fun _ => 2) } (by decide) (-1) (by decide) (by decide) true true (.inr (.inl rfl)) x
  exact ⟨e, h⟩

end CoInf
