/-
C116: what the attention modules report about themselves (mha_base.py:547, single_output_mha.py:260-266,
module.py:188-190), and residual connections around them.
-/
import Verif.Props.Attention
import Verif.Lemmas.EncoderLayer
import Verif.Props.Residual

set_option autoImplicit false

namespace CoInf
open Spec Attn

namespace AttnGeo
variable {X Y : Type}

/-- Steps of a module whose results are a function of the last `N` frames. -/
theorem callSteps_window {N : Nat} {g : List X → Y} {m : CoMod (.stream X) (.stream Y)} (H : Soft m (slide N 1 g))
    {i : m.Inst} (hi : Reach m [] i) (xs : List X) :
    ∃ os j, callSteps m i xs = .ok (os, j) ∧ os.length = xs.length ∧ ∀ t < xs.length,
      os[t]? = some (if t + 1 < N then none else some (g (lastN N (xs.take (t + 1))))) := by
  obtain ⟨os, j, h1, h2, _, h4⟩ := H.reach.callSteps_eq xs hi
  refine ⟨os, j, h1, h2, fun t ht => ?_⟩
  have e := h4 t ht
  simp only [List.nil_append] at e
  rw [List.take_add_one, List.getElem?_eq_getElem ht, Option.toList_some, slide_one] at e
  have e := List.append_cancel_left e
  rw [List.length_take, Nat.min_eq_left (by omega)] at e
  rw [List.take_add_one, List.getElem?_eq_getElem ht, Option.toList_some]
  rw [List.getElem?_eq_getElem (by omega)] at e ⊢
  simp only [Option.join_some] at e
  congr 1
  by_cases hN : t + 1 < N
  · rw [if_neg (by omega)] at e
    rw [if_pos hN]
    cases ho : os[t] with
    | none => rfl
    | some y => rw [ho] at e; simp at e
  · rw [if_pos (by omega)] at e
    rw [if_neg hN]
    cases ho : os[t] with
    | none => rw [ho] at e; simp at e
    | some y =>
      rw [ho] at e
      simp only [Option.toList_some, List.cons.injEq, and_true] at e
      rw [e]

/-- Steps of a delay. -/
theorem callSteps_delay (fill : X → X) (d : Nat) (xs : List X) :
    ∃ os j, callSteps (Delay.mod { d := d, fill := fill }) (Delay.mod { d := d, fill := fill }).init xs = .ok (os, j) ∧
      os.length = xs.length ∧ ∀ t < xs.length, os[t]? = some (if t < d then none else xs[t - d]?) := by
  obtain ⟨R, H⟩ := ((Residual.delay_facts (X := X) d fill).impl).soft
  obtain ⟨os, j, h1, h2, _, h4⟩ := H.callSteps_eq xs H.init
  refine ⟨os, j, h1, h2, fun t ht => ?_⟩
  have e := h4 t ht
  simp only [List.nil_append] at e
  rw [List.take_add_one, List.getElem?_eq_getElem ht, Option.toList_some, Delay.delayed_snoc] at e
  have e := List.append_cancel_left e
  rw [List.length_take, Nat.min_eq_left (by omega)] at e
  have e2 : (List.take t xs ++ [xs[t]])[t - d]? = xs[t - d]? := by
    rw [← Option.toList_some, ← List.getElem?_eq_getElem ht, ← List.take_add_one, List.getElem?_take, if_pos (by omega)]
  rw [e2, List.getElem?_eq_getElem (l := os) (by omega)] at e
  rw [List.getElem?_eq_getElem (by omega)]
  simp only [Option.join_some] at e
  congr 1
  by_cases hd : t < d
  · rw [if_neg (by omega)] at e
    rw [if_pos hd]
    cases ho : os[t] with
    | none => rfl
    | some y => rw [ho] at e; simp at e
  · rw [if_pos (by omega)] at e
    rw [if_neg hd]
    cases ho : os[t] with
    | none => rw [ho] at e; cases hx : xs[t - d]? with | none => rfl | some z => rw [hx] at e; simp at e
    | some y => rw [ho] at e; cases hx : xs[t - d]? with | none => rw [hx] at e; simp at e | some z => rw [hx] at e; simp at e; rw [e]

/-- A residual connection around such a module: the frame that is added is the one that is `d` steps old. -/
theorem residual_steps {N d : Nat} {g : List X → X} {m : CoMod (.stream X) (.stream X)} (H : Soft m (slide N 1 g))
    (hd : d < N) (fill : X → X) (op : X → X → X) (xs : List X) :
    ∃ os j, callSteps (BroadcastReduce.mod (foldReducer op) [Delay.mod { d := d, fill := fill }, m])
        ((Delay.mod { d := d, fill := fill }).init, m.init, ()) xs = .ok (os, j) ∧ os.length = xs.length ∧
      ∀ t < xs.length, os[t]? = some (if t + 1 < N then none
        else xs[t - d]?.map fun x => op x (g (lastN N (xs.take (t + 1))))) := by
  cases xs with
  | nil => exact ⟨[], _, rfl, rfl, fun t ht => absurd ht (by simp)⟩
  | cons x0 xs' =>
    generalize hxs : x0 :: xs' = xs
    obtain ⟨as, ja, a1, a2, a3⟩ := callSteps_delay fill d xs
    obtain ⟨bs, jb, b1, b2, b3⟩ := callSteps_window H .init xs
    have hr : ReduceOk (foldReducer op) (foldFrame op x0) 2 :=
      reduceOk_of (by decide) (foldReducer_lawful _ _ _ (by decide)) (foldReducer_sound _)
    refine ⟨_, _, Residual.callSteps_pair hr xs a1 b1, by simp [a2, b2], fun t ht => ?_⟩
    rw [List.getElem?_zipWith, a3 t ht, b3 t ht]
    simp only [Option.map_some, Option.some.injEq]
    by_cases hN : t + 1 < N
    · rw [if_pos hN, if_pos hN]
      cases (if t < d then none else xs[t - d]?) <;> rfl
    · rw [if_neg hN, if_neg hN, if_neg (by omega)]
      cases xs[t - d]? <;> rfl

theorem bcast2_fail (op : X → X → X) {as bs : List X} (h : as.length ≠ bs.length) (ha : as.length ≠ 1)
    (hb : bs.length ≠ 1) : bcast2 op as bs = .error .runtime := by
  unfold bcast2
  rw [if_neg h]
  match as, bs with
  | [], [] => exact absurd rfl h
  | [], [b] => exact absurd rfl hb
  | [], _ :: _ :: _ => rfl
  | [a], _ => exact absurd rfl ha
  | _ :: _ :: _, [] => rfl
  | _ :: _ :: _, [b] => exact absurd rfl hb
  | _ :: _ :: _, _ :: _ :: _ => rfl

/-- `Residual(m)` for a module of stride one. -/
theorem make_off {Z : Type} (fill : X → X) (r : Reducer X Z) {m : CoMod (.stream X) (.stream X)} (hs : m.stride = 1)
    (hd : 0 ≤ m.delay) : Residual.make fill r .off m =
      .ok (BroadcastReduce.mod r [Delay.mod { d := m.delay.toNat, fill := fill }, m]) := by
  have he : Residual.effective .off m = .off := by unfold Residual.effective; split <;> rfl
  have hh : Residual.halved .off m.delay = .ok m.delay := by simp [Residual.halved]
  have hb : Residual.branch fill .off m.delay = .ok (Delay.mod { d := m.delay.toNat, fill := fill }) := by
    simp [Residual.branch, Residual.Mode.toShrink, hd]
  unfold Residual.make
  rw [if_neg (by omega), he, hh]
  simp only [hb]
  simp [BroadcastReduce.make, BroadcastReduce.autoDelay, hs]

/-- The row of the query in the window that ends with frame `t`. -/
theorem rowOf_map {F B E : Type} [Field F] [Fintype E] (c : Cfg F X Y B E) {qi : Int} (hq : 0 ≤ nq c.N qi)
    (hq' : nq c.N qi < c.N) {xs : List X} {t : Nat} (hl : c.N ≤ t + 1) (ht : t < xs.length) :
    some (rowOf c qi (lastN c.N (xs.take (t + 1)))) = xs[t - (nq c.N qi).toNat]?.map fun x =>
      c.out (attention c.ex c.scale c.q c.k c.v (lastN c.N (xs.take (t + 1))) x) := by
  letI : Add X := ⟨fun a _ => a⟩
  letI : Zero X := ⟨xs[t]⟩
  have hlen : (xs.take (t + 1)).length = t + 1 := by rw [List.length_take]; omega
  obtain ⟨y, h1, h2⟩ := Transformer.pyGet_window (qi := qi) (l := xs.take (t + 1)) (by omega) hq hq'
  rw [hlen, List.getElem?_take, if_pos (by omega), Nat.add_sub_cancel] at h2
  rw [h2]
  unfold rowOf multihead
  rw [pyGet_map, h1]
  rfl

end AttnGeo

section
variable {F X Y B E : Type} [Field F] [Fintype E]

theorem nq_range {N : Nat} {qi : Int} (hq : -(N : Int) ≤ qi) (hq' : qi < N) : 0 ≤ nq N qi ∧ nq N qi < N := by
  unfold nq; split <;> omega

/-- **C116**, the oldest query: retroactive attention reports one frame less than its window as its delay, and that is
the first step with a result. -/
theorem C116_retro (c : Cfg F X Y B E) (hN : 2 ≤ c.N) {i : (retro c).Inst} (hi : Reach (retro c) [] i) (xs : List X) :
    (retro c).rf = c.N ∧ (retro c).stride = 1 ∧ (retro c).padding = 0 ∧ (retro c).delay = (c.N : Int) - 1 ∧
    (Sequential.mod (.single (retro c))).delay = (retro c).delay ∧
    ∃ os j, callSteps (retro c) i xs = .ok (os, j) ∧ os.length = xs.length ∧ ∀ t < xs.length,
      os[t]? = some (if (t : Int) < (retro c).delay then none
        else some (multihead c.ex c.scale c.q c.k c.v c.out (lastN c.N (xs.take (t + 1))))) := by
  refine ⟨rfl, rfl, rfl, rfl, ?_, ?_⟩
  · show (c.N : Int) - 1 - (0 : Nat) = (c.N : Int) - 1
    omega
  · obtain ⟨os, j, h1, h2, h3⟩ := AttnGeo.callSteps_window ⟨_, (retro_ok c hN).soft⟩ hi xs
    refine ⟨os, j, h1, h2, fun t ht => ?_⟩
    rw [h3 t ht]
    congr 1
    refine if_congr ?_ rfl rfl
    show t + 1 < c.N ↔ (t : Int) < (c.N : Int) - 1
    omega

/-- **C116**, what `delay` of a `SingleOutputMultiheadAttention` means: results come from step `sequence_len - 1` on, for
every query, and the result at step `t` is the attention of the frame of step `t - delay`. -/
theorem C116_age_partial (c : Cfg F X Y B E) (hN : 1 ≤ c.N) (qi : Int) (hq : -(c.N : Int) ≤ qi) (hq' : qi < c.N) (sf : Bool)
    {i : (single c qi sf).Inst} (hi : Reach (single c qi sf) [] i) (xs : List X) :
    ∃ d : Nat, (single c qi sf).delay = d ∧ d < c.N ∧
    ∃ os j, callSteps (single c qi sf) i xs = .ok (os, j) ∧ os.length = xs.length ∧ ∀ t < xs.length,
      os[t]? = some (if t + 1 < c.N then none else xs[t - d]?.map fun x =>
        c.out (attention c.ex c.scale c.q c.k c.v (lastN c.N (xs.take (t + 1))) x)) := by
  obtain ⟨hn, hn'⟩ := nq_range hq hq'
  refine ⟨(nq c.N qi).toNat, ?_, by omega, ?_⟩
  · show nq c.N qi = _
    omega
  obtain ⟨os, j, h1, h2, h3⟩ := AttnGeo.callSteps_window ⟨_, (single_ok c sf hN hn hn').soft⟩ hi xs
  refine ⟨os, j, h1, h2, fun t ht => ?_⟩
  rw [h3 t ht]
  by_cases hl : t + 1 < c.N
  · rw [if_pos hl, if_pos hl]
  · rw [if_neg hl, if_neg hl, AttnGeo.rowOf_map c hn hn' (by omega) ht]

/-- **C116** fails for every query but the oldest: the first result comes later than reported, and a `Sequential` of the
module alone reports another delay. -/
theorem C116_first_refuted (c : Cfg F X Y B E) (hN : 1 ≤ c.N) (qi : Int) (hq : -(c.N : Int) ≤ qi) (hq' : qi < c.N)
    (sf : Bool) :
    (single c qi sf).rf = c.N ∧ (single c qi sf).stride = 1 ∧ (single c qi sf).padding = 0 ∧
    (Sequential.mod (.single (single c qi sf))).delay = (c.N : Int) - 1 ∧
    ((single c qi sf).delay = (c.N : Int) - 1 ↔ qi = 0 ∨ qi = -(c.N : Int)) ∧
    (qi ≠ 0 → qi ≠ -(c.N : Int) → ∀ i, Reach (single c qi sf) [] i → ∀ xs : List X,
      (xs.length : Int) = (single c qi sf).delay + 1 →
      ∃ j, callSteps (single c qi sf) i xs = .ok (List.replicate xs.length none, j)) := by
  obtain ⟨hn, hn'⟩ := nq_range hq hq'
  have hiff : nq c.N qi = (c.N : Int) - 1 ↔ qi = 0 ∨ qi = -(c.N : Int) := by
    unfold nq; split <;> omega
  refine ⟨rfl, rfl, rfl, ?_, hiff, fun h0 h1 i hi xs hx => ?_⟩
  · show (c.N : Int) - 1 - (0 : Nat) = (c.N : Int) - 1
    omega
  · obtain ⟨os, j, e1, e2, e3⟩ := AttnGeo.callSteps_window ⟨_, (single_ok c sf hN hn hn').soft⟩ hi xs
    refine ⟨j, ?_⟩
    have hlt : nq c.N qi ≠ (c.N : Int) - 1 := fun h => by
      rcases hiff.1 h with h | h
      · exact h0 h
      · exact h1 h
    have hx : (xs.length : Int) = nq c.N qi + 1 := hx
    rw [e1]
    congr 2
    refine List.ext_getElem? fun t => ?_
    by_cases ht : t < xs.length
    · have hc : t + 1 < c.N := by omega
      rw [e3 t ht, if_pos hc, List.getElem?_replicate, if_pos ht]
    · rw [List.getElem?_eq_none (by omega), List.getElem?_eq_none (by simp; omega)]

/-- **C116**, residual connections: `Residual(mha)` adds the frame of the query. -/
theorem C116_residual_partial (c : Cfg F X X B E) (hN : 1 ≤ c.N) (qi : Int) (hq : -(c.N : Int) ≤ qi) (hq' : qi < c.N)
    (sf : Bool) (fill : X → X) (op : X → X → X) :
    ∃ M, Residual.make fill (foldReducer op) .off (single c qi sf) = .ok M ∧
    ∃ d : Nat, (single c qi sf).delay = d ∧ ∀ xs : List X,
      ∃ os j, callSteps M M.init xs = .ok (os, j) ∧ os.length = xs.length ∧ ∀ t < xs.length,
        os[t]? = some (if t + 1 < c.N then none else xs[t - d]?.map fun x =>
          op x (c.out (attention c.ex c.scale c.q c.k c.v (lastN c.N (xs.take (t + 1))) x))) := by
  obtain ⟨hn, hn'⟩ := nq_range hq hq'
  refine ⟨_, AttnGeo.make_off fill _ (m := single c qi sf) rfl hn, (nq c.N qi).toNat, ?_, fun xs => ?_⟩
  · show nq c.N qi = _
    omega
  have hd : (nq c.N qi).toNat < c.N := by omega
  obtain ⟨os, j, h1, h2, h3⟩ := AttnGeo.residual_steps (m := single c qi sf) (d := (nq c.N qi).toNat)
    ⟨_, (single_ok c sf hN hn hn').soft⟩ hd fill op xs
  refine ⟨os, j, h1, h2, fun t ht => ?_⟩
  rw [h3 t ht]
  by_cases hl : t + 1 < c.N
  · rw [if_pos hl, if_pos hl]
  · rw [if_neg hl, if_neg hl]
    have e := AttnGeo.rowOf_map c hn hn' (by omega) ht
    have ht' : t - (nq c.N qi).toNat < xs.length := by omega
    rw [List.getElem?_eq_getElem ht'] at e ⊢
    simp only [Option.map_some, Option.some.injEq] at e ⊢
    rw [e]

/-- **C116** fails inside a `Sequential`: `Residual(Sequential(mha))` adds the oldest frame of the window, whichever frame
the query is. -/
theorem C116_residual_refuted (c : Cfg F X X B E) (hN : 1 ≤ c.N) (qi : Int) (hq : -(c.N : Int) ≤ qi) (hq' : qi < c.N)
    (sf : Bool) (fill : X → X) (op : X → X → X) :
    ∃ M, Residual.make fill (foldReducer op) .off (Sequential.mod (.single (single c qi sf))) = .ok M ∧
    ∃ d : Nat, (single c qi sf).delay = d ∧ ∀ xs : List X,
      ∃ os j, callSteps M M.init xs = .ok (os, j) ∧ os.length = xs.length ∧ ∀ t < xs.length,
        os[t]? = some (if t + 1 < c.N then none else xs[t - (c.N - 1)]?.bind fun old => xs[t - d]?.map fun x =>
          op old (c.out (attention c.ex c.scale c.q c.k c.v (lastN c.N (xs.take (t + 1))) x))) := by
  obtain ⟨hn, hn'⟩ := nq_range hq hq'
  have hD : (Sequential.mod (.single (single c qi sf))).delay = (c.N : Int) - 1 :=
    (C116_first_refuted c hN qi hq hq' sf).2.2.2.1
  have hD' : (Sequential.mod (.single (single c qi sf))).delay.toNat = c.N - 1 := by omega
  refine ⟨_, AttnGeo.make_off fill _ (m := Sequential.mod (.single (single c qi sf))) rfl (by omega),
    (nq c.N qi).toNat, ?_, fun xs => ?_⟩
  · show nq c.N qi = _
    omega
  have hd : (Sequential.mod (.single (single c qi sf))).delay.toNat < c.N := by omega
  obtain ⟨os, j, h1, h2, h3⟩ := AttnGeo.residual_steps (m := Sequential.mod (.single (single c qi sf)))
    (d := (Sequential.mod (.single (single c qi sf))).delay.toNat)
    (Sequential.soft_single ⟨_, (single_ok c sf hN hn hn').soft⟩) hd fill op xs
  refine ⟨os, j, h1, h2, fun t ht => ?_⟩
  rw [h3 t ht, hD']
  by_cases hl : t + 1 < c.N
  · rw [if_pos hl, if_pos hl]
  · rw [if_neg hl, if_neg hl]
    have e := AttnGeo.rowOf_map c hn hn' (by omega) ht
    have ht' : t - (nq c.N qi).toNat < xs.length := by omega
    have ht2 : t - (c.N - 1) < xs.length := by omega
    rw [List.getElem?_eq_getElem ht'] at e ⊢
    rw [List.getElem?_eq_getElem ht2]
    simp only [Option.map_some, Option.some.injEq, Option.bind_some] at e ⊢
    rw [e]

/-- **C116** fails for chunks: unless the query is the oldest one, `Residual(mha)` raises for the first chunk that gives
two results or more. -/
theorem C116_chunk_refuted (c : Cfg F X X B E) (hN : 1 ≤ c.N) (qi : Int) (hq : -(c.N : Int) ≤ qi) (hq' : qi < c.N)
    (h0 : qi ≠ 0) (h1 : qi ≠ -(c.N : Int)) (sf : Bool) (fill : X → X) (op : X → X → X) :
    ∃ M, Residual.make fill (foldReducer op) .off (single c qi sf) = .ok M ∧
    ∀ xs : List X, c.N + 1 ≤ xs.length → M.steps M.init false true xs = .error .runtime := by
  obtain ⟨hn, hn'⟩ := nq_range hq hq'
  refine ⟨_, AttnGeo.make_off fill _ (m := single c qi sf) rfl hn, fun xs hx => ?_⟩
  have hne : xs ≠ [] := by intro h; subst h; simp at hx
  have hlt : nq c.N qi ≠ (c.N : Int) - 1 := by unfold nq; split <;> omega
  obtain ⟨RD, HD⟩ := ((Residual.delay_facts (X := X) (nq c.N qi).toNat fill).impl).soft
  obtain ⟨as, ja, a1, a2, _⟩ := HD.steps xs hne HD.init
  have HA := (single_ok c sf hN hn hn').soft
  obtain ⟨bs, jb, b1, b2, _⟩ := HA.steps xs hne HA.init
  rw [HD.phi_nil] at a2
  rw [HA.phi_nil] at b2
  simp only [List.nil_append] at a2 b2
  have la : as.length = xs.length - (nq c.N qi).toNat := by rw [← a2]; exact Residual.delayed_length _ _
  have lb : bs.length = xs.length - (c.N - 1) := by
    letI : Add X := ⟨op⟩
    letI : Zero X := ⟨xs.head hne⟩
    rw [← b2]; exact Transformer.slide_one_length _ hN _ _
  have hae : as ≠ [] := by intro h; subst h; simp at la; omega
  have hbe : bs ≠ [] := by intro h; subst h; simp at lb; omega
  rw [BroadcastReduce.optList_some hae] at a1
  rw [BroadcastReduce.optList_some hbe] at b1
  show (BroadcastReduce.mod (foldReducer op) [Delay.mod { d := (nq c.N qi).toNat, fill := fill }, single c qi sf]).steps
    ((Delay.mod { d := (nq c.N qi).toNat, fill := fill }).init, (single c qi sf).init, ()) false true xs = _
  rw [Residual.steps_pair_fold op a1 b1, AttnGeo.bcast2_fail op (by omega) (by omega) (by omega)]
  rfl

end

/-! ### Examples -/

/-- The newest of three frames is the query: delay 0, first result at the third step. -/
example : (single exAttn (-1) true).delay = 0 ∧ (Sequential.mod (.single (single exAttn (-1) true))).delay = 2 ∧
    (callSteps (single exAttn (-1) true) (single exAttn (-1) true).init [1, -2, 3]).map Prod.fst =
      .ok [none, none, (multihead exAttn.ex exAttn.scale exAttn.q exAttn.k exAttn.v exAttn.out [1, -2, 3])[2]?] := by
  decide +kernel

example : ∃ i : (single exAttn (-1) true).Inst, ∃ j,
    callSteps (single exAttn (-1) true) i [1] = .ok ([none], j) :=
  ⟨_, (C116_first_refuted exAttn (by decide) (-1) (by decide) (by decide) true).2.2.2.2.2 (by decide) (by decide) _ .init [1] rfl⟩

example : ∃ os j, callSteps (retro exAttn) (retro exAttn).init [1, -2, 3] = .ok (os, j) ∧ os.length = 3 := by
  obtain ⟨_, _, _, _, _, os, j, h1, h2, _⟩ := C116_retro exAttn (by decide) .init [1, -2, 3]
  exact ⟨os, j, h1, h2⟩

/-- The residual connection around the module adds the query `3`, the one around the `Sequential` the frame `1`. -/
example : ∃ M M' : CoMod (.stream ℚ) (.stream ℚ),
    Residual.make (fun _ => 0) (foldReducer (· + ·)) .off (single exAttn (-1) true) = .ok M ∧
    Residual.make (fun _ => 0) (foldReducer (· + ·)) .off (Sequential.mod (.single (single exAttn (-1) true))) = .ok M' ∧
    (∃ os j, callSteps M M.init [1, -2, 3] = .ok (os, j) ∧ os[2]? = some (some (3 +
      exAttn.out (attention exAttn.ex exAttn.scale exAttn.q exAttn.k exAttn.v [1, -2, 3] 3)))) ∧
    (∃ os j, callSteps M' M'.init [1, -2, 3] = .ok (os, j) ∧ os[2]? = some (some (1 +
      exAttn.out (attention exAttn.ex exAttn.scale exAttn.q exAttn.k exAttn.v [1, -2, 3] 3)))) ∧
    M.steps M.init false true [1, -2, 3, 4] = .error .runtime := by
  obtain ⟨M, h1, d, h2, h3⟩ := C116_residual_partial exAttn (by decide) (-1) (by decide) (by decide) true (fun _ => 0) (· + ·)
  obtain ⟨M', k1, e, k2, k3⟩ := C116_residual_refuted exAttn (by decide) (-1) (by decide) (by decide) true (fun _ => 0) (· + ·)
  obtain ⟨M2, l1, l2⟩ := C116_chunk_refuted exAttn (by decide) (-1) (by decide) (by decide) (by decide) (by decide) true
    (fun _ => 0) (· + ·)
  have hd : d = 0 := by have : ((0 : Nat) : Int) = d := h2; omega
  have he : e = 0 := by have : ((0 : Nat) : Int) = e := k2; omega
  subst hd; subst he
  rw [h1] at l1
  cases l1
  refine ⟨M, M', h1, k1, ?_, ?_, l2 _ (by decide)⟩
  · obtain ⟨os, j, a, _, b⟩ := h3 [1, -2, 3]
    exact ⟨os, j, a, b 2 (by decide)⟩
  · obtain ⟨os, j, a, _, b⟩ := k3 [1, -2, 3]
    exact ⟨os, j, a, b 2 (by decide)⟩

end CoInf
