/-
C111: the step of the convolutions in C++.
-/
import Verif.Model.Cpp
import Verif.Lemmas.ConvNd

set_option autoImplicit false

namespace CoInf

namespace Spec

/-- Steps one after the other, the state given from each to the next. -/
def inTurn {X Y S : Type} (f : X → S → Except Err (Option Y × S)) : S → List X → Except Err (List (Option Y) × S)
  | s, [] => .ok ([], s)
  | s, x :: xs => match f x s with
    | .error e => .error e
    | .ok (o, s) => match inTurn f s xs with
      | .error e => .error e
      | .ok (os, s) => .ok (o :: os, s)

end Spec

open Spec ConvNd

variable {R β : Type} [NonUnitalNonAssocSemiring R]

namespace Cpp

/-- The states that occur: the buffer has `K - 1` rows. -/
def Fine (c : ConvNd.Cfg R) (s : Option (Conv.St (OutFrame β c))) : Prop :=
  ∀ st, s = some st → st.buffer.length = c.K - 1 ∧ 0 ≤ st.index

/-- The biases that torch adds to the right axis. -/
def BiasFine (c : ConvNd.Cfg R) : Prop := c.bias = none ∨ c.n = 0 ∨ c.groups * c.coutG = 1

theorem nextStride_eq {S : Nat} (si : Int) : nextStride S si = Conv.nextStride S si := by
  unfold nextStride Conv.nextStride
  by_cases h : si + 1 > 0
  · rw [if_pos h]
    simp only [h, if_true]
    exact Int.tmod_eq_emod_of_nonneg (by omega)
  · rw [if_neg h]
    simp only [h, if_false]

theorem addBias_fine {c : ConvNd.Cfg R} (h : BiasFine c) (y : OutFrame β c) :
    addBias c y = .ok (.frame (Conv.addBias (temporal c) y)) := by
  unfold addBias Conv.addBias temporal
  simp only
  cases hb : c.bias with
  | none => rfl
  | some v =>
    have h : c.n = 0 ∨ c.groups * c.coutG = 1 := by
      rcases h with h | h
      · rw [h] at hb; cases hb
      · exact h
    simp only [Option.map_some]
    by_cases hn : 0 < c.n
    · rw [dif_pos hn]
      have h1 : c.groups * c.coutG = 1 := by omega
      have hv : ∀ o o' : Fin (c.groups * c.coutG), v o = v o' := fun o o' => by
        have h2 := o.2
        have h3 := o'.2
        rw [show o = o' from Fin.ext (by omega)]
      split
      · exact congrArg _ (congrArg _ (funext fun b => funext fun o => funext fun p => congrArg (y b o p + ·) (hv _ _)))
      · exact congrArg _ (congrArg _ (funext fun b => funext fun o => funext fun p => congrArg (y b o p + ·) (hv _ _)))
    · rw [dif_neg hn]
      rfl

theorem output_fine {c : ConvNd.Cfg R} (h : BiasFine c) {st : Conv.St (OutFrame β c)} (hl : st.buffer.length = c.K - 1) (x : OutFrame β c) :
    output c st x = (Conv.output (temporal c) st x).map (Option.map .frame) := by
  unfold output Conv.output
  show _ = Except.map _ (if st.strideIndex = (c.S : Int) - 1 then _ else _)
  by_cases hs : st.strideIndex = (c.S : Int) - 1
  · rw [if_pos hs, if_pos hs, hl]
    show _ = Except.map _ (Except.bind (Conv.pick st (c.K - 1)) _)
    cases Conv.pick st (c.K - 1) with
    | error e => rfl
    | ok ps => simp only [addBias_fine h]; rfl
  · rw [if_neg hs, if_neg hs]
    rfl

theorem stateless_large {c : ConvNd.Cfg R} (hK : 2 ≤ c.K) : Conv.stateless (temporal (β := β) c) = false := by
  unfold Conv.stateless
  exact decide_eq_false fun h => by
    have : c.K = 1 := h.1
    omega

theorem write_large {c : ConvNd.Cfg R} (hK : 2 ≤ c.K) (st : Conv.St (OutFrame β c)) (r : List (OutFrame β c)) :
    Conv.writeBack (temporal c) st r = Except.bind (pySet st.buffer st.index r)
      fun b => .ok (b, (st.index + 1) % ((c.K - 1 : Nat) : Int)) := by
  unfold Conv.writeBack
  rw [if_pos (show (temporal (β := β) c).K > 1 from by show c.K > 1; omega)]
  rfl

theorem pySet_length {A : Type} {l l' : List A} {i : Int} {a : A} (h : pySet l i a = .ok l') : l'.length = l.length := by
  unfold pySet at h
  dsimp only at h
  generalize (if i < 0 then i + (l.length : Int) else i) = j at h
  by_cases h1 : j < 0
  · rw [if_pos h1] at h; cases h
  · rw [if_neg h1] at h
    by_cases h2 : j.toNat < l.length
    · rw [if_pos h2] at h; cases h; exact List.length_set
    · rw [if_neg h2] at h; cases h

theorem init_fine {c : ConvNd.Cfg R} (hf : c.fill = .zeros) (hK : 1 ≤ c.K) (r : List (OutFrame β c)) :
    initState c r = Conv.initState (temporal c) r := by
  unfold initState Conv.initState Conv.padRest temporal
  simp only [hf]
  congr 1
  omega

end Cpp

open Cpp

/-- C111: one step.  The C++ code computes what the Python code computes if the temporal stride is 1, the temporal kernel has more than one
entry, a fresh state is filled with zeros, and there is no bias, no spatial axis, or one channel. -/
theorem C111_step_partial (c : ConvNd.Cfg R) (training : Bool)
    (h : training = false → c.padMode = .zeros → c.S = 1 ∧ 2 ≤ c.K ∧ BiasFine c) (x : Frame β c) (s : Option (Conv.St (OutFrame β c)))
    (hs : Fine c s) (hf : s = none → c.fill = .zeros) : dispatch c training x s = dispatch c true x s := by
  unfold dispatch
  rw [if_neg (show ¬ ((true : Bool) = false ∧ _) by simp)]
  by_cases hd : training = false ∧ c.padMode = .zeros
  · rw [if_pos hd]
    obtain ⟨hS, hK, hb⟩ := h hd.1 hd.2
    unfold step pstep
    rw [if_neg (by rw [stateless_large hK]; simp), hS]
    cases convFunc c 1 (c.K - 1) none [padFrame c x] with
    | error e => rfl
    | ok ys =>
      simp only
      cases pyGet ys 0 with
      | error e => rfl
      | ok xOut =>
        simp only
        have key : ∀ st : Conv.St (OutFrame β c), st.buffer.length = c.K - 1 → 0 ≤ st.index →
            (match output c st xOut with
              | .error e => .error e
              | .ok out => match pySet st.buffer st.index (ys.drop 1) with
                | .error e => .error e
                | .ok b => .ok (out, some ⟨b, (st.index + 1).tmod st.buffer.length, nextStride 1 st.strideIndex⟩)) =
            Except.map ofPy (match Conv.output (temporal c) st xOut with
              | .error e => .error e
              | .ok out => match Conv.writeBack (temporal c) st (ys.drop 1) with
                | .error e => .error e
                | .ok next => .ok (out, some ⟨next.1, next.2, Conv.nextStride 1 st.strideIndex⟩)) := by
          intro st hl hi
          rw [output_fine hb hl]
          cases Conv.output (temporal c) st xOut with
          | error e => rfl
          | ok out =>
            simp only [Except.map]
            rw [write_large hK]
            cases pySet st.buffer st.index (ys.drop 1) with
            | error e => rfl
            | ok b =>
              simp only [Except.bind, ofPy, nextStride_eq, hl]
              rw [Int.tmod_eq_emod_of_nonneg (by omega)]
        cases s with
        | some st => exact key st (hs st rfl).1 (hs st rfl).2
        | none =>
          simp only
          rw [← init_fine (hf rfl) (by omega)]
          exact key _ (by simp [initState]) (by simp [initState])
  · rw [if_neg hd]

namespace Cpp

/-- Such states remain so. -/
theorem fine_next {c : ConvNd.Cfg R} (hK : 2 ≤ c.K) {x : Frame β c} {s : Option (Conv.St (OutFrame β c))} (hs : Fine c s)
    {r : Option (Result β c) × Option (Conv.St (OutFrame β c))} (h : dispatch c true x s = .ok r) : Fine c r.2 ∧ r.2 ≠ none := by
  unfold dispatch at h
  rw [if_neg (show ¬ ((true : Bool) = false ∧ _) by simp)] at h
  unfold pstep at h
  rw [if_neg (by rw [stateless_large hK]; simp)] at h
  cases h1 : convFunc c 1 (c.K - 1) none [padFrame c x] with
  | error e => rw [h1] at h; cases h
  | ok ys =>
    simp only [h1] at h
    cases h2 : pyGet ys 0 with
    | error e => rw [h2] at h; cases h
    | ok xOut =>
      simp only [h2] at h
      have key : ∀ st : Conv.St (OutFrame β c), st.buffer.length = c.K - 1 → 0 ≤ st.index →
            Except.map ofPy (match Conv.output (temporal c) st xOut with
              | .error e => .error e
              | .ok out => match Conv.writeBack (temporal c) st (ys.drop 1) with
                | .error e => .error e
                | .ok next => .ok (out, some ⟨next.1, next.2, Conv.nextStride c.S st.strideIndex⟩)) = .ok r →
            Fine c r.2 ∧ r.2 ≠ none := by
        intro st hl hi h
        cases h3 : Conv.output (temporal c) st xOut with
        | error e => rw [h3] at h; cases h
        | ok out =>
          simp only [h3] at h
          rw [write_large hK] at h
          cases h4 : pySet st.buffer st.index (ys.drop 1) with
          | error e => rw [h4] at h; cases h
          | ok b =>
            simp only [h4, Except.bind, Except.map, ofPy] at h
            cases h
            refine ⟨?_, by simp⟩
            intro st' he
            cases he
            refine ⟨?_, Int.emod_nonneg _ (by omega)⟩
            exact (pySet_length h4).trans hl
      cases s with
      | some st => exact key st (hs st rfl).1 (hs st rfl).2 h
      | none => exact key _ (by simp [Conv.initState, temporal]) (by simp [Conv.initState]) h

end Cpp

/-- C111: streams, from a fresh state or any other. -/
theorem C111_stream_partial (c : ConvNd.Cfg R) (training : Bool) (hK : 2 ≤ c.K)
    (h : training = false → c.padMode = .zeros → c.S = 1 ∧ BiasFine c) (xs : List (Frame β c)) (s : Option (Conv.St (OutFrame β c)))
    (hs : Fine c s) (hf : s = none → c.fill = .zeros) : inTurn (dispatch c training) s xs = inTurn (dispatch c true) s xs := by
  induction xs generalizing s with
  | nil => rfl
  | cons x xs ih =>
    unfold inTurn
    rw [C111_step_partial c training (fun h1 h2 => ⟨(h h1 h2).1, hK, (h h1 h2).2⟩) x s hs hf]
    cases hd : dispatch c true x s with
    | error e => rfl
    | ok r =>
      obtain ⟨h1, h2⟩ := fine_next hK hs hd
      simp only
      rw [ih r.2 h1 (fun h => absurd h h2)]

namespace Cpp

/-- The Python code never raises: any stream from a fresh state. -/
theorem python_total {c : ConvNd.Cfg R} (hf : Fits c) (hK : 1 ≤ c.K) (hS : 1 ≤ c.S) (hP : c.P + 1 ≤ c.K) (xs : List (Frame β c)) :
    ∃ r, inTurn (dispatch c true) none xs = .ok r := by
  have key : ∀ (xs h : List (Frame β c)) (s : Option (Conv.St (OutFrame β c))), Conv.Rel (abs c) h s →
      ∃ r, inTurn (dispatch c true) s xs = .ok r := by
    intro xs
    induction xs with
    | nil => exact fun h s _ => ⟨_, rfl⟩
    | cons x xs ih =>
      intro h s hr
      obtain ⟨o, s', h1, _, h2, _⟩ := Conv.pstep_ok (abs c) ⟨hK, hS, hP, abs_zero c⟩ x hr
      obtain ⟨r, hr⟩ := ih _ _ h2
      have h3 : dispatch c true x s = .ok (ofPy (o, s')) := by
        unfold dispatch
        rw [if_neg (show ¬ ((true : Bool) = false ∧ _) by simp), pstep_eq hf hK, h1]
        rfl
      refine ⟨(o.map .frame :: r.1, r.2), ?_⟩
      unfold inTurn
      rw [h3]
      simp only [ofPy, hr]
  exact key xs [] none (Conv.rel_none _)

/-- The convolution of one frame with all of the stride has too few entries. -/
theorem conv_strided {c : ConvNd.Cfg R} (hf : Fits c) (hK : 1 ≤ c.K) (x : Frame β c) :
    ∃ y rest, convFunc c c.S (c.K - 1) none [padFrame c x] = .ok (y :: rest) ∧ rest.length = (c.K - 1) / c.S := by
  have := convFunc_ok hf c.S (c.K - 1) none [x] (by simp; omega)
  rw [List.map_cons, List.map_nil] at this
  rw [this]
  have e : [x].length + 2 * (c.K - 1) - c.K = c.K - 1 := by simp; omega
  rw [e, List.range_succ_eq_map, List.map_cons]
  exact ⟨_, _, rfl, by simp⟩

theorem pyGet_in {A : Type} {l : List A} {i : Int} (h0 : 0 ≤ i) (h1 : i < l.length) : ∃ a, pyGet l i = .ok a ∧ a ∈ l := by
  obtain ⟨n, rfl⟩ := Int.eq_ofNat_of_zero_le h0
  have hn : n < l.length := by omega
  exact ⟨l[n], pyGet_ofNat (List.getElem?_eq_getElem hn), List.getElem_mem _⟩

theorem pyGet_out {A : Type} {l : List A} {i : Int} (h1 : (l.length : Int) ≤ i) : pyGet l i = .error .index := by
  unfold pyGet
  have : ¬ i < 0 := by omega
  simp only [this, if_false]
  rw [List.getElem?_eq_none (by omega)]

theorem dispatch_cpp {c : ConvNd.Cfg R} (hz : c.padMode = .zeros) (x : Frame β c) (s : Option (Conv.St (OutFrame β c))) :
    dispatch c false x s = step c x s := if_pos ⟨rfl, hz⟩

theorem dispatch_py {c : ConvNd.Cfg R} (x : Frame β c) (s : Option (Conv.St (OutFrame β c))) :
    dispatch c true x s = (pstep c x s).map ofPy := if_neg (by simp)

theorem stuck {c : ConvNd.Cfg R} (hf : Fits c) (hz : c.padMode = .zeros) (hS : 2 ≤ c.S) (hK : 2 ≤ c.K) (xs : List (Frame β c)) :
    ∀ st : Conv.St (OutFrame β c), st.buffer.length = c.K - 1 → (∀ row ∈ st.buffer, row.length = (c.K - 1) / c.S) → 0 ≤ st.index →
      st.index < (c.K : Int) - 1 → st.strideIndex ≤ (c.S : Int) - 1 → (c.S : Int) ≤ st.strideIndex + xs.length →
      inTurn (dispatch c false) (some st) xs = .error .index := by
  have hN : (c.K - 1) / c.S < c.K - 1 := Nat.div_lt_self (by omega) hS
  induction xs with
  | nil =>
    intro st _ _ _ _ h1 h2
    simp only [List.length_nil] at h2
    omega
  | cons x xs ih =>
    intro st hl hr h0 hi h1 h2
    unfold inTurn
    rw [dispatch_cpp hz]
    obtain ⟨y, rest, hc, hrl⟩ := conv_strided hf (by omega) x
    unfold step
    rw [hc]
    simp only [show pyGet (y :: rest) 0 = .ok y from rfl, List.drop_succ_cons, List.drop_zero]
    by_cases hv : st.strideIndex = (c.S : Int) - 1
    · have : output c st y = .error .index := by
        unfold output
        rw [if_pos hv]
        have : Conv.pick st st.buffer.length = .error .index := by
          unfold Conv.pick
          obtain ⟨m, hm⟩ : ∃ m, st.buffer.length = m + 1 := ⟨c.K - 2, by omega⟩
          rw [hm, List.range_succ_eq_map, List.mapM_cons]
          obtain ⟨row, hg, hrow⟩ := pyGet_in (l := st.buffer) (i := (((0 : Nat) : Int) + st.index) % ((m + 1 : Nat) : Int))
            (Int.emod_nonneg _ (by omega)) (by rw [hm]; exact Int.emod_lt_of_pos _ (by omega))
          rw [hg]
          have := hr row hrow
          simp only [bind, Except.bind]
          rw [pyGet_out (by omega)]
        rw [this]
      rw [this]
    · have : output c st y = .ok none := by
        unfold output
        rw [if_neg hv]
      rw [this]
      obtain ⟨n, hn⟩ := Int.eq_ofNat_of_zero_le h0
      have hp : pySet st.buffer st.index rest = .ok (st.buffer.set n rest) := by
        rw [hn]
        exact pySet_ofNat _ (by omega)
      simp only [hp]
      rw [ih]
      · simp [hl]
      · intro row h
        rcases List.mem_or_eq_of_mem_set h with h | h
        · exact hr row h
        · rw [h, hrl]
      · simp only
        exact Int.tmod_nonneg _ (by omega)
      · simp only [hl]
        rw [Int.tmod_eq_emod_of_nonneg (by omega)]
        have := Int.emod_lt_of_pos (st.index + 1) (show (0 : Int) < ((c.K - 1 : Nat) : Int) by omega)
        omega
      · simp only [nextStride]
        split
        · rw [Int.tmod_eq_of_lt (by omega) (by omega)]; omega
        · omega
      · simp only [List.length_cons] at h2
        simp only [nextStride]
        split
        · rw [Int.tmod_eq_of_lt (by omega) (by omega)]; omega
        · omega

end Cpp

/-- C111, violated: with a temporal stride, the C++ code raises at the first frame that completes a window, for all weights and frames. -/
theorem C111_stride_refuted (c : ConvNd.Cfg R) (hf : Fits c) (hz : c.padMode = .zeros) (hS : 2 ≤ c.S) (hK : 2 ≤ c.K) (hP : c.P + 1 ≤ c.K)
    (xs : List (Frame β c)) (hx : c.K ≤ xs.length + c.P) :
    inTurn (dispatch c false) none xs = .error .index ∧ ∃ r, inTurn (dispatch c true) none xs = .ok r := by
  refine ⟨?_, python_total hf (by omega) (by omega) hP xs⟩
  cases xs with
  | nil => simp at hx; omega
  | cons x xs =>
    obtain ⟨y, rest, hc, hrl⟩ := conv_strided hf (by omega) x
    have := stuck hf hz hS hK (x :: xs) (initState c rest) (by simp [initState])
      (fun row h => by
        simp only [initState] at h
        rw [List.eq_of_mem_replicate h, List.length_map, hrl])
      (by simp [initState]) (by simp only [initState]; omega) (by simp only [initState]; omega)
      (by simp only [initState, List.length_cons] at hx ⊢; omega)
    rw [← this]
    unfold inTurn
    have e : dispatch c false x none = dispatch c false x (some (initState c rest)) := by
      unfold dispatch
      rw [if_pos ⟨rfl, hz⟩, if_pos ⟨rfl, hz⟩]
      unfold step
      rw [hc]
      rfl
    rw [e]

/-- C111, violated: with a temporal kernel of one entry the C++ code raises at every frame. -/
theorem C111_kernel_one_refuted (c : ConvNd.Cfg R) (hf : Fits c) (hz : c.padMode = .zeros) (hK : c.K = 1) (hP : c.P = 0) (hS : 1 ≤ c.S)
    (x : Frame β c) : (∃ e, dispatch c false x none = .error e) ∧ ∃ r, dispatch c true x none = .ok r := by
  constructor
  · unfold dispatch
    rw [if_pos ⟨rfl, hz⟩]
    obtain ⟨y, rest, hc, hrl⟩ := conv_strided hf (by omega) x
    unfold step
    rw [hc]
    simp only [show pyGet (y :: rest) 0 = .ok y from rfl, List.drop_succ_cons, List.drop_zero]
    cases output c (initState c rest) y with
    | error e => exact ⟨e, rfl⟩
    | ok o =>
      have : (initState c rest).buffer = [] := by simp [initState, hK]
      rw [this]
      exact ⟨.index, rfl⟩
  · obtain ⟨r, hr⟩ := python_total hf (by omega) hS (by omega) [x]
    unfold inTurn at hr
    cases hd : dispatch c true x none with
    | error e => rw [hd] at hr; cases hr
    | ok r => exact ⟨r, rfl⟩

/-- C111, violated: with spatial axes, biases are added to the wrong axis: for as many channels as positions along the last axis the
result is wrong by the difference of the biases, for one position it has another shape, and for other numbers the code raises. -/
theorem C111_bias_refuted (c : ConvNd.Cfg R) (hz : c.padMode = .zeros) (hS : c.S = 1) (hK : 2 ≤ c.K) (hn : 0 < c.n)
    (v : Fin (c.groups * c.coutG) → R) (hb : c.bias = some v) (h1 : c.groups * c.coutG ≠ 1) (x : Frame β c) (st : Conv.St (OutFrame β c))
    (hl : st.buffer.length = c.K - 1) (hi : 0 ≤ st.index) (y : OutFrame β c) (s' : Option (Conv.St (OutFrame β c)))
    (hy : dispatch c true x (some st) = .ok (some (.frame y), s')) :
    (∀ hw : c.hout ⟨c.n - 1, by omega⟩ = c.groups * c.coutG, ∃ y', dispatch c false x (some st) = .ok (some (.frame y'), s') ∧
      ∀ b o p, y' b o p + v o = y b o p + v (Fin.cast hw (p ⟨c.n - 1, by omega⟩))) ∧
    (c.hout ⟨c.n - 1, by omega⟩ = 1 → ∃ y', dispatch c false x (some st) = .ok (some (.wide y'), s')) ∧
    (c.hout ⟨c.n - 1, by omega⟩ ≠ c.groups * c.coutG → c.hout ⟨c.n - 1, by omega⟩ ≠ 1 →
      dispatch c false x (some st) = .error .runtime) := by
  unfold dispatch at hy ⊢
  rw [if_neg (show ¬ ((true : Bool) = false ∧ _) by simp)] at hy
  rw [if_pos ⟨rfl, hz⟩]
  unfold pstep at hy
  unfold step
  rw [if_neg (by rw [stateless_large hK]; simp)] at hy
  rw [hS]
  cases hc : convFunc c 1 (c.K - 1) none [padFrame c x] with
  | error e => rw [hc] at hy; cases hy
  | ok ys =>
    simp only [hc] at hy ⊢
    cases hg : pyGet ys 0 with
    | error e => rw [hg] at hy; cases hy
    | ok xOut =>
      simp only [hg] at hy ⊢
      rw [write_large hK] at hy
      by_cases hv : st.strideIndex = (c.S : Int) - 1
      · have e1 : Conv.output (temporal c) st xOut = Except.bind (Conv.pick st (c.K - 1)) fun ps =>
            .ok (some (Conv.addBias (temporal c) (xOut + ps.sum))) := by
          unfold Conv.output
          rw [if_pos (show st.strideIndex = ((temporal (β := β) c).S : Int) - 1 from hv)]
          rfl
        rw [e1] at hy
        unfold output
        rw [if_pos hv, hl]
        cases hp : Conv.pick st (c.K - 1) with
        | error e => rw [hp] at hy; cases hy
        | ok ps =>
          simp only [hp, Except.bind] at hy ⊢
          cases hq : pySet st.buffer st.index (ys.drop 1) with
          | error e => rw [hq] at hy; cases hy
          | ok bf =>
            simp only [hq, Except.map, ofPy, Option.map_some] at hy ⊢
            have hy := Prod.mk.inj (Except.ok.inj hy)
            have e2 : y = Conv.addBias (temporal c) (xOut + ps.sum) := (Result.frame.inj (Option.some.inj hy.1)).symm
            have e3 := hy.2
            rw [hS, ← nextStride_eq, ← Int.tmod_eq_emod_of_nonneg (by omega)] at e3
            refine ⟨fun hw => ?_, fun hw => ?_, fun hw hw' => ?_⟩
            · unfold addBias
              simp only [hb, hn, hw, dif_pos]
              refine ⟨_, by rw [e3], ?_⟩
              intro b o p
              rw [e2]
              unfold Conv.addBias temporal
              simp only [hb, Option.map_some]
              show _ + _ + _ = (xOut + ps.sum) b o p + v o + _
              rw [add_assoc, add_assoc, add_comm (v _) (v o)]
            · unfold addBias
              have : ¬ c.hout ⟨c.n - 1, by omega⟩ = c.groups * c.coutG := by omega
              simp only [hb]
              rw [dif_pos hn, dif_neg this, dif_neg h1, if_pos hw]
              simp only [e3]
              exact ⟨_, rfl⟩
            · unfold addBias
              simp only [hb]
              rw [dif_pos hn, dif_neg hw, dif_neg h1, if_neg hw']
      · have e1 : Conv.output (temporal c) st xOut = .ok none := by
          unfold Conv.output
          rw [if_neg (show ¬ st.strideIndex = ((temporal (β := β) c).S : Int) - 1 from hv)]
        rw [e1] at hy
        simp only at hy
        cases hq : pySet st.buffer st.index (ys.drop 1) with
        | error e => rw [hq] at hy; cases hy
        | ok bf =>
          simp only [hq, Except.map, Except.bind, ofPy, Option.map_none] at hy
          cases hy

/-- C111, violated: the C++ code does not look at `temporal_fill`; a stream before whose first frame this frame should be repeated is
continued by zeros.  Here for a kernel of two slices, of which the first is left out. -/
theorem C111_fill_refuted (c : ConvNd.Cfg R) (hf : Fits c) (hz : c.padMode = .zeros) (hS : c.S = 1) (hK : c.K = 2) (hP : c.P = 1)
    (hb : c.bias = none) (hr : c.fill = .replicate) (x : Frame β c) : ∃ s s',
    dispatch c true x none = .ok (some (.frame (slice c ⟨1, by omega⟩ x + slice c ⟨0, by omega⟩ x)), s) ∧
    dispatch c false x none = .ok (some (.frame (slice c ⟨1, by omega⟩ x)), s') := by
  have ht : convFunc c 1 (c.K - 1) none [padFrame c x] = .ok [slice c ⟨1, by omega⟩ x, slice c ⟨0, by omega⟩ x] := by
    rw [taps_eq hf (by omega)]
    have e : ∀ (k : Nat) (hk : k < c.K), (abs c).w k x = slice c ⟨k, hk⟩ x := fun k hk => dif_pos hk
    have : Conv.taps (abs c) x = (List.range 2).map fun j => (abs c).w (2 - 1 - j) x := by
      unfold Conv.taps
      rw [show (abs (β := β) c).K = 2 from hK]
    rw [this]
    show Except.ok [(abs c).w 1 x, (abs c).w 0 x] = _
    rw [e 1 (by omega), e 0 (by omega)]
  rw [dispatch_cpp hz, dispatch_py]
  unfold step pstep
  rw [if_neg (by rw [stateless_large (by omega)]; simp), hS, ht]
  generalize slice c ⟨1, by omega⟩ x = a
  generalize slice c ⟨0, by omega⟩ x = b
  have h1 : Conv.initState (temporal c) [b] = ⟨[[b]], 0, 0⟩ := by
    unfold Conv.initState Conv.padRest temporal
    simp [hS, hK, hP, hr]
  have h2 : initState c [b] = ⟨[[0]], 0, 0⟩ := by
    unfold initState
    simp [hS, hK, hP]
  have h3 : Conv.output (temporal c) ⟨[[b]], 0, 0⟩ a = .ok (some (a + b)) := by
    unfold Conv.output Conv.addBias
    rw [if_pos (show (0 : Int) = ((temporal (β := β) c).S : Int) - 1 from by show (0 : Int) = (c.S : Int) - 1; rw [hS]; rfl),
      show (temporal (β := β) c).K - 1 = 1 from by show c.K - 1 = 1; omega, show (temporal (β := β) c).bias = none from by
        show c.bias.map _ = none; rw [hb]; rfl]
    show Except.ok (some (a + (b + 0))) = _
    rw [add_zero]
  have h4 : output c ⟨[[0]], 0, 0⟩ a = .ok (some (.frame a)) := by
    unfold output addBias
    rw [if_pos (by simp only; rw [hS]; rfl), hb]
    show Except.ok (some (Result.frame (a + (0 + 0)))) = _
    rw [add_zero, add_zero]
  simp only [show ∀ l : List (OutFrame β c), pyGet (a :: l) 0 = .ok a from fun _ => rfl, List.drop_succ_cons, List.drop_zero, h1, h2, h3, h4,
    write_large (show 2 ≤ c.K by omega)]
  exact ⟨_, _, rfl, rfl⟩

/-! ### Examples -/

/-- A convolution over time of two channels with a bias. -/
def exCpp : ConvNd.Cfg Int where
  n := 0
  groups := 1
  cinG := 2
  coutG := 2
  K := 3
  S := 1
  P := 1
  kern := Fin.elim0
  str := Fin.elim0
  dil := Fin.elim0
  pad := Fin.elim0
  h := Fin.elim0
  fill := .zeros
  padMode := .zeros
  weight := fun o i k _ => (o : Nat) + 2 * (i : Nat) + (k : Nat)
  bias := some fun o => (o : Nat)

example (xs : List (Frame Bool exCpp)) : inTurn (dispatch exCpp false) none xs = inTurn (dispatch exCpp true) none xs :=
  C111_stream_partial exCpp false (by decide) (fun _ _ => ⟨rfl, Or.inr (Or.inl rfl)⟩) xs none (fun _ h => nomatch h) fun _ => rfl

/-- A convolution over time and one other axis, of two channels, with kernel 2 in time and 1 beside it and as many positions as channels. -/
def exCppWide (S P : Nat) (f : Fill) (bias : Option (Fin (1 * 2) → Int)) : ConvNd.Cfg Int where
  n := 1
  groups := 1
  cinG := 2
  coutG := 2
  K := 2
  S := S
  P := P
  kern := fun _ => 1
  str := fun _ => 1
  dil := fun _ => 1
  pad := fun _ => 0
  h := fun _ => 2
  fill := f
  padMode := .zeros
  weight := fun o i k _ => (o : Nat) + 2 * (i : Nat) + (k : Nat)
  bias := bias

theorem exCppWide_fits (S P : Nat) (f : Fill) (bias : Option (Fin (1 * 2) → Int)) : Fits (exCppWide S P f bias) := fun _ => by
  show 1 * (1 - 1) + 1 ≤ 2 + 2 * 0
  omega

example (x y : Frame Bool (exCppWide 2 0 .zeros none)) : inTurn (dispatch (exCppWide 2 0 .zeros none) false) none [x, y] = .error .index :=
  (C111_stride_refuted _ (exCppWide_fits _ _ _ _) rfl (le_refl 2) (le_refl 2) (by decide) [x, y] (le_refl 2)).1

example (x : Frame Bool (exCppWide 1 1 .replicate none)) :
    dispatch (exCppWide 1 1 .replicate none) false x none ≠ dispatch (exCppWide 1 1 .replicate none) true x none ∨ slice _ ⟨0, by decide⟩ x = 0 := by
  obtain ⟨s, s', h1, h2⟩ := C111_fill_refuted _ (exCppWide_fits _ _ _ _) rfl rfl rfl rfl rfl rfl x
  rw [h1, h2]
  by_cases h : slice (exCppWide 1 1 .replicate none) ⟨0, by decide⟩ x = 0
  · exact Or.inr h
  · refine Or.inl fun he => h ?_
    have := (Result.frame.inj (Option.some.inj (Prod.mk.inj (Except.ok.inj he)).1)).symm
    exact left_eq_add.mp this.symm

/-- A state in which the next frame completes a window. -/
example (x : Frame Bool (exCppWide 1 1 .zeros (some fun o => (o : Nat)))) : ∃ y s',
    dispatch (exCppWide 1 1 .zeros (some fun o => (o : Nat))) true x (some ⟨[[0]], 0, 0⟩) = .ok (some (.frame y), s') :=
  ⟨_, _, by with_unfolding_all rfl⟩

end CoInf
