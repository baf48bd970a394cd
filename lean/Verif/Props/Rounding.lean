/-
What holds to the last bit, where additions round and sums depend on their order: C96.

Since `Spec.Net` admits convolutions over any type with an addition that obeys no laws (`convRound`), the theorems about networks of
class `pad = 0` (C08, C09, C10, C11, C12, C13, C14, C26, C27, C45, C46, C55, ...) hold to the last bit.
-/
import Verif.Lemmas.Net
import Verif.Props.WarmUp

set_option autoImplicit false

namespace CoInf.Pool
open Spec

variable {X Y : Type} (c : Cfg X Y)

/-- As `Ok`, but for any pooling function, which may depend on the order of the frames. -/
structure OkAny : Prop where
  hK : 1 ≤ c.K
  hS : 1 ≤ c.S
  hP : c.P + 1 ≤ c.K
  hd : c.dil = 1
  hfill : ∀ x, c.spatial (c.fillIn x) = c.fillOut (c.spatial x)

/-- The frames in the order in which they are in the buffer after `n` steps. -/
def turned (n K : Nat) (win : List Y) : List Y := win.rotate (K - n % K)

/-- The output of the last of the steps that the frames `zs` were fed by. -/
def outAt (zs : List X) : List Y :=
  match zs.head? with
  | none => []
  | some x0 =>
    if strideAt c.K c.S c.P (zs.length - 1) = (c.S : Int) - 1 then
      [c.pool (turned zs.length c.K ((lastN c.K (List.replicate c.K (c.fillIn x0) ++ zs)).map c.spatial))]
    else []

/-- All outputs. -/
def phiAt (h : List X) : List Y := (List.range h.length).flatMap fun n => outAt c (h.take (n + 1))

theorem phiAt_snoc (h : List X) (x : X) : phiAt c (h ++ [x]) = phiAt c h ++ outAt c (h ++ [x]) := by
  unfold phiAt
  rw [List.length_append, List.length_singleton, List.range_succ, List.flatMap_append]
  congr 1
  · refine List.flatMap_congr fun n hn => ?_
    have : n < h.length := List.mem_range.1 hn
    rw [List.take_append_of_le_length (by omega)]
  · simp [List.take_of_length_le]

theorem ring_turned {L : Nat} {z b : List Y} (h : Ring L z b) (hL : 1 ≤ L) {n : Nat} (hn : z.length % L = n % L) :
    b = turned n L (lastN L z) := by
  rw [turned, ← h.rotate, List.rotate_rotate]
  have hl := h.len
  have hlt := Nat.mod_lt n (show L > 0 by omega)
  have hd := Nat.div_add_mod z.length L
  have e : z.length + (L - n % L) = L * (z.length / L + 1) := by
    rw [hn] at hd
    rw [Nat.mul_add]
    omega
  rw [e, ← hl, List.rotate_length_mul]

theorem step_any (hc : OkAny c) {h : List X} {x x0 : X} {st : St Y}
    (hx0 : (h ++ [x]).head? = some x0)
    (hr : Ring c.K ((List.replicate c.K (c.fillIn x0) ++ h).map c.spatial) st.buffer)
    (hi : st.index = ((h.length % c.K : Nat) : Int))
    (hsi : st.strideIndex = strideAt c.K c.S c.P h.length) :
    ∃ o s', pstep c x (some st) = .ok (o, s') ∧ phiAt c (h ++ [x]) = phiAt c h ++ o.toList ∧
      Inv c (h ++ [x]) s' ∧ s' ≠ none := by
  have hK := hc.hK
  have hS := hc.hS
  set p0 := c.fillIn x0 with hp0
  have hslot : h.length % c.K < st.buffer.length := by
    rw [hr.len]; exact Nat.mod_lt _ (by omega)
  have hset : pySet st.buffer st.index (c.spatial x) =
      .ok (st.buffer.set (h.length % c.K) (c.spatial x)) := by
    rw [hi, pySet_ofNat _ hslot]
  have hring : Ring c.K ((List.replicate c.K p0 ++ h ++ [x]).map c.spatial)
      (st.buffer.set (h.length % c.K) (c.spatial x)) := by
    have := hr.write (c.spatial x)
    rw [List.length_map, List.length_append, List.length_replicate, Nat.add_mod_left] at this
    simpa using this
  have hidx : (st.index + 1) % (c.K : Int) = (((h ++ [x]).length % c.K : Nat) : Int) := by
    rw [hi, List.length_append, List.length_singleton]
    push_cast
    rw [Int.emod_add_emod]
  have hsn : Conv.nextStride c.S st.strideIndex = strideAt c.K c.S c.P (h ++ [x]).length := by
    rw [hsi, List.length_append, List.length_singleton, ← strideAt_succ hS]
    rfl
  have hinv : Inv c (h ++ [x]) (some ⟨st.buffer.set (h.length % c.K) (c.spatial x),
      (st.index + 1) % (c.K : Int), Conv.nextStride c.S st.strideIndex⟩) :=
    Or.inr ⟨x0, _, hx0, rfl, by rw [← List.append_assoc]; exact hring, hidx, hsn⟩
  have hout : outAt c (h ++ [x]) = if st.strideIndex = (c.S : Int) - 1 then
      [c.pool (st.buffer.set (h.length % c.K) (c.spatial x))] else [] := by
    have hb := ring_turned hring hK (n := (h ++ [x]).length) (by
      simp only [List.length_map, List.length_append, List.length_replicate, List.length_singleton, Nat.add_assoc, Nat.add_mod_left])
    rw [hb, hsi]
    unfold outAt
    rw [hx0]
    simp only [List.length_append, List.length_singleton, Nat.add_sub_cancel, lastN_map, hp0, List.append_assoc]
  rw [phiAt_snoc, hout]
  by_cases hv : st.strideIndex = (c.S : Int) - 1
  · refine ⟨some (c.pool (st.buffer.set (h.length % c.K) (c.spatial x))), _, ?_, ?_, hinv, by simp⟩
    · simp [pstep, hset, hv, select, hc.hd, bind, Except.bind, pure, Except.pure]
    · rw [if_pos hv]; rfl
  · refine ⟨none, _, ?_, ?_, hinv, by simp⟩
    · simp [pstep, hset, hv, bind, Except.bind, pure, Except.pure]
    · rw [if_neg hv]; rfl

theorem leafAny (hc : OkAny c) : LeafRel (leaf c) (phiAt c) (Inv c) where
  phi_nil := rfl
  none := Or.inl ⟨rfl, rfl⟩
  init := Or.inl ⟨rfl, by simp⟩
  clean := fun i => Or.inl ⟨rfl, by simp⟩
  pstep := by
    intro h s x hI
    have hb : bufLen c = c.K := by
      have := hc.hK
      simp [bufLen, hc.hd]; omega
    rcases hI with ⟨rfl, rfl⟩ | ⟨x0, st, h1, rfl, h2, h3, h4⟩
    · have heq : (leaf c).pstep x .none = pstep c x (some (initState c (c.spatial x))) := rfl
      rw [heq]
      obtain ⟨o, s', k1, k2, k3, k4⟩ := step_any c hc (h := []) (x := x) (x0 := x)
        (st := initState c (c.spatial x)) rfl
        (by
          simp only [initState, List.append_nil, List.map_replicate, hc.hfill, hb]
          exact Ring.init _ _)
        (by simp [initState])
        (by rw [List.length_nil, strideAt_zero hc.hP]; simp only [initState, hb])
      exact ⟨o, s', k1, k2, k3, fun e => absurd e k4⟩
    · obtain ⟨o, s', k1, k2, k3, k4⟩ := step_any c hc (h := h) (x := x) (x0 := x0) (st := st)
        (by cases h <;> simp_all) h2 h3 h4
      exact ⟨o, s', k1, k2, k3, fun e => absurd e k4⟩
  getset := by
    intro h st i hs
    rcases hs with ⟨_, h0⟩ | ⟨x0, st', _, h0, hr, _⟩
    · cases h0
    · cases h0
      have : 0 < st.buffer.length := by rw [hr.len]; exact hc.hK
      simp [this]

theorem simAny (hc : OkAny c) : SimRel (mod c) (phiAt c) (fun h i => Inv c h ((leaf c).get i)) := by
  have H := leafAny c hc
  exact {
    phi_nil := H.phi_nil
    init := H.init
    clean := fun {_ i} _ => H.clean i
    step := fun u x hi => H.forwardStep u x hi
    steps := fun u xs _ hi => H.forwardSteps u xs hi
    fwd_state := fun {h i xs ys i'} hi hf => by
      simp only [Except.map] at hf
      split at hf
      · cases hf
      · cases hf; exact hi
    fwd_indep := fun xs hi => by
      simp only [Except.map]
      cases forward c xs <;> rfl }

end CoInf.Pool

namespace CoInf
open Spec Pool

variable {X Y : Type}

/-- **C96** for convolutions, over any arithmetic: the addition need not be associative or commutative, so it may round.  Whatever two
objects were called with before, if the last `K` frames that they were fed are the same, they return the same output, which is the sum
of the terms in one fixed order. -/
theorem C96_conv [Zero X] [Zero Y] [Add Y] (c : Conv.Cfg X Y) (hK : 1 ≤ c.K) (hS : 1 ≤ c.S) (hP : c.P < c.K) (h1 : c.K = 1 → c.S = 1)
    (hz : ∀ j, c.w j 0 = 0) {g : List X} {i j : (Conv.mod c).Inst} (hi : Reach (Conv.mod c) g i) {x : X} {y : Y} {u : Bool}
    (h : (Conv.mod c).step i u x = .ok (some y, j)) (hl : c.K ≤ (g ++ [x]).length) :
    y = corrSeq c.w c.bias ((g ++ [x]).drop ((g ++ [x]).length - c.K)) := by
  have hn : Net ⟨true, 0⟩ (Conv.mod c) (streamOut c.K c.S c.P (c.fill.make 0) (corrSeq c.w c.bias)) :=
    .convRound c ⟨hK, hS, hP, h1, hz, rfl⟩
  have hg := convRoundGood (k := ⟨true, 0⟩) (c := c) ⟨hK, hS, hP, h1, hz, rfl⟩
  obtain ⟨o, j', e1, e2, _⟩ := (net_facts hn).impl.reach.step u x hi
  rw [h] at e1
  cases e1
  obtain ⟨x0, hx0⟩ : ∃ x0, (g ++ [x]).head? = some x0 := by cases g <;> simp
  have e3 := streamOut_snoc (K := c.K) (S := c.S) (P := c.P) (L := c.K) hS (by omega) (by omega)
    (c.fill.make 0) (corrSeq c.w c.bias) g x (c.fill.make 0 x0) (by
      intro a ha
      rw [hx0] at ha
      cases ha; rfl)
  rw [e3] at e2
  have e4 := List.append_cancel_left e2
  split at e4
  · simp only [Option.toList_some, List.cons.injEq, and_true] at e4
    rw [← e4, List.append_assoc, lastN_append_right _ _ hl]
    rfl
  · simp at e4

/-- **C96**: networks of such convolutions, of poolings that do not depend on the order (as maxima), delays, skips and frame-wise modules,
in Sequentials and reductions: two objects that were fed the same last `receptive_field` frames return the same bits. -/
theorem C96_net_partial {m : CoMod (.stream X) (.stream Y)} {φ : List X → List Y} (hn : Net ⟨true, 0⟩ m φ) {g g' : List X}
    {i i' j j' : m.Inst} (hi : Reach m g i) (hi' : Reach m g' i') {x x' : X} {y y' : Y} {u u' : Bool}
    (h : m.step i u x = .ok (some y, j)) (h' : m.step i' u' x' = .ok (some y', j'))
    (hl : m.rf ≤ (g ++ [x]).length) (hl' : m.rf ≤ (g' ++ [x']).length)
    (hw : (g ++ [x]).drop ((g ++ [x]).length - m.rf) = (g' ++ [x']).drop ((g' ++ [x']).length - m.rf)) : y = y' :=
  C55_window (k := ⟨true, 0⟩) rfl hn hi hi' h h' hl hl' hw

/-- What a pooling returns, for any pooling function: it is handed the frames of the window as they lie in the ring buffer, that is
rotated by the number of the step. -/
theorem C96_pool_exact (c : Pool.Cfg X Y) (hK : 1 ≤ c.K) (hS : 1 ≤ c.S) (hP : c.P < c.K) (hd : c.dil = 1)
    (hf : ∀ x, c.spatial (c.fillIn x) = c.fillOut (c.spatial x)) {g : List X} {i j : (Pool.mod c).Inst} (hi : Reach (Pool.mod c) g i)
    {x : X} {y : Y} {u : Bool} (h : (Pool.mod c).step i u x = .ok (some y, j)) (hl : c.K ≤ (g ++ [x]).length) :
    y = c.pool ((((g ++ [x]).drop ((g ++ [x]).length - c.K)).map c.spatial).rotate (c.K - (g ++ [x]).length % c.K)) := by
  have S := simAny c ⟨hK, hS, by omega, hd, hf⟩
  obtain ⟨o, j', e1, e2, _⟩ := S.reach.step u x hi
  rw [h] at e1
  cases e1
  rw [phiAt_snoc] at e2
  have e4 := List.append_cancel_left e2
  unfold outAt at e4
  obtain ⟨x0, hx0⟩ : ∃ x0, (g ++ [x]).head? = some x0 := by cases g <;> simp
  rw [hx0] at e4
  simp only at e4
  split at e4
  · simp only [Option.toList_some, List.cons.injEq, and_true] at e4
    rw [← e4, lastN_append_right _ _ hl]
    rfl
  · simp at e4

/-- **C96 fails** for poolings that round: if the pooling function gives some window another value when it is rotated, then there are two
streams with the same last `K` frames and different outputs. -/
theorem C96_pool_refuted (c : Pool.Cfg X Y) (hK : 1 ≤ c.K) (hS : c.S = 1) (hP : c.P = 0) (hd : c.dil = 1)
    (hf : ∀ x, c.spatial (c.fillIn x) = c.fillOut (c.spatial x)) (win : List X) (k : Nat) (hw : win.length = c.K) (hk : k < c.K)
    (hne : c.pool ((win.map c.spatial).rotate k) ≠ c.pool (win.map c.spatial)) :
    ∃ (g g' : List X) (i i' j j' : (Pool.mod c).Inst) (x : X) (y y' : Y), Reach (Pool.mod c) g i ∧ Reach (Pool.mod c) g' i' ∧
      (Pool.mod c).step i true x = .ok (some y, j) ∧ (Pool.mod c).step i' true x = .ok (some y', j') ∧
      (g ++ [x]).drop ((g ++ [x]).length - c.K) = (g' ++ [x]).drop ((g' ++ [x]).length - c.K) ∧ y ≠ y' := by
  have S := simAny c ⟨hK, by omega, by omega, hd, hf⟩
  have hwne : win ≠ [] := by rintro rfl; simp at hw; omega
  set x := win.getLast hwne with hx
  have hsplit : win.dropLast ++ [x] = win := List.dropLast_append_getLast hwne
  have hk0 : k ≠ 0 := by rintro rfl; simp at hne
  have main : ∀ pre : List X, ∃ i j y, Reach (Pool.mod c) (pre ++ win.dropLast) i ∧ (Pool.mod c).step i true x = .ok (some y, j) ∧
      y = c.pool ((win.map c.spatial).rotate (c.K - (pre.length + c.K) % c.K)) ∧
      (pre ++ win.dropLast ++ [x]).drop ((pre ++ win.dropLast ++ [x]).length - c.K) = win := by
    intro pre
    have e : pre ++ win.dropLast ++ [x] = pre ++ win := by rw [List.append_assoc, hsplit]
    have hlen : (pre ++ win.dropLast ++ [x]).length = pre.length + c.K := by rw [e, List.length_append, hw]
    have hdrop : (pre ++ win.dropLast ++ [x]).drop ((pre ++ win.dropLast ++ [x]).length - c.K) = win := by
      rw [hlen, e, Nat.add_sub_cancel, List.drop_left]
    obtain ⟨i, hi⟩ := Implements.exists_reach ⟨_, S⟩ (pre ++ win.dropLast)
    obtain ⟨o, j, e1, e2, _⟩ := S.reach.step true x hi
    rw [phiAt_snoc] at e2
    have e4 := List.append_cancel_left e2
    unfold outAt at e4
    obtain ⟨x0, hx0⟩ : ∃ x0, (pre ++ win.dropLast ++ [x]).head? = some x0 := by cases pre <;> cases win.dropLast <;> simp
    rw [hx0] at e4
    simp only at e4
    rw [if_pos (by
      rw [strideAt_valid (by omega), hlen, hP, hS]
      exact ⟨by omega, Nat.mod_one _⟩)] at e4
    cases o with
    | none => simp at e4
    | some y =>
      refine ⟨i, j, y, hi, e1, ?_, hdrop⟩
      have := C96_pool_exact c hK (by omega) (by omega) hd hf hi e1 (by rw [hlen]; omega)
      rw [hdrop, hlen] at this
      exact this
  obtain ⟨i, j, y, h1, h2, h3, h4⟩ := main []
  obtain ⟨i', j', y', h1', h2', h3', h4'⟩ := main (List.replicate (c.K - k) x)
  refine ⟨_, _, i, i', j, j', x, y, y', h1, h1', h2, h2', h4.trans h4'.symm, ?_⟩
  rw [h3, h3']
  have ea : (([] : List X).length + c.K) % c.K = 0 := by simp
  have eb : ((List.replicate (c.K - k) x).length + c.K) % c.K = c.K - k := by
    rw [List.length_replicate, Nat.add_mod_right, Nat.mod_eq_of_lt (by omega)]
  have el : c.K - 0 = (win.map c.spatial).length := by simp [hw]
  rw [ea, eb, el, List.rotate_length, show c.K - (c.K - k) = k by omega]
  exact fun h => hne h.symm

/-- **C96** for poolings whose function gives a window and its rotations the same value to the last bit, as the maximum does. -/
theorem C96_pool_partial (c : Pool.Cfg X Y) (hK : 1 ≤ c.K) (hS : 1 ≤ c.S) (hP : c.P < c.K) (hd : c.dil = 1)
    (hf : ∀ x, c.spatial (c.fillIn x) = c.fillOut (c.spatial x)) (hrot : ∀ (l : List Y) (k : Nat), c.pool (l.rotate k) = c.pool l)
    {g : List X} {i j : (Pool.mod c).Inst} (hi : Reach (Pool.mod c) g i) {x : X} {y : Y} {u : Bool}
    (h : (Pool.mod c).step i u x = .ok (some y, j)) (hl : c.K ≤ (g ++ [x]).length) :
    y = c.pool (((g ++ [x]).drop ((g ++ [x]).length - c.K)).map c.spatial) := by
  rw [C96_pool_exact c hK hS hP hd hf hi h hl, hrot]

/-- Numbers of two significant digits: sums are rounded to tens from 100 on. -/
structure Rounded where
  val : Int
  deriving DecidableEq

instance : Zero Rounded := ⟨⟨0⟩⟩

instance : Add Rounded := ⟨fun a b =>
  let s := a.val + b.val
  ⟨if 100 ≤ s then (s + 5) / 10 * 10 else s⟩⟩

/-- Their addition is commutative with a neutral zero, and not associative. -/
example : (∀ a : Rounded, (0 : Rounded) + a = ⟨if 100 ≤ a.val then (a.val + 5) / 10 * 10 else a.val⟩) ∧
    (⟨100⟩ + ⟨4⟩ + ⟨4⟩ : Rounded) = ⟨100⟩ ∧ (⟨100⟩ + (⟨4⟩ + ⟨4⟩) : Rounded) = ⟨110⟩ := by
  refine ⟨fun a => ?_, by decide, by decide⟩
  show Rounded.mk _ = _
  simp only [Rounded.mk.injEq, show (0 : Rounded).val = 0 from rfl, Int.zero_add]

/-- The average over three frames (before the division) from left to right, as a configuration. -/
def roundedSum : Pool.Cfg Rounded Rounded := ⟨3, 1, 0, 1, id, fun l => l.foldl (· + ·) 0, id, id, 0⟩

/-- `100, 4, 4` sums up to 100, and to 110 in the other rotation; so `C96_pool_refuted` applies to it. -/
example : roundedSum.pool (([⟨100⟩, ⟨4⟩, ⟨4⟩] : List Rounded).map id) = ⟨100⟩ ∧
    roundedSum.pool ((([⟨100⟩, ⟨4⟩, ⟨4⟩] : List Rounded).map id).rotate 1) = ⟨110⟩ := by decide

/-- A convolution over these numbers meets the hypotheses of `C96_conv`. -/
example : let c : Conv.Cfg Rounded Rounded := ⟨3, 1, 1, .zeros, .zeros, fun _ x => x, some ⟨3⟩⟩
    (∀ j, c.w j 0 = 0) ∧ corrSeq c.w c.bias [⟨100⟩, ⟨4⟩, ⟨4⟩] = ⟨100⟩ ∧ corrSeq c.w c.bias [⟨4⟩, ⟨4⟩, ⟨100⟩] = ⟨110⟩ :=
  ⟨fun _ => rfl, by decide, by decide⟩

end CoInf
