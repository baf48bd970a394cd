/-
Properties C20 and C21: residual connections.
-/
import Verif.Lemmas.Residual
import Verif.Props.Pad
import Verif.Props.Count

set_option autoImplicit false

namespace CoInf
open Spec
variable {X Z : Type}

/-- The results of `forward_step`, position by position, of a module that emits one frame per step after `d`
steps. -/
theorem step_at {M : CoMod (.stream X) (.stream Z)} {ψ : List X → List Z} (H : Implements M ψ) {d : Nat}
    (hl : ∀ xs, (ψ xs).length = xs.length - d) {i : M.Inst} (hi : Reach M [] i) (xs : List X) :
    ∃ os i', callSteps M i xs = .ok (os, i') ∧ os.length = xs.length ∧
      ∀ t < xs.length, os[t]? = some (if t < d then none else (ψ xs)[t - d]?) := by
  obtain ⟨os, i', h1, h2, _, h4⟩ := Spec.SimRel.callSteps_eq H.reach xs hi
  refine ⟨os, i', h1, h2, fun t ht => ?_⟩
  have ht' : t < os.length := by omega
  have h5 := h4 t ht
  simp only [List.nil_append] at h5
  rw [List.getElem?_eq_getElem ht', Option.join_some] at h5
  rw [List.getElem?_eq_getElem ht']
  congr 1
  have l1 := hl (xs.take t)
  have l2 := hl (xs.take (t + 1))
  rw [List.length_take] at l1 l2
  have l3 := congrArg List.length h5
  rw [List.length_append, l1, l2] at l3
  split
  · cases ho : os[t] with
    | none => rfl
    | some z => rw [ho] at l3; simp at l3; omega
  · cases ho : os[t] with
    | none => rw [ho] at l3; simp at l3; omega
    | some z =>
      rw [ho] at h5
      have hp : ψ (xs.take (t + 1)) <+: ψ xs := H.mono (List.take_prefix _ _)
      obtain ⟨r, hr⟩ := hp
      rw [← hr, List.getElem?_append_left (by omega), h5, List.getElem?_append_right (by omega), l1]
      have : t - d - (min t xs.length - d) = 0 := by omega
      rw [this]; rfl

/-! ### C20 -/

/-- **C20**.  Let `m` keep the contract of a continual module, have stride one and 'same' padding, and let the
reduction combine an input frame `x` and an output frame `y` to `f [x, y]` (by default `x + y`).  Then
`Residual(m)` is accepted for every value of `residual_shrink` and has the delay of `m`; and if `forward` of `m`
maps the clip `xs` to `ys` then `ys` is as long as `xs` and the `j`-th output of the residual module is
`f [xs[j], ys[j]]`
* in `forward`, whatever the state,
* in `forward_steps(pad_end=True)` on a clean module, for both values of `update_state`,
* and, at step `j + delay`, in `forward_step` on a clean module (earlier steps give `None`). -/
theorem C20_residual {r : Reducer X Z} {f : List X → Z} (hr : ReduceOk r f 2) (fill : X → X) (sh : Residual.Mode)
    {m : CoMod (.stream X) (.stream X)} {φ : List X → List X} (C : Contract m φ) (hs : m.stride = 1)
    (hsame : m.rf = 2 * m.padding + 1) :
    ∃ M, Residual.make fill r sh m = .ok M ∧ M.delay = m.padding ∧ m.delay = m.padding ∧
      ∀ {xs ys j}, xs ≠ [] → m.fwd m.init xs = .ok (ys, j) → ys.length = xs.length ∧
        (∀ h i, Reach M h i → ∃ i', M.fwd i xs = .ok (List.zipWith (fun x y => f [x, y]) xs ys, i')) ∧
        (∀ i u, Reach M [] i →
          ∃ i', M.steps i true u xs = .ok (some (List.zipWith (fun x y => f [x, y]) xs ys), i')) ∧
        (∀ i, Reach M [] i → ∃ os i', callSteps M i xs = .ok (os, i') ∧ os.length = xs.length ∧
          ∀ t < xs.length, os[t]? = some (if t < m.padding then none
            else (List.zipWith (fun x y => f [x, y]) xs ys)[t - m.padding]?)) := by
  have CM := Residual.same_contract fill hr C hs hsame
  have hd : m.delay = (m.padding : Int) := by rw [C.geom.delay, hsame]; omega
  have hlen : ∀ xs, (delayed m.padding 0 xs).length = (φ xs).length := by
    intro xs
    rw [Residual.phi_length C.geom hs, Residual.delayed_length]
    omega
  refine ⟨_, Residual.make_same fill r sh C.geom hs hsame, ?_, hd, ?_⟩
  · show max (m.padding : Int) m.delay = _
    omega
  · intro xs ys j hx hf
    have hl := Residual.fwd_length C hs hf
    have hl' : ys.length = xs.length := by omega
    have hfM : (Residual.same fill r m).fwd (Residual.same fill r m).init xs =
        .ok (List.zipWith (fun x y => f [x, y]) xs ys, _) :=
      Residual.pair_fwd hr (a := Delay.mod { d := m.padding, fill := fill }) (b := m) (as := xs) (ja := ([], 0))
        (by simp [Delay.forward]) hf hl'.symm
    refine ⟨hl', ?_, ?_, ?_⟩
    · intro h i hi
      have := CM.impl.reach.fwd_indep xs hi
      rw [hfM] at this
      cases hfi : (Residual.same fill r m).fwd i xs with
      | error e => rw [hfi] at this; cases this
      | ok p =>
        obtain ⟨zs, j'⟩ := p
        rw [hfi] at this; cases this; exact ⟨j', rfl⟩
    · intro i u hi
      obtain ⟨i', h⟩ := CM.padClean.eq u hi hx hfM
      refine ⟨i', ?_⟩
      rw [h, BroadcastReduce.optList_some]
      intro h0
      have := congrArg List.length h0
      have hpos := List.length_pos_of_ne_nil hx
      rw [List.length_zipWith, List.length_nil] at this
      omega
    · intro i hi
      obtain ⟨os, i', h1, h2, h3⟩ := step_at CM.impl (d := m.padding)
        (by intro xs; rw [List.length_zipWith, hlen, Nat.min_self, ← hlen, Residual.delayed_length]) hi xs
      refine ⟨os, i', h1, h2, fun t ht => ?_⟩
      rw [h3 t ht]
      split
      · rfl
      · congr 1
        have hp := CM.ahead hfM
        obtain ⟨rest, hrest⟩ := hp
        rw [← hrest, List.getElem?_append_left]
        rw [List.length_zipWith, hlen, Nat.min_self, ← hlen, Residual.delayed_length]
        omega

/-- The residual of a module with 'same' padding keeps the contract itself, so that residual blocks can be
stacked and nested. -/
theorem C20_residual_contract {r : Reducer X Z} {f : List X → Z} (hr : ReduceOk r f 2) (fill : X → X)
    (sh : Residual.Mode) {m : CoMod (.stream X) (.stream X)} {φ : List X → List X} (C : Contract m φ)
    (hs : m.stride = 1) (hsame : m.rf = 2 * m.padding + 1) :
    ∃ M ψ, Residual.make fill r sh m = .ok M ∧ Contract M ψ ∧ M.stride = 1 ∧ M.rf = m.rf ∧ M.padding = m.padding :=
  ⟨_, _, Residual.make_same fill r sh C.geom hs hsame, Residual.same_contract fill hr C hs hsame, rfl,
    by simp; omega, by simp⟩

theorem exSum_contract (P : Nat) : ∃ φ, Contract (Conv.mod (exSum (2 * P + 1) 1 P)) φ :=
  ⟨_, net_contract (k := ⟨true, 2⟩) (Net.conv _ ⟨by simp [exSum], by simp [exSum], by simp [exSum]; omega,
    by simp [exSum], fun _ => rfl, fun _ => rfl, fun _ => rfl⟩) rfl (by decide)
    (C12_members.1 (exSum (2 * P + 1) 1 P) (by simp [exSum]) (by simp [exSum])).len⟩

theorem exAdd_ok : ReduceOk (foldReducer (· + · : Int → Int → Int)) (foldFrame (· + ·) 0) 2 :=
  reduceOk_of (by decide) (foldReducer_lawful _ _ _ (by decide)) (foldReducer_sound _)

example : ∃ M : CoMod (.stream Int) (.stream Int),
    Residual.make (fun _ => 0) (foldReducer (· + ·)) .on (Conv.mod (exSum 3 1 1)) = .ok M ∧
    ∃ os i', callSteps M M.init [1, 10, 100, 1000] = .ok (os, i') ∧ os[0]? = some none ∧
      os[2]? = some (some (10 + (1 + 10 + 100))) := by
  obtain ⟨φ, C⟩ := exSum_contract 1
  obtain ⟨M, h1, _, _, h2⟩ := C20_residual exAdd_ok (fun _ => 0) .on C rfl rfl
  refine ⟨M, h1, ?_⟩
  obtain ⟨_, _, _, h3⟩ := h2 (xs := [1, 10, 100, 1000]) (ys := [11, 111, 1110, 1100]) (by decide) rfl
  obtain ⟨os, i', h4, _, h5⟩ := h3 _ .init
  refine ⟨os, i', h4, ?_, ?_⟩
  · rw [h5 0 (by decide)]; rfl
  · rw [h5 2 (by decide)]; rfl

/-! ### C21 -/

/-- **C21**, the part that holds.  Let `m` keep the contract, have stride one and no padding, so that it shortens
a clip by `d` frames; for `residual_shrink=True` let `d` be even.  Let `sh` be `True`, `"lagging"` or `"leading"`.
Then `Residual(m, residual_shrink=sh)` is accepted, and if `forward` of `m` maps `xs` to `ys` then
* `forward` combines the centre, the beginning or the end of `xs` with `ys`;
* `forward_step` on a clean module returns exactly these frames, from step `d` on;
* so do calls of `forward_step` and `forward_steps` in any chunking.
Missing: `"centered"`, see below. -/
theorem C21_shrink_partial {r : Reducer X Z} {f : List X → Z} (hr : ReduceOk r f 2) (fill : X → X)
    {sh : Residual.Mode} {c : Crop} (hsh : sh ≠ .centered) (hc : sh.crop = some c)
    {m : CoMod (.stream X) (.stream X)} {φ : List X → List X} (C : Contract m φ) (hs : m.stride = 1)
    (hp : m.padding = 0) {d : Nat} (hrf : m.rf = d + 1) (hd : c = .centre → d % 2 = 0) :
    ∃ M, Residual.make fill r sh m = .ok M ∧
      ∀ {xs ys j}, m.fwd m.init xs = .ok (ys, j) → ys.length = xs.length - d ∧
        (∀ h i, Reach M h i → ∃ i', M.fwd i xs = .ok (List.zipWith (fun x y => f [x, y]) (c.apply d xs) ys, i')) ∧
        (∀ i, Reach M [] i → ∃ os i', callSteps M i xs = .ok (os, i') ∧ os.length = xs.length ∧
          ∀ t < xs.length, os[t]? = some (if t < d then none
            else (List.zipWith (fun x y => f [x, y]) (c.apply d xs) ys)[t - d]?)) ∧
        (∀ i, Reach M [] i → ∀ ops : List (Op X), (∀ op ∈ ops, op.feeds) → framesOf ops = xs →
          ∃ rs i', run M i ops = .ok (rs, i') ∧
            outsOf rs = List.zipWith (fun x y => f [x, y]) (c.apply d xs) ys) := by
  obtain ⟨res, hmk, hb⟩ := Residual.make_shrink fill r hsh hc C.geom hs hp hrf hd
  have hlen : ∀ xs : List X, (c.apply d xs).length = (φ xs).length := by
    intro xs
    rw [Residual.crop_length c d hd, Residual.phi_length C.geom hs]
    omega
  have I := Residual.pair_impl hr hb.impl C.impl hlen
  refine ⟨_, hmk, ?_⟩
  intro xs ys j hf
  have hl := Residual.fwd_length C hs hf
  have hl' : ys.length = xs.length - d := by omega
  have hys : φ xs = ys := by
    refine (C.ahead hf).eq_of_length ?_
    rw [Residual.phi_length C.geom hs]
    omega
  have hfM := Residual.pair_fwd hr (a := res) (b := m) (hb.fwd res.init xs) hf
    (by rw [Residual.crop_length c d hd, hl'])
  refine ⟨hl', ?_, ?_, ?_⟩
  · intro h i hi
    have := I.reach.fwd_indep xs hi
    have e : (BroadcastReduce.mod r [res, m]).fwd (BroadcastReduce.mod r [res, m]).init xs = _ := hfM
    rw [e] at this
    cases hfi : (BroadcastReduce.mod r [res, m]).fwd i xs with
    | error e => rw [hfi] at this; cases this
    | ok p =>
      obtain ⟨zs, j'⟩ := p
      rw [hfi] at this; cases this; exact ⟨j', rfl⟩
  · intro i hi
    obtain ⟨os, i', h1, h2, h3⟩ := step_at I (d := d)
      (by intro xs; rw [List.length_zipWith, hlen, Nat.min_self, ← hlen, Residual.crop_length c d hd]) hi xs
    exact ⟨os, i', h1, h2, fun t ht => by rw [h3 t ht, hys]⟩
  · intro i hi ops hops hfr
    obtain ⟨rs, i', h1, _, h3⟩ := I.feed ops hi hops
    refine ⟨rs, i', h1, ?_⟩
    have h0 := I.reach.phi_nil
    simp only [List.nil_append, h0, hfr, hys] at h3
    exact h3.symm

theorem exSum_contract' (d : Nat) : ∃ φ, Contract (Conv.mod (exSum (d + 1) 1 0)) φ :=
  ⟨_, net_contract (k := ⟨true, 2⟩) (Net.conv _ ⟨by simp [exSum], by simp [exSum], by simp [exSum],
    by simp [exSum], fun _ => rfl, fun _ => rfl, fun _ => rfl⟩) rfl (by decide)
    (C12_members.1 (exSum (d + 1) 1 0) (by simp [exSum]) (by simp [exSum])).len⟩

example : ∃ M : CoMod (.stream Int) (.stream Int),
    Residual.make (fun _ => 0) (foldReducer (· + ·)) .leading (Conv.mod (exSum 3 1 0)) = .ok M ∧
    ∃ i', M.fwd M.init [1, 10, 100, 1000] = .ok ([100 + 111, 1000 + 1110], i') := by
  obtain ⟨φ, C⟩ := exSum_contract' 2
  obtain ⟨M, h1, h2⟩ := C21_shrink_partial exAdd_ok (fun _ => 0) (sh := .leading) (c := .finish) (by decide) rfl C
    rfl rfl rfl (by decide)
  exact ⟨M, h1, (h2 (xs := [1, 10, 100, 1000]) (ys := [111, 1110]) rfl).2.1 _ _ .init⟩

/-- **C21** for `"centered"`, the part that holds: `forward_step` returns, from step `d` on, the same frames as
`forward`, which adds the centre of the clip.  Missing: `forward_steps` (refuted below). -/
theorem C21_centered_step_partial {r : Reducer X Z} {f : List X → Z} (hr : ReduceOk r f 2) (fill : X → X)
    {m : CoMod (.stream X) (.stream X)} {φ : List X → List X} (C : Contract m φ) (hs : m.stride = 1)
    (hp : m.padding = 0) {d : Nat} (hrf : m.rf = d + 1) (hd : d % 2 = 0) (h0 : d ≠ 0) :
    ∃ M, Residual.make fill r .centered m = .ok M ∧
      ∀ {xs ys j}, m.fwd m.init xs = .ok (ys, j) →
        (∃ i', M.fwd M.init xs = .ok (List.zipWith (fun x y => f [x, y]) (Crop.centre.apply d xs) ys, i')) ∧
        (∃ os i', callSteps M M.init xs = .ok (os, i') ∧ os.length = xs.length ∧
          ∀ t < xs.length, os[t]? = some (if t < d then none
            else (List.zipWith (fun x y => f [x, y]) (Crop.centre.apply d xs) ys)[t - d]?)) := by
  refine ⟨_, Residual.make_centered fill r C.geom hs hp hrf hd h0, ?_⟩
  intro xs ys j hf
  have hl := Residual.fwd_length C hs hf
  have hys : φ xs = ys := by
    refine (C.ahead hf).eq_of_length ?_
    rw [Residual.phi_length C.geom hs]
    omega
  have hl' : ys.length = xs.length - d := by omega
  constructor
  · refine ⟨_, Residual.pair_fwd hr (a := Delay.mod { d := d / 2, fill := fill, shrink := .centered }) (b := m)
      (as := Crop.centre.apply d xs) (ja := ([], 0)) (ia := ([], 0)) (ib := m.init) ?_ hf
      (by rw [Residual.crop_length .centre d (fun _ => hd), hl'])⟩
    have h2 : d / 2 ≠ 0 := by omega
    simp only [Delay.forward, Crop.apply]
    rw [if_neg (by simpa using h2), if_neg (by simp), List.drop_take,
      show xs.length - d / 2 - d / 2 = xs.length - d by omega]
  · obtain ⟨os1, i1, a1, a2, a3⟩ := step_at
      (Delay.implements ({ d := d / 2, fill := fill, shrink := .centered } : Delay.Cfg X)) (d := d / 2)
      (by intro xs; simp [delayed, Delay.lead]) .init xs
    obtain ⟨os2, i2, b1, b2, b3⟩ := step_at C.impl (d := d)
      (by intro xs; rw [Residual.phi_length C.geom hs]; omega) .init xs
    refine ⟨_, _, Residual.callSteps_pair hr xs a1 b1, by simp [a2, b2], fun t ht => ?_⟩
    rw [List.getElem?_zipWith, a3 t ht, b3 t ht]
    simp only [Option.map_some, hys]
    congr 1
    by_cases h : t < d
    · rw [if_pos h, if_pos h]
      split
      · rfl
      · generalize (delayed _ _ xs)[t - d / 2]? = o
        cases o <;> rfl
    · rw [if_neg h, if_neg h, if_neg (by omega), List.getElem?_zipWith]
      have e1 : (delayed (d / 2) (Delay.lead ({ d := d / 2, fill := fill, shrink := .centered } : Delay.Cfg X)) xs)[t - d / 2]? =
          (Crop.centre.apply d xs)[t - d]? := by
        simp only [delayed, Delay.lead, Crop.apply]
        simp only [reduceCtorEq, if_false, List.drop_zero]
        rw [List.getElem?_take_of_lt (by omega), List.getElem?_take_of_lt (by omega), List.getElem?_drop]
        congr 1
        omega
      rw [e1]
      have h3 : t - d < ys.length := by omega
      have h4 : t - d < (Crop.centre.apply d xs).length := by
        rw [Residual.crop_length .centre d (fun _ => hd)]; omega
      rw [List.getElem?_eq_getElem h3, List.getElem?_eq_getElem h4]
      rfl

example : ∃ M : CoMod (.stream Int) (.stream Int),
    Residual.make (fun _ => 0) (foldReducer (· + ·)) .centered (Conv.mod (exSum 3 1 0)) = .ok M ∧
    ∃ i', M.fwd M.init [1, 10, 100, 1000] = .ok ([10 + 111, 100 + 1110], i') := by
  obtain ⟨φ, C⟩ := exSum_contract' 2
  obtain ⟨M, h1, h2⟩ := C21_centered_step_partial exAdd_ok (fun _ => 0) C rfl rfl rfl (by decide) (by decide)
  exact ⟨M, h1, (h2 (xs := [1, 10, 100, 1000]) (ys := [111, 1110]) rfl).1⟩

/-- **C21** is false for `"centered"` and `forward_steps`, with an element-wise reduction such as the default sum:
for every module as above with delay `d ≥ 2` and every clip of more than `d + 1` frames `forward_steps` raises
(the branches return clips of different length), and for a clip of `d + 1` frames it returns `d/2 + 1` frames
instead of the one that `forward` returns. -/
theorem C21_centered_steps_refuted (op : X → X → X) (fill : X → X)
    {m : CoMod (.stream X) (.stream X)} {φ : List X → List X} (C : Contract m φ) (hs : m.stride = 1)
    (hp : m.padding = 0) {d : Nat} (hrf : m.rf = d + 1) (hd : d % 2 = 0) (h0 : d ≠ 0) :
    ∃ M, Residual.make fill (foldReducer op) .centered m = .ok M ∧
      (∀ xs : List X, d + 1 < xs.length → M.steps M.init false true xs = .error .runtime) ∧
      (∀ xs : List X, xs.length = d + 1 → ∃ zs i', M.steps M.init false true xs = .ok (some zs, i') ∧
        zs.length = d / 2 + 1 ∧ zs.length ≠ 1) := by
  refine ⟨_, Residual.make_centered fill _ C.geom hs hp hrf hd h0, ?_⟩
  have D := Delay.implements ({ d := d / 2, fill := fill, shrink := .centered } : Delay.Cfg X)
  have hlead : Delay.lead ({ d := d / 2, fill := fill, shrink := .centered } : Delay.Cfg X) = 0 := by simp [Delay.lead]
  rw [hlead] at D
  have key : ∀ xs : List X, d + 1 ≤ xs.length → ∃ as ia bs ib,
      (Delay.mod { d := d / 2, fill := fill, shrink := .centered }).steps
        (Delay.mod { d := d / 2, fill := fill, shrink := .centered }).init false true xs = .ok (some as, ia) ∧
      m.steps m.init false true xs = .ok (some bs, ib) ∧ as.length = xs.length - d / 2 ∧ bs.length = xs.length - d := by
    intro xs hx
    have hne : xs ≠ [] := by rintro rfl; simp at hx
    obtain ⟨as, ia, a1, a2, _⟩ := D.reach.steps true xs hne .init
    obtain ⟨bs, ib, b1, b2, _⟩ := C.impl.reach.steps true xs hne .init
    rw [D.reach.phi_nil] at a2
    rw [C.impl.reach.phi_nil] at b2
    simp only [List.nil_append] at a2 b2
    have la : as.length = xs.length - d / 2 := by rw [← a2]; simp [delayed]
    have lb : bs.length = xs.length - d := by rw [← b2, Residual.phi_length C.geom hs]; omega
    have na : as ≠ [] := by rintro rfl; simp at la; omega
    have nb : bs ≠ [] := by rintro rfl; simp at lb; omega
    rw [BroadcastReduce.optList_some na] at a1
    rw [BroadcastReduce.optList_some nb] at b1
    exact ⟨as, ia, bs, ib, a1, b1, la, lb⟩
  constructor
  · intro xs hx
    obtain ⟨as, ia, bs, ib, a1, b1, la, lb⟩ := key xs (by omega)
    refine (Residual.steps_pair_fold op a1 b1).trans ?_
    have : bcast2 op as bs = .error .runtime := by
      unfold bcast2
      rw [if_neg (by omega)]
      split
      · rename_i x; simp at la; omega
      · rename_i y _; simp at lb; omega
      · rfl
    rw [this]; rfl
  · intro xs hx
    obtain ⟨as, ia, bs, ib, a1, b1, la, lb⟩ := key xs (by omega)
    have lb1 : bs.length = 1 := by omega
    obtain ⟨y, rfl⟩ : ∃ y, bs = [y] := List.length_eq_one_iff.1 lb1
    refine ⟨as.map fun x => op x y, (ia, ib, ()), ?_, by simp; omega, by simp; omega⟩
    refine (Residual.steps_pair_fold op a1 b1).trans ?_
    have : bcast2 op as [y] = .ok (as.map fun x => op x y) := by
      unfold bcast2
      rw [if_neg (by simp; omega)]
      split
      · rename_i x _; simp at la; omega
      · rename_i h; cases h; rfl
      · rename_i h; exact (h _ rfl).elim
    rw [this]; rfl

example : ∃ M : CoMod (.stream Int) (.stream Int),
    Residual.make (fun _ => 0) (foldReducer (· + ·)) .centered (Conv.mod (exSum 3 1 0)) = .ok M ∧
    M.steps M.init false true [1, 10, 100, 1000] = .error .runtime := by
  obtain ⟨φ, C⟩ := exSum_contract' 2
  obtain ⟨M, h1, h2, _⟩ := C21_centered_steps_refuted (· + ·) (fun _ => (0 : Int)) C rfl rfl rfl (by decide) (by decide)
  exact ⟨M, h1, h2 _ (by decide)⟩

/-- End padding and shrinking exclude each other: with `pad_end=True` the delay of the residual branch emits
frames for the end padding that the un-padded module does not have (`residual_shrink=True` and `"lagging"`). -/
theorem C21_padEnd_refuted :
    (∃ M : CoMod (.stream Int) (.stream Int),
      Residual.make (fun _ => 0) (foldReducer (· + ·)) .on (Conv.mod (exSum 3 1 0)) = .ok M ∧
      (∃ i, M.steps M.init false true [1, 10, 100, 1000] = .ok (some [10 + 111, 100 + 1110], i)) ∧
      M.steps M.init true true [1, 10, 100, 1000] = .error .runtime) ∧
    (∃ M : CoMod (.stream Int) (.stream Int),
      Residual.make (fun _ => 0) (foldReducer (· + ·)) .lagging (Conv.mod (exSum 3 1 0)) = .ok M ∧
      (∃ i, M.steps M.init false true [1, 10, 100, 1000] = .ok (some [1 + 111, 10 + 1110], i)) ∧
      M.steps M.init true true [1, 10, 100, 1000] = .error .runtime) :=
  ⟨⟨_, rfl, ⟨_, rfl⟩, rfl⟩, ⟨_, rfl, ⟨_, rfl⟩, rfl⟩⟩

end CoInf
