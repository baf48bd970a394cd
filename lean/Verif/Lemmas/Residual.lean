import Verif.Lemmas.AutoDelay
import Verif.Model.Parallel

set_option autoImplicit false

namespace CoInf
open Spec
variable {X Y Z : Type}

theorem zipReduce_pair (f : List Y → Z) {as bs : List Y} (h : as.length = bs.length) :
    zipReduce f [as, bs] = List.zipWith (fun a b => f [a, b]) as bs := by
  simp only [zipReduce]
  apply List.ext_getElem
  · simp [h]
  · intro i h1 h2
    simp only [List.length_map, List.length_range] at h1
    have h3 : i < bs.length := by omega
    simp [atTime, h1, h3]

namespace Residual

/-- What the container of a residual connection needs. -/
theorem pair_impl {r : Reducer Y Z} {f : List Y → Z} (hr : ReduceOk r f 2)
    {a b : CoMod (.stream X) (.stream Y)} {ρ φ : List X → List Y} (ha : Implements a ρ) (hb : Implements b φ)
    (hal : ∀ xs, (ρ xs).length = (φ xs).length) :
    Implements (BroadcastReduce.mod r [a, b]) (fun xs => List.zipWith (fun x y => f [x, y]) (ρ xs) (φ xs)) := by
  have hal' : Aligned [ρ, φ] := by
    intro p hp q hq xs
    simp only [List.mem_cons, List.not_mem_nil, or_false] at hp hq
    rcases hp with rfl | rfl <;> rcases hq with rfl | rfl <;> simp [hal]
  have S := BroadcastReduce.simRel (r := r) (f := f) (ms := [a, b]) (φs := [ρ, φ]) (by simp)
    (.cons ha (.cons hb .nil)) hal' (reduceLawful (n := 2) (by decide) hr)
  have e : BroadcastReduce.phi f [ρ, φ] = fun xs => List.zipWith (fun x y => f [x, y]) (ρ xs) (φ xs) := by
    funext xs
    simp only [BroadcastReduce.phi, List.map_cons, List.map_nil]
    exact zipReduce_pair f (hal xs)
  rw [e] at S
  exact ⟨_, S⟩

theorem pair_fwd {r : Reducer Y Z} {f : List Y → Z} (hr : ReduceOk r f 2)
    {a b : CoMod (.stream X) (.stream Y)} {xs : List X} {as bs : List Y} {ia : a.Inst} {ib : b.Inst}
    {ja : a.Inst} {jb : b.Inst} (ha : a.fwd ia xs = .ok (as, ja)) (hb : b.fwd ib xs = .ok (bs, jb))
    (hl : as.length = bs.length) :
    (BroadcastReduce.mod r [a, b]).fwd (ia, ib, ()) xs =
      .ok (List.zipWith (fun x y => f [x, y]) as bs, (ja, jb, ())) := by
  have h : r.clip [as, bs] = .ok (List.zipWith (fun x y => f [x, y]) as bs) := by
    rw [hr.clip [as, bs] as.length rfl (by simp [hl]), zipReduce_pair f hl]
  simp [BroadcastReduce.fwd, BroadcastReduce.fwdAll, ha, hb, h, bind, Except.bind, pure, Except.pure]

theorem pair_fwd_inv {r : Reducer Y Z} {f : List Y → Z} (hr : ReduceOk r f 2)
    {a b : CoMod (.stream X) (.stream Y)} {xs : List X} {zs : List Z}
    {i : (BroadcastReduce.mod r [a, b]).Inst} {j}
    (hab : ∀ {as ja bs jb}, a.fwd i.1 xs = .ok (as, ja) → b.fwd i.2.1 xs = .ok (bs, jb) → as.length = bs.length)
    (h : (BroadcastReduce.mod r [a, b]).fwd i xs = .ok (zs, j)) :
    ∃ as ja bs jb, a.fwd i.1 xs = .ok (as, ja) ∧ b.fwd i.2.1 xs = .ok (bs, jb) ∧ as.length = bs.length ∧
      zs = List.zipWith (fun x y => f [x, y]) as bs := by
  obtain ⟨yss, h1, h2⟩ := BroadcastReduce.fwd_ok h
  obtain ⟨as, ja, l1, i1, k1, k2, rfl⟩ := BroadcastReduce.fwdAll_cons_ok h1
  obtain ⟨bs, jb, l2, i2, k3, k4, rfl⟩ := BroadcastReduce.fwdAll_cons_ok k2
  cases k4
  have hl := hab k1 k3
  refine ⟨as, ja, bs, jb, k1, k3, hl, ?_⟩
  rw [hr.clip [as, bs] as.length rfl (by simp [hl]), zipReduce_pair f hl] at h2
  exact (Except.ok.inj h2).symm

end Residual
end CoInf

namespace CoInf
open Spec
variable {X Y Z : Type}

/-- Networks of class `pad ≥ 2` with correct geometry and the length formula fulfil the contract. -/
theorem net_contract {k : Cls} {m : CoMod (.stream X) (.stream Y)} {φ} (h : Net k m φ) (hg : k.geo = true)
    (hk : 2 ≤ k.pad) (hl : FwdLen m) : Contract m φ :=
  have F := net_facts h
  ⟨F.impl, F.geom hg, hl, net_ahead h hk, F.padClean (by omega), F.padRel hk⟩

theorem zipWith_prefix {α β γ : Type} (g : α → β → γ) {a a' : List α} {b b' : List β} (ha : a <+: a') (hb : b <+: b')
    (hl : a.length = b.length) : List.zipWith g a b <+: List.zipWith g a' b' := by
  obtain ⟨s, rfl⟩ := ha
  obtain ⟨t, rfl⟩ := hb
  rw [List.zipWith_append hl]
  exact List.prefix_append _ _

namespace Residual

/-- The module that `Residual(m)` constructs for 'same' padding. -/
abbrev same (fill : X → X) (r : Reducer X Z) (m : CoMod (.stream X) (.stream X)) : CoMod (.stream X) (.stream Z) :=
  BroadcastReduce.mod r [Delay.mod { d := m.padding, fill := fill }, m]

variable {r : Reducer X Z} {f : List X → Z} {m : CoMod (.stream X) (.stream X)} {φ : List X → List X}

theorem make_same (fill : X → X) (r : Reducer X Z) (sh : Mode) (G : Geom m φ) (hs : m.stride = 1)
    (hsame : m.rf = 2 * m.padding + 1) : make fill r sh m = .ok (same fill r m) := by
  have hd : m.delay = (m.padding : Int) := by rw [G.delay, hsame]; omega
  have he : effective sh m = .off := by
    unfold effective
    rw [if_pos (by omega)]
  have hh : halved .off m.delay = .ok (m.padding : Int) := by simp [halved, hd]
  have hb : branch fill .off (m.padding : Int) = .ok (Delay.mod { d := m.padding, fill := fill }) := by
    simp [branch, Mode.toShrink]
  unfold make
  rw [if_neg (by omega), he, hh]
  simp only [hb]
  simp [BroadcastReduce.make, BroadcastReduce.autoDelay, hs]

theorem delay_facts (d : Nat) (fill : X → X) :
    NetFacts ⟨true, 3⟩ (Delay.mod { d := d, fill := fill }) (delayed d 0) :=
  net_facts (Net.delay (k := ⟨true, 3⟩) { d := d, fill := fill } (fun _ => rfl))

theorem phi_length (G : Geom m φ) (hs : m.stride = 1) (xs : List X) :
    (φ xs).length = xs.length - (m.rf - 1 - m.padding) := by
  rw [G.geo.sched xs, hs, Nat.div_one]
  split <;> omega

theorem delayed_length (d : Nat) (xs : List X) : (delayed d 0 xs).length = xs.length - d := by
  simp [delayed]

theorem fwd_length (C : Contract m φ) (hs : m.stride = 1) {i : m.Inst} {xs ys j} (h : m.fwd i xs = .ok (ys, j)) :
    (ys.length : Int) = xs.length + 2 * m.padding - m.rf + 1 := by
  have := C.len h
  rw [hs] at this
  simpa using this

theorem same_contract (fill : X → X) (hr : ReduceOk r f 2) (C : Contract m φ) (hs : m.stride = 1)
    (hsame : m.rf = 2 * m.padding + 1) :
    Contract (same fill r m) (fun xs => List.zipWith (fun x y => f [x, y]) (delayed m.padding 0 xs) (φ xs)) := by
  have D := delay_facts (X := X) m.padding fill
  have hlen : ∀ xs, (delayed m.padding 0 xs).length = (φ xs).length := by
    intro xs
    rw [phi_length C.geom hs, delayed_length]
    omega
  have hd : m.delay = (m.padding : Int) := by rw [C.geom.delay, hsame]; omega
  have hal' : Aligned [delayed m.padding 0, φ] := by
    intro p hp q hq xs
    simp only [List.mem_cons, List.not_mem_nil, or_false] at hp hq
    rcases hp with rfl | rfl <;> rcases hq with rfl | rfl <;> simp [hlen]
  have hphi : BroadcastReduce.phi f [delayed m.padding 0, φ] =
      fun xs => List.zipWith (fun x y => f [x, y]) (delayed m.padding 0 xs) (φ xs) := by
    funext xs
    simp only [BroadcastReduce.phi, List.map_cons, List.map_nil]
    exact zipReduce_pair f (hlen xs)
  have hab : ∀ {i : (same fill r m).Inst} {xs : List X} {as ja bs jb},
      (Delay.mod { d := m.padding, fill := fill }).fwd i.1 xs = .ok (as, ja) →
      m.fwd i.2.1 xs = .ok (bs, jb) → as.length = bs.length := by
    intro i xs as ja bs jb h1 h2
    cases h1
    have := fwd_length C hs h2
    simp only [Delay.forward, true_or, if_true]
    omega
  have hI := pair_impl hr D.impl C.impl hlen
  have S := BroadcastReduce.simRel (r := r) (f := f) (ms := [Delay.mod { d := m.padding, fill := fill }, m])
    (φs := [delayed m.padding 0, φ]) (by simp) (.cons D.impl (.cons C.impl .nil)) hal'
    (reduceLawful (n := 2) (by decide) hr)
  have hPC : ∀ x ∈ [Delay.mod { d := m.padding, fill := fill }, m], PadClean x (Reach x) := by
    intro x hx
    simp only [List.mem_cons, List.not_mem_nil, or_false] at hx
    rcases hx with rfl | rfl
    · exact D.padClean (by decide)
    · exact C.padClean
  have hfa : BroadcastReduce.FwdAligned [Delay.mod { d := m.padding, fill := fill }, m] := by
    have key : ∀ {x : CoMod (.stream X) (.stream X)}, x ∈ [Delay.mod { d := m.padding, fill := fill }, m] →
        ∀ {xs ys i}, x.fwd x.init xs = .ok (ys, i) → ys.length = xs.length := by
      intro x hx xs ys i h
      simp only [List.mem_cons, List.not_mem_nil, or_false] at hx
      rcases hx with rfl | rfl
      · cases h; simp [Delay.forward]
      · have := fwd_length C hs h
        omega
    intro a ha b hb xs ys ys' i i' h1 h2
    rw [key ha h1, key hb h2]
  refine ⟨hI, ?_, ?_, ?_, (BroadcastReduce.padClean (by simp) (reduceSound hr) hPC).reach S, ?_⟩
  · rw [← hphi]
    refine BroadcastReduce.geom (S := 1) (d := m.padding) (by simp) (.cons (D.geom rfl) (.cons C.geom .nil)) ?_ ?_
    · intro x hx
      simp only [List.mem_cons, List.not_mem_nil, or_false] at hx
      rcases hx with rfl | rfl
      · rfl
      · exact hs
    · intro x hx
      simp only [List.mem_cons, List.not_mem_nil, or_false] at hx
      rcases hx with rfl | rfl
      · rfl
      · exact hd
  · intro i xs zs j h
    obtain ⟨as, ja, bs, jb, k1, k2, k3, rfl⟩ := pair_fwd_inv hr (fun h1 h2 => hab h1 h2) h
    have h1 := fwd_length C hs k2
    have e1 : (same fill r m).rf = m.rf := by simp; omega
    have e2 : (same fill r m).padding = m.padding := by simp
    have e3 : (same fill r m).stride = 1 := rfl
    rw [e1, e2, e3]
    simp only [List.length_zipWith, Nat.cast_one, Int.ediv_one]
    omega
  · intro xs zs i0 h
    obtain ⟨as, ja, bs, jb, k1, k2, k3, rfl⟩ := pair_fwd_inv hr (fun h1 h2 => hab h1 h2) h
    refine zipWith_prefix _ ?_ (C.ahead k2) (hlen xs)
    cases k1
    simp only [Delay.forward, true_or, if_true]
    exact BroadcastReduce.delayed_prefix _ _
  · have := BroadcastReduce.padRel (r := r) (f := f) (ms := [Delay.mod { d := m.padding, fill := fill }, m])
      (φs := [delayed m.padding 0, φ]) (by simp) (.cons (D.padRel (by decide)) (.cons C.padRel .nil)) hPC hal' hfa
      (reduceLawful (n := 2) (by decide) hr) (reduceSound hr)
    rw [hphi] at this S
    exact this.reach S

end Residual
end CoInf

namespace CoInf
open Spec
variable {X Y Z : Type}

namespace Residual

/-- Which part of the input each value of `residual_shrink` is supposed to add. -/
def Mode.crop : Mode → Option Crop
  | .off => none
  | .on => some .centre
  | .centered => some .centre
  | .lagging => some .start
  | .leading => some .finish

/-- The residual branch implements the crop. -/
structure BranchOk (c : Crop) (d : Nat) (res : CoMod (.stream X) (.stream X)) : Prop where
  impl : Implements res (c.apply d)
  fwd : ∀ i xs, res.fwd i xs = .ok (c.apply d xs, i)
  stride : res.stride = 1

theorem crop_length (c : Crop) (d : Nat) (hd : c = .centre → d % 2 = 0) (xs : List X) :
    (c.apply d xs).length = xs.length - d := by
  cases c with
  | centre =>
    have := hd rfl
    simp [Crop.apply]; omega
  | start => simp [Crop.apply]
  | finish => simp [Crop.apply]

theorem branchOk_on (fill : X → X) {d : Nat} (hd : d % 2 = 0) :
    BranchOk .centre d (Delay.mod { d := d / 2, fill := fill, shrink := .on }) := by
  have e : ∀ xs : List X, delayed (d / 2) (d / 2) xs = Crop.apply .centre d xs := by
    intro xs
    simp only [delayed, Crop.apply]
    rw [List.drop_take]
    congr 1
    omega
  refine ⟨?_, ?_, rfl⟩
  · have := Delay.implements ({ d := d / 2, fill := fill, shrink := .on } : Delay.Cfg X)
    have e' : delayed (X := X) (d / 2) (Delay.lead ({ d := d / 2, fill := fill, shrink := .on } : Delay.Cfg X)) =
        Crop.apply .centre d := by
      funext xs; exact e xs
    rw [e'] at this
    exact this
  · intro i xs
    show Except.ok (Delay.forward _ xs, i) = _
    congr 2
    rw [← e]
    simp only [Delay.forward, delayed]
    split
    · rename_i h
      rcases h with h | h
      · cases h
      · have h : _ = 0 := h
        simp [h]
    · rfl

theorem branchOk_lagging (fill : X → X) (d : Nat) :
    BranchOk .start d (Delay.mod { d := d, fill := fill, shrink := .lagging }) := by
  refine ⟨?_, ?_, rfl⟩
  · have := Delay.implements ({ d := d, fill := fill, shrink := .lagging } : Delay.Cfg X)
    have e' : delayed (X := X) d (Delay.lead ({ d := d, fill := fill, shrink := .lagging } : Delay.Cfg X)) =
        Crop.apply .start d := by
      funext xs; simp [delayed, Delay.lead, Crop.apply]
    rw [e'] at this
    exact this
  · intro i xs
    show Except.ok (Delay.forward _ xs, i) = _
    congr 2
    simp only [Delay.forward, Crop.apply]
    split
    · rename_i h
      rcases h with h | h
      · cases h
      · have h : _ = 0 := h
        simp [h]
    · rfl

theorem branchOk_leading (d : Nat) : BranchOk .finish d (Skip.mod d X) :=
  ⟨Skip.implements d, fun _ _ => rfl, rfl⟩

theorem branchOk_zero (c : Crop) (fill : X → X) : BranchOk c 0 (Delay.mod { d := 0, fill := fill }) := by
  have e : Crop.apply c 0 = (id : List X → List X) := by
    funext xs; cases c <;> simp [Crop.apply]
  refine ⟨?_, ?_, rfl⟩
  · rw [e]; exact ⟨_, Delay.simRel_zero _ rfl⟩
  · intro i xs; rw [e]; simp [Delay.forward]

/-- Un-padded modules: `Residual` constructs a container with a branch for the crop, for all modes except
`"centered"` (which is built too but behaves differently) and `False`. -/
theorem make_shrink (fill : X → X) (r : Reducer X Z) {sh : Mode} {c : Crop} (hsh : sh ≠ .centered)
    (hc : sh.crop = some c) {m : CoMod (.stream X) (.stream X)} {φ} (G : Geom m φ) (hs : m.stride = 1) (hp : m.padding = 0)
    {d : Nat} (hrf : m.rf = d + 1) (hd : c = .centre → d % 2 = 0) :
    ∃ res, make fill r sh m = .ok (BroadcastReduce.mod r [res, m]) ∧ BranchOk c d res := by
  have hdel : m.delay = (d : Int) := by rw [G.delay, hrf, hp]; omega
  have fin : ∀ res : CoMod (.stream X) (.stream X), BranchOk c d res →
      BroadcastReduce.make fill false r [res, m] = .ok (BroadcastReduce.mod r [res, m]) := by
    intro res h
    simp [BroadcastReduce.make, BroadcastReduce.autoDelay, hs, h.stride]
  unfold make
  rw [if_neg (by omega)]
  by_cases h0 : d = 0
  · subst h0
    have he : effective sh m = .off := by
      unfold effective
      rw [if_pos (by omega)]
    refine ⟨_, ?_, branchOk_zero c fill⟩
    rw [he, hdel]
    simp only [halved, branch, Mode.toShrink]
    simpa using fin _ (branchOk_zero c fill)
  · have he : effective sh m = sh := by
      unfold effective
      rw [if_neg (by omega)]
    rw [he, hdel]
    cases sh with
    | off => cases hc
    | centered => exact absurd rfl hsh
    | on =>
      cases hc
      have hd := hd rfl
      have hev : (d : Int) % 2 = 0 := by omega
      have hcast : ((d : Int) / 2).toNat = d / 2 := by omega
      refine ⟨_, ?_, branchOk_on fill hd⟩
      have hge : (0 : Int) ≤ (d : Int) / 2 := by omega
      simp only [halved, branch, Mode.toShrink]
      simpa [hev, hcast, hge] using fin _ (branchOk_on fill hd)
    | lagging =>
      cases hc
      refine ⟨_, ?_, branchOk_lagging fill d⟩
      simp only [halved, branch, Mode.toShrink]
      simpa using fin _ (branchOk_lagging fill d)
    | leading =>
      cases hc
      refine ⟨_, ?_, branchOk_leading d⟩
      have : 0 < d := by omega
      simp only [halved, branch]
      simpa [this] using fin _ (branchOk_leading d)

theorem make_centered (fill : X → X) (r : Reducer X Z) {m : CoMod (.stream X) (.stream X)} {φ} (G : Geom m φ)
    (hs : m.stride = 1) (hp : m.padding = 0) {d : Nat} (hrf : m.rf = d + 1) (hd : d % 2 = 0) (h0 : d ≠ 0) :
    make fill r .centered m =
      .ok (BroadcastReduce.mod r [Delay.mod { d := d / 2, fill := fill, shrink := .centered }, m]) := by
  have hdel : m.delay = (d : Int) := by rw [G.delay, hrf, hp]; omega
  have he : effective .centered m = .centered := by
    unfold effective
    rw [if_neg (by omega)]
  have hev : (d : Int) % 2 = 0 := by omega
  have hcast : ((d : Int) / 2).toNat = d / 2 := by omega
  have hge : (0 : Int) ≤ (d : Int) / 2 := by omega
  unfold make
  rw [if_neg (by omega), he, hdel]
  simp [halved, branch, Mode.toShrink, hev, hcast, hge, BroadcastReduce.make, BroadcastReduce.autoDelay, hs]

/-- One step of two branches. -/
def both (f : List Y → Z) : Option Y → Option Y → Option Z
  | some x, some y => some (f [x, y])
  | _, _ => none

theorem callSteps_pair {r : Reducer Y Z} {f : List Y → Z} (hr : ReduceOk r f 2) {a b : CoMod (.stream X) (.stream Y)}
    (xs : List X) : ∀ {ia ib os os' ja jb}, callSteps a ia xs = .ok (os, ja) → callSteps b ib xs = .ok (os', jb) →
    callSteps (BroadcastReduce.mod r [a, b]) (ia, ib, ()) xs = .ok (List.zipWith (both f) os os', (ja, jb, ())) := by
  induction xs with
  | nil => intro ia ib os os' ja jb h1 h2; cases h1; cases h2; rfl
  | cons x xs ih =>
    intro ia ib os os' ja jb h1 h2
    simp only [callSteps, bind, Except.bind] at h1 h2
    cases ha : a.step ia true x with
    | error e => rw [ha] at h1; cases h1
    | ok p =>
      obtain ⟨o, i1⟩ := p
      rw [ha] at h1
      simp only at h1
      cases ha' : callSteps a i1 xs with
      | error e => rw [ha'] at h1; cases h1
      | ok p =>
        obtain ⟨os1, i2⟩ := p
        rw [ha'] at h1
        cases h1
        cases hb : b.step ib true x with
        | error e => rw [hb] at h2; cases h2
        | ok p =>
          obtain ⟨o', j1⟩ := p
          rw [hb] at h2
          simp only at h2
          cases hb' : callSteps b j1 xs with
          | error e => rw [hb'] at h2; cases h2
          | ok p =>
            obtain ⟨os1', j2⟩ := p
            rw [hb'] at h2
            cases h2
            have hst : BroadcastReduce.step r [a, b] (ia, ib, ()) true x = .ok (both f o o', (i1, j1, ())) := by
              cases o <;> cases o' <;>
              simp [BroadcastReduce.step, BroadcastReduce.stepAll, ha, hb, nonempty, allSome, both,
                hr.frame, Except.map, bind, Except.bind, pure, Except.pure]
            simp only [callSteps, hst, ih ha' hb', bind, Except.bind]
            rfl

theorem steps_pair_fold (op : Y → Y → Y) {a b : CoMod (.stream X) (.stream Y)} {p u : Bool} {xs : List X}
    {ia : a.Inst} {ib : b.Inst} {as bs : List Y} {ja jb} (h1 : a.steps ia p u xs = .ok (some as, ja))
    (h2 : b.steps ib p u xs = .ok (some bs, jb)) :
    (BroadcastReduce.mod (foldReducer op) [a, b]).steps (ia, ib, ()) p u xs =
      (bcast2 op as bs).map fun zs => (some zs, (ja, jb, ())) := by
  simp only [BroadcastReduce.steps, BroadcastReduce.stepsAll, h1, h2, bind, Except.bind, pure, Except.pure, nonempty,
    allSome, Option.map_some, foldReducer, List.foldlM_cons, List.foldlM_nil]
  cases bcast2 op as bs <;> rfl

end Residual
end CoInf
