/-
Properties C18, C19, C22, C23: parallel containers.
-/
import Verif.Lemmas.Parallel
import Verif.Lemmas.AutoDelay
import Verif.Props.Pad

set_option autoImplicit false

namespace CoInf
open Spec
variable {X Y Z : Type}

/-! ### C18 -/

/-- **C18**, first part: for any branches that implement stream functions emitting in lock step (hence at
the same steps), `BroadcastReduce`
* returns from `forward_step`, in order, the frame-wise reductions of what the branches return,
* returns them under any chunking into `forward_step` and `forward_steps` calls as well,
* and returns from `forward` the frame-wise reduction of what the branches' `forward` return. -/
theorem C18_framewise {n : Nat} (hn : 1 ≤ n) {r : Reducer Y Z} {f : List Y → Z} (hr : ReduceOk r f n)
    {ms : List (CoMod (.stream X) (.stream Y))} {φs : List (List X → List Y)} (hlen : ms.length = n)
    (H : List.Forall₂ Implements ms φs) (hal : Aligned φs) :
    StreamsAs (BroadcastReduce.mod r ms) (fun xs => zipReduce f (φs.map (· xs))) ∧
    (∀ i, Reach (BroadcastReduce.mod r ms) [] i → ∀ ops : List (Op X), (∀ op ∈ ops, op.feeds) →
      ∃ rs i', run (BroadcastReduce.mod r ms) i ops = .ok (rs, i') ∧
        outsOf rs = zipReduce f (φs.map (· (framesOf ops)))) ∧
    (∀ i xs yss i' T, BroadcastReduce.fwdAll ms i xs = .ok (yss, i') → (∀ ys ∈ yss, ys.length = T) →
      (BroadcastReduce.mod r ms).fwd i xs = .ok (zipReduce f yss, i')) := by
  have hne : ms ≠ [] := by rintro rfl; simp at hlen; omega
  have S := BroadcastReduce.simRel hne H hal (hlen ▸ reduceLawful hn hr)
  have I : Implements (BroadcastReduce.mod r ms) (fun xs => zipReduce f (φs.map (· xs))) := ⟨_, S⟩
  refine ⟨I.streamsAs, ?_, ?_⟩
  · intro i hi ops hops
    obtain ⟨rs, i', h1, _, h3⟩ := I.feed ops hi hops
    refine ⟨rs, i', h1, ?_⟩
    have h0 := S.phi_nil
    unfold BroadcastReduce.phi at h0
    simp only [List.nil_append, h0] at h3
    exact h3.symm
  · intro i xs yss i' T h hT
    have h' : BroadcastReduce.fwd r ms i xs = .ok (zipReduce f yss, i') := by
      rw [BroadcastReduce.fwd, h, ok_bind]
      simp only
      rw [hr.clip yss T ((BroadcastReduce.fwdAll_length h).trans hlen) hT]
      rfl
    exact h'

/-- **C18**, second part: `BroadcastReduce(*ms, reduce=r)` cannot be told apart from
`Sequential(Broadcast(), Parallel(*ms), Reduce(r))`, for arbitrary members and reductions: all methods, all
flags, exceptions included, and functional stepping. -/
theorem C18_eq_sequential (r : Reducer Y Z) (ms : List (CoMod (.stream X) (.stream Y))) :
    Alike (BroadcastReduce.mod r ms) (Sequential.mod (.cons (Broadcast.mod X (some ms.length))
      (.cons (Parallel.mod ms) (.single (Reduce.mod r))))) := mapReduce_alike r ms

/-- **C18**, third part: both report the same receptive field, stride and padding ; and the same
delay if the delay of `BroadcastReduce` is the one implied by the geometry. (In general
`Sequential` recomputes its delay from receptive field and padding.) -/
theorem C18_geometry (r : Reducer Y Z) (ms : List (CoMod (.stream X) (.stream Y))) :
    (mapReduce r ms).rf = (BroadcastReduce.mod r ms).rf ∧
    (mapReduce r ms).stride = (BroadcastReduce.mod r ms).stride ∧
    (mapReduce r ms).padding = (BroadcastReduce.mod r ms).padding ∧
    ((BroadcastReduce.mod r ms).delay = (BroadcastReduce.mod r ms).rf - 1 - (BroadcastReduce.mod r ms).padding →
      (mapReduce r ms).delay = (BroadcastReduce.mod r ms).delay) := by
  have h1 : (mapReduce r ms).rf = (BroadcastReduce.mod r ms).rf := by
    simp only [Chain.rfOf, Chain.geos, List.reverse_cons, List.reverse_nil, List.nil_append, List.cons_append,
      List.foldl_cons, List.foldl_nil]
    omega
  have h2 : (mapReduce r ms).stride = (BroadcastReduce.mod r ms).stride := by
    cases ms with
    | nil => rfl
    | cons m ms => simp [Chain.strideOf, Chain.geos]
  have h3 : (mapReduce r ms).padding = (BroadcastReduce.mod r ms).padding := by
    simp [Chain.paddingOf, Chain.geos]
  refine ⟨h1, h2, h3, fun h => ?_⟩
  rw [h]
  show ((mapReduce r ms).rf : Int) - 1 - (mapReduce r ms).padding = _
  rw [h1, h3]

example : (BroadcastReduce.mod (foldReducer (· + ·)) [Conv.mod (exSum 3 1 1),
      Delay.mod { d := 1, fill := fun _ => 0 }]).delay = 1 ∧
    ∃ os i', callSteps (BroadcastReduce.mod (foldReducer (· + ·)) [Conv.mod (exSum 3 1 1),
      Delay.mod { d := 1, fill := fun _ => 0 }]) (BroadcastReduce.init _) [1, 2, 3, 4] = .ok (os, i') ∧
      os = [none, some 4, some 8, some 12] := by
  refine ⟨by decide, ?_⟩
  have H := (C18_framewise (by decide) (reduceOk_of (by decide) (foldReducer_lawful (· + ·) (0 : Int) 2 (by decide))
      (foldReducer_sound _)) (ms := [Conv.mod (exSum 3 1 1), Delay.mod { d := 1, fill := fun _ => 0 }]) rfl
    (.cons (net_facts (k := ⟨true, 3⟩) (Net.conv (exSum 3 1 1) ⟨by decide, by decide, by decide, by decide, fun _ => rfl,
        fun _ => rfl, fun _ => rfl⟩)).impl (.cons (Delay.implements _) .nil))
    (BroadcastReduce.aligned_of_sched (d := 1) (s := 1) (by
      intro φ hφ
      simp only [List.mem_cons, List.not_mem_nil, or_false] at hφ
      rcases hφ with rfl | rfl
      · exact (Conv.geom (exSum 3 1 1) (convGood (k := ⟨true, 3⟩) ⟨by decide, by decide, by decide, by decide,
          fun _ => rfl, fun _ => rfl, fun _ => rfl⟩).toOk).geo.sched
      · exact (Delay.geom { d := 1, fill := fun _ => (0 : Int) } rfl).geo.sched))).1
  obtain ⟨os, i', h1, h2, h3⟩ := H _ .init [1, 2, 3, 4]
  refine ⟨os, i', h1, ?_⟩
  have : ∃ i', callSteps (BroadcastReduce.mod (foldReducer (· + ·)) [Conv.mod (exSum 3 1 1),
      Delay.mod { d := 1, fill := fun _ => 0 }]) (BroadcastReduce.init _) [1, 2, 3, 4] =
      .ok ([none, some 4, some 8, some 12], i') := ⟨_, rfl⟩
  obtain ⟨_, h⟩ := this
  exact (Prod.mk.inj (Except.ok.inj (h1.symm.trans h))).1

/-! ### C19 -/

/-- Three branches with delays 1, 2 and 0: a convolution over three frames with 'same' padding, a delay and
an element-wise function. -/
def exBranches : List (CoMod (.stream Int) (.stream Int)) :=
  [Conv.mod (exSum 3 1 1), Delay.mod { d := 2, fill := fun _ => 0 }, Pointwise.mod fun x => 100 * x]

/-- **C19**, for stride one.  Let the branches implement stream functions and report their geometry
correctly, and let `D` be the largest delay.  Then after `auto_delay`
* every branch reports the delay `D` and emits at exactly the steps `D, D+1, D+2, ...`;
* the `j`-th emission of every branch is the `j`-th emission of the branch without the added delay;
* `forward` of every branch is unchanged;
* the constructors of `BroadcastReduce` and `Parallel` accept the branches and report the delay `D`.
Missing: strides above one, where the claim is false (`C19_strided_refuted`). -/
theorem C19_auto_delay_partial (fill : Y → Y) {ms : List (CoMod (.stream X) (.stream Y))}
    {φs : List (List X → List Y)} (hlen : 2 ≤ ms.length)
    (H : List.Forall₂ (fun m φ => Implements m φ ∧ Geom m φ) ms φs) (hs : ∀ m ∈ ms, m.stride = 1) :
    ∃ (D : Nat) (ms' : List (CoMod (.stream X) (.stream Y))) (ψs : List (List X → List Y)),
      (∀ m ∈ ms, m.delay ≤ D) ∧ (∃ m ∈ ms, m.delay = D) ∧
      List.Forall₂ (fun m ψ => Implements m ψ ∧ m.delay = D ∧ m.padding + D + 1 = m.rf ∧
        ∀ xs, (ψ xs).length = xs.length - D) ms' ψs ∧
      List.Forall₂ (fun φ ψ => ∀ xs, ψ xs <+: φ xs) φs ψs ∧
      List.Forall₂ (fun m m' => ∀ xs, (m'.fwd m'.init xs).map Prod.fst = (m.fwd m.init xs).map Prod.fst) ms ms' ∧
      (∀ (Z : Type) (r : Reducer Y Z), ∃ M, BroadcastReduce.make fill true r ms = .ok M ∧
        M = BroadcastReduce.mod r ms' ∧ M.delay = D) ∧
      (∃ M, Parallel.make fill true ms = .ok M ∧ M = Parallel.mod ms' ∧ M.delay = D) := by
  have hne : ms ≠ [] := by rintro rfl; simp at hlen
  obtain ⟨m0, hm0, hd0⟩ := BroadcastReduce.maxDelay_mem hne
  have hnn : 0 ≤ BroadcastReduce.maxDelay ms := by
    obtain ⟨φ, _, _, hG⟩ : ∃ φ ∈ φs, Implements m0 φ ∧ Geom m0 φ := by
      clear hlen hs hne hd0
      induction H with
      | nil => simp at hm0
      | @cons m φ ms φs h _ ih =>
        rcases List.mem_cons.1 hm0 with rfl | hm0
        · exact ⟨φ, by simp, h⟩
        · obtain ⟨φ', h1, h2⟩ := ih hm0
          exact ⟨φ', by simp [h1], h2⟩
    have h1 := hG.delay
    have h2 := hG.geo.hP
    omega
  have hD : ((BroadcastReduce.maxDelay ms).toNat : Int) = BroadcastReduce.maxDelay ms := by omega
  have hge := BroadcastReduce.maxDelay_ge ms
  -- align member by member
  have key : ∀ (l : List (CoMod (.stream X) (.stream Y))) (φs : List (List X → List Y)) (D : Int),
      List.Forall₂ (fun m φ => Implements m φ ∧ Geom m φ) l φs → (∀ m ∈ l, m.stride = 1) → (∀ m ∈ l, m.delay ≤ D) →
      ∃ ψs, List.Forall₂ (fun m' ψ => Implements m' ψ ∧ Geom m' ψ ∧ m'.delay = D ∧ m'.stride = 1)
          (l.map (BroadcastReduce.delayTo fill D)) ψs ∧
        List.Forall₂ (fun φ ψ => ∀ xs, ψ xs <+: φ xs) φs ψs ∧
        List.Forall₂ (fun m m' => ∀ xs, (m'.fwd m'.init xs).map Prod.fst = (m.fwd m.init xs).map Prod.fst) l
          (l.map (BroadcastReduce.delayTo fill D)) := by
    intro l φs D H
    induction H with
    | nil => intro _ _; exact ⟨[], .nil, .nil, .nil⟩
    | @cons m φ l φs h _ ih =>
      intro hs hD
      obtain ⟨ψs, h1, h2, h3⟩ := ih (fun m hm => hs m (by simp [hm])) (fun m hm => hD m (by simp [hm]))
      obtain ⟨ψ, hψ⟩ := BroadcastReduce.delayTo_aligns fill h.1 h.2 (hs m (by simp)) (hD m (by simp))
      exact ⟨ψ :: ψs, .cons ⟨hψ.impl, hψ.geom, hψ.delay, hψ.stride⟩ h1, .cons hψ.pre h2, .cons hψ.fwd h3⟩
  obtain ⟨ψs, h1, h2, h3⟩ := key ms φs _ H hs hge
  have hall : ∀ m' ∈ ms.map (BroadcastReduce.delayTo fill (BroadcastReduce.maxDelay ms)),
      m'.delay = BroadcastReduce.maxDelay ms ∧ m'.stride = 1 := by
    intro m' hm'
    have : ∀ {l ψs}, List.Forall₂ (fun (m' : CoMod (.stream X) (.stream Y)) (ψ : List X → List Y) =>
        Implements m' ψ ∧ Geom m' ψ ∧ m'.delay = BroadcastReduce.maxDelay ms ∧ m'.stride = 1) l ψs →
        ∀ m' ∈ l, m'.delay = BroadcastReduce.maxDelay ms ∧ m'.stride = 1 := by
      intro l ψs h
      induction h with
      | nil => simp
      | @cons m ψ l ψs h _ ih =>
        intro m' hm'
        rcases List.mem_cons.1 hm' with rfl | hm'
        · exact h.2.2
        · exact ih m' hm'
    exact this h1 m' hm'
  have hne' : ms.map (BroadcastReduce.delayTo fill (BroadcastReduce.maxDelay ms)) ≠ [] := by simpa using hne
  have hmd := BroadcastReduce.maxDelay_eq hne' (fun m hm => (hall m hm).1)
  have hst : ∀ l : List (CoMod (.stream X) (.stream Y)), l ≠ [] → (∀ m ∈ l, m.stride = 1) →
      (l.all fun m => decide (m.stride = (match l with | [] => 1 | m :: _ => m.stride))) = true := by
    intro l hl h
    cases l with
    | nil => rfl
    | cons a t =>
      rw [List.all_eq_true]
      intro m hm
      simp [h m hm, h a (by simp)]
  have hst' := hst _ hne' (fun m hm => (hall m hm).2)
  refine ⟨(BroadcastReduce.maxDelay ms).toNat, _, ψs, fun m hm => by rw [hD]; exact hge m hm,
    ⟨m0, hm0, by rw [hD, hd0]⟩, h1.imp ?_, h2, h3, ?_, ?_⟩
  · rintro m ψ ⟨a1, a2, a3, a4⟩
    have b1 := a2.delay
    have b2 := a2.geo.hP
    refine ⟨a1, by rw [hD, a3], by omega, fun xs => ?_⟩
    rw [a2.geo.sched xs, a4, Nat.div_one]
    split <;> omega
  · intro Z r
    refine ⟨_, ?_, rfl, by rw [hD]; exact hmd⟩
    simp only [BroadcastReduce.make, BroadcastReduce.autoDelay, if_true]
    rw [if_neg (by omega)]
    exact if_pos hst'
  · refine ⟨_, ?_, rfl, by rw [hD]; exact hmd⟩
    simp only [Parallel.make, BroadcastReduce.autoDelay, if_true]
    rw [if_neg hne]
    exact if_pos hst'

theorem exBranches_ok : ∃ φs, List.Forall₂ (fun m φ => Implements m φ ∧ Geom m φ) exBranches φs :=
  ⟨_, .cons ⟨(net_facts (k := ⟨true, 3⟩) (Net.conv (exSum 3 1 1) ⟨by decide, by decide, by decide, by decide, fun _ => rfl,
      fun _ => rfl, fun _ => rfl⟩)).impl, (net_facts (k := ⟨true, 3⟩) (Net.conv (exSum 3 1 1) ⟨by decide, by decide,
      by decide, by decide, fun _ => rfl, fun _ => rfl, fun _ => rfl⟩)).geom rfl⟩
    (.cons ⟨Delay.implements _, Delay.geom _ rfl⟩ (.cons ⟨(net_facts (k := ⟨true, 3⟩) (Net.pointwise _)).impl,
      Pointwise.geom _⟩ .nil))⟩

example : ∃ M : CoMod (.stream Int) (.stream Int),
    BroadcastReduce.make (fun _ => 0) true (foldReducer (· + ·)) exBranches = .ok M ∧ M.delay = 2 := by
  obtain ⟨φs, H⟩ := exBranches_ok
  obtain ⟨D, ms', ψs, h1, ⟨m, hm, h2⟩, _, _, _, h3, _⟩ := C19_auto_delay_partial (fun _ => (0 : Int)) (by decide) H
    (by intro m hm; simp only [exBranches, List.mem_cons, List.not_mem_nil, or_false] at hm
        rcases hm with rfl | rfl | rfl <;> rfl)
  obtain ⟨M, k1, _, k3⟩ := h3 Int (foldReducer (· + ·))
  refine ⟨M, k1, ?_⟩
  have : (2 : Int) ≤ D := h1 (Delay.mod { d := 2, fill := fun _ => 0 }) (by simp [exBranches])
  have hle : ∀ m ∈ exBranches, m.delay ≤ 2 := by
    intro m hm
    simp only [exBranches, List.mem_cons, List.not_mem_nil, or_false] at hm
    rcases hm with rfl | rfl | rfl <;> decide
  have := hle m hm
  omega

/-- **C19** is false for every stride `S ≥ 2`: whenever the delays of the branches differ, some branch of the
constructed container has another delay than the slowest one (the added `Delay` counts the frames that the branch
emits, of which there is only one per `S` input frames). -/
theorem C19_strided_refuted (fill : Y → Y) {ms : List (CoMod (.stream X) (.stream Y))} {S : Nat} (hS : 2 ≤ S)
    (hs : ∀ m ∈ ms, m.stride = S ∧ 1 ≤ m.rf ∧ m.delay = (m.rf : Int) - 1 - m.padding)
    {a b : CoMod (.stream X) (.stream Y)} (ha : a ∈ ms) (hb : b ∈ ms) (hab : a.delay < b.delay) :
    ∃ m ∈ BroadcastReduce.autoDelay fill true ms, ∃ m' ∈ BroadcastReduce.autoDelay fill true ms,
      m.delay < m'.delay := by
  have hne : ms ≠ [] := by rintro rfl; simp at ha
  have hge := BroadcastReduce.maxDelay_ge ms
  obtain ⟨m0, hm0, hd0⟩ := BroadcastReduce.maxDelay_mem hne
  have hlt : a.delay < BroadcastReduce.maxDelay ms := lt_of_lt_of_le hab (hge b hb)
  refine ⟨m0, ?_, _, List.mem_map.2 ⟨a, ha, rfl⟩, ?_⟩
  · exact List.mem_map.2 ⟨m0, hm0, BroadcastReduce.delayTo_of_not_lt fill (by omega)⟩
  · rw [BroadcastReduce.delayTo_of_lt fill hlt, BroadcastReduce.thenDelay_delay fill _ (hs a ha).2.2 (hs a ha).2.1,
      (hs a ha).1, hd0]
    have h1 : ((BroadcastReduce.maxDelay ms - a.delay).toNat : Int) = BroadcastReduce.maxDelay ms - a.delay := by omega
    rw [h1]
    have h2 : (2 : Int) * (BroadcastReduce.maxDelay ms - a.delay) ≤ S * (BroadcastReduce.maxDelay ms - a.delay) :=
      Int.mul_le_mul_of_nonneg_right (by omega) (by omega)
    omega

/-- Two strided branches. -/
def exStridedBranches : List (CoMod (.stream Int) (.stream Int)) :=
  [Conv.mod (exSum 3 2 0), Conv.mod (exSum 5 2 0)]

example : ∃ m ∈ BroadcastReduce.autoDelay (fun _ => (0 : Int)) true exStridedBranches,
    ∃ m' ∈ BroadcastReduce.autoDelay (fun _ => (0 : Int)) true exStridedBranches, m.delay < m'.delay :=
  C19_strided_refuted (fun _ => 0) (S := 2) (by decide) (ms := exStridedBranches)
    (by intro m hm; simp only [exStridedBranches, List.mem_cons, List.not_mem_nil, or_false] at hm
        rcases hm with rfl | rfl <;> decide)
    (a := Conv.mod (exSum 3 2 0)) (b := Conv.mod (exSum 5 2 0)) (by simp [exStridedBranches]) (by simp [exStridedBranches])
    (by decide)

/-- What this means for the data: `BroadcastReduce(conv(K=3,S=2), conv(K=5,S=2), auto_delay=True)` is accepted,
but its first output frame while streaming adds frames of the branches that do not belong together: the second
output of the slow branch is added to the first output of the fast one. -/
theorem C19_strided_data_refuted :
    ∃ M : CoMod (.stream Int) (.stream Int),
      BroadcastReduce.make (fun _ => 0) true (foldReducer (· + ·)) exStridedBranches = .ok M ∧ ∃ os i,
      callSteps M M.init [1, 10, 100, 1000, 10000, 100000, 1000000] = .ok (os, i) ∧
      (Conv.mod (exSum 3 2 0)).fwd (Conv.mod (exSum 3 2 0)).init [1, 10, 100, 1000, 10000, 100000, 1000000] =
        .ok ([111, 11100, 1110000], (Conv.mod (exSum 3 2 0)).init) ∧
      (Conv.mod (exSum 5 2 0)).fwd (Conv.mod (exSum 5 2 0)).init [1, 10, 100, 1000, 10000, 100000, 1000000] =
        .ok ([11111, 1111100], (Conv.mod (exSum 5 2 0)).init) ∧
      tensors os = [111 + 1111100] :=
  ⟨_, rfl, [none, none, none, none, none, none, some (111 + 1111100)], _, rfl, rfl, rfl, rfl⟩

end CoInf
