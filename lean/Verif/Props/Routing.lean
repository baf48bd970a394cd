/-
Properties C22, C23: routing of parallel streams, and consecutive `Parallel` stages.
-/
import Verif.Lemmas.TwoStage
import Verif.Props.Parallel

set_option autoImplicit false

namespace CoInf
open Spec
variable {α β X Y Z W : Type}

/-! ### C22 -/

/-- **C22**, routing: whatever `ParallelDispatch(mapping)` returns has, at every position of the nested mapping, the
input stream that the id at that position denotes, and nothing at all other positions. -/
theorem C22_dispatch (mapping : List Dispatch.Mapping) (input : List α) {out : List (Dispatch.Routed α)}
    (h : Dispatch.forward mapping input = .ok out) (p : List Nat) :
    streamAt (.many out) p = (idAt (.group mapping) p).bind (denotes input) := by
  refine (Dispatch.dispatch_spec input (.group mapping)).1 ?_ p
  unfold Dispatch.forward at h
  simp only [Dispatch.dispatch, h]; rfl

/-- **C22**, bad ids: the call returns iff all ids are in range (Python's negative indices included); otherwise it
raises `IndexError`. -/
theorem C22_out_of_range (mapping : List Dispatch.Mapping) (input : List α) :
    ((∃ out, Dispatch.forward mapping input = .ok out) ↔
      ∀ p i, idAt (.group mapping) p = some i → -(input.length : Int) ≤ i ∧ i < input.length) ∧
    ((¬ ∀ p i, idAt (.group mapping) p = some i → -(input.length : Int) ≤ i ∧ i < input.length) →
      Dispatch.forward mapping input = .error .index) := by
  obtain ⟨_, h2, h3, h4⟩ := Dispatch.dispatch_spec input (.group mapping)
  have e : ∀ out, Dispatch.forward mapping input = .ok out ↔
      Dispatch.dispatch input (.group mapping) = .ok (.many out) := by
    intro out
    unfold Dispatch.forward
    simp only [Dispatch.dispatch]
    cases Dispatch.dispatchAll input mapping with
    | error e => simp [Except.map]
    | ok rs => simp [Except.map]
  have iff : (∃ out, Dispatch.forward mapping input = .ok out) ↔
      ∀ p i, idAt (.group mapping) p = some i → -(input.length : Int) ≤ i ∧ i < input.length := by
    constructor
    · rintro ⟨out, h⟩ p i hi
      exact (denotes_isSome input i).1 (h4 ((e out).1 h) p i hi)
    · intro h
      obtain ⟨r, hr⟩ := h2 (fun p i hi => (denotes_isSome input i).2 (h p i hi))
      cases r with
      | one a =>
        simp only [Dispatch.dispatch] at hr
        cases hd : Dispatch.dispatchAll input mapping with
        | error e => rw [hd] at hr; cases hr
        | ok rs => rw [hd] at hr; cases hr
      | many out => exact ⟨out, (e out).2 hr⟩
  refine ⟨iff, fun h => ?_⟩
  cases hf : Dispatch.forward mapping input with
  | ok out => exact absurd (iff.1 ⟨out, hf⟩) h
  | error err =>
    congr 1
    apply h3
    unfold Dispatch.forward at hf
    simp only [Dispatch.dispatch, hf]; rfl

/-- **C22**, stepping: routing commutes with every per-stream operation `g`, e.g. with taking the `t`-th frame of
each clip, so that routing clips and then stepping is the same as stepping and then routing frames. -/
theorem C22_commutes (mapping : List Dispatch.Mapping) (input : List α) (g : α → β)
    {out : List (Dispatch.Routed α)} (h : Dispatch.forward mapping input = .ok out) :
    ∃ out', Dispatch.forward mapping (input.map g) = .ok out' ∧
      ∀ p, streamAt (.many out') p = (streamAt (.many out) p).map g := by
  have hb := (C22_out_of_range mapping input).1.1 ⟨out, h⟩
  obtain ⟨out', h'⟩ := (C22_out_of_range mapping (input.map g)).1.2 (by simpa using hb)
  refine ⟨out', h', fun p => ?_⟩
  rw [C22_dispatch mapping _ h', C22_dispatch mapping _ h]
  cases idAt (.group mapping) p with
  | none => rfl
  | some i => exact denotes_map g input i

theorem feedAll_cons {M : CoMod (.multi X) (.multi Y)} {i i' i'' : M.Inst} {f fs o os}
    (h : M.step i true (List.map some f) = .ok (o, i')) (k : feedAll M i' fs = .ok (os, i'')) :
    feedAll M i (f :: fs) = .ok (o :: os, i'') := by
  simp only [feedAll, h, k]

theorem feedAll_rel {ms : List (CoMod (.stream X) (.stream Y))} {φs : List (List X → List Y)}
    (H : List.Forall₂ Implements ms φs) : ∀ (fs : List (List X)) {hs : List (List X)} {i : BroadcastReduce.Inst ms},
    Parallel.Rel ms hs i → hs.length = ms.length → (∀ f ∈ fs, f.length = ms.length) →
    ∃ os i', feedAll (Parallel.mod ms) i fs = .ok (os, i') ∧
      (∀ o ∈ os, ∃ l, o = some l ∧ l.length = ms.length) ∧ os.length = fs.length ∧
      ∀ (k : Nat) (φ : List X → List Y) (h : List X), φs[k]? = some φ → hs[k]? = some h →
        φ (h ++ streamOf k fs) = φ h ++ tensorsAt k os := by
  intro fs
  induction fs with
  | nil =>
    intro hs i _ _ _
    exact ⟨[], i, rfl, by simp, rfl, fun k φ h _ _ => by simp [streamOf, tensorsAt]⟩
  | cons f fs ih =>
    intro hs i hR hl hf
    have hfl := hf f (by simp)
    obtain ⟨os, i', h1, h2, h3, h4⟩ := Parallel.step_ok H f hR hfl
    obtain ⟨oss, i'', k1, k2, k3, k4⟩ := ih h3 (by simp [hl, hfl]) (fun f' h' => hf f' (by simp [h']))
    refine ⟨some os :: oss, i'', ?_, ?_, by simp [k3], ?_⟩
    · have hst : (Parallel.mod ms).step i true (f.map some) = .ok (some os, i') := by
        show (do let (os, i') ← Parallel.step ms i true (f.map some); return (some os, i')) = _
        rw [h1]; rfl
      exact feedAll_cons hst k1
    · intro o ho
      rcases List.mem_cons.1 ho with rfl | ho
      · exact ⟨os, rfl, h2⟩
      · exact k2 o ho
    · intro k φ h hφ hh
      have kl : k < ms.length := by
        have := (List.getElem?_eq_some_iff.1 hh).1
        omega
      have hx : f[k]? = some (f[k]'(by omega)) := List.getElem?_eq_getElem _
      have e1 := h4 k φ h _ hφ hh hx
      have e2 := k4 k φ (h ++ [f[k]'(by omega)]) hφ (by simp [List.getElem?_zipWith, hh, hx])
      have e3 : streamOf k (f :: fs) = f[k]'(by omega) :: streamOf k fs := by
        simp only [streamOf, List.filterMap_cons, hx]
      have e4 : tensorsAt k (some os :: oss) = ((os[k]?).join).toList ++ tensorsAt k oss := by
        simp only [tensorsAt, List.filterMap_cons, Option.bind_some]
        cases (os[k]?).join <;> rfl
      rw [e3, e4, ← List.append_assoc, ← e1, ← e2]
      simp

/-- **C22**, `Parallel`: stepping over simultaneous frames of several streams, member number `k` computes on stream
number `k` what it would compute alone, and its outputs are found at position `k`. -/
theorem C22_parallel {ms : List (CoMod (.stream X) (.stream Y))} {φs : List (List X → List Y)}
    (H : List.Forall₂ Implements ms φs) (fs : List (List X)) (hf : ∀ f ∈ fs, f.length = ms.length) :
    ∃ os i', feedAll (Parallel.mod ms) (Parallel.mod ms).init fs = .ok (os, i') ∧
      (∀ o ∈ os, ∃ l, o = some l ∧ l.length = ms.length) ∧ os.length = fs.length ∧
      ∀ (k : Nat) (φ : List X → List Y), φs[k]? = some φ → tensorsAt k os = φ (streamOf k fs) := by
  obtain ⟨os, i', h1, h2, h3, h4⟩ := feedAll_rel H fs (Parallel.init_rel ms) (by simp) hf
  refine ⟨os, i', h1, h2, h3, fun k φ hφ => ?_⟩
  have kl : k < ms.length := by
    rw [H.length_eq]; exact (List.getElem?_eq_some_iff.1 hφ).1
  have := h4 k φ [] hφ (by simp [kl])
  have h0 : φ [] = [] := by
    have : ∀ {ms φs}, List.Forall₂ Implements ms φs → ∀ φ ∈ φs, (φ : List X → List Y) [] = [] := by
      intro ms φs H
      induction H with
      | nil => simp
      | cons h1 _ ih =>
        intro φ hφ
        rcases List.mem_cons.1 hφ with rfl | hφ
        · exact h1.reach.phi_nil
        · exact ih φ hφ
    exact this H φ (List.mem_of_getElem? hφ)
  rw [h0] at this
  simpa using this.symm

/-- A nested mapping, with a negative id. -/
def exMapping : List Dispatch.Mapping := [.id 1, .group [.id 0, .group [.id (-1), .id 1]], .id 2]

example : ∃ out, Dispatch.forward exMapping ["a", "b", "c"] = .ok out ∧ streamAt (.many out) [1, 1, 0] = some "c" ∧
    streamAt (.many out) [0] = some "b" ∧ streamAt (.many out) [1, 0] = some "a" ∧ streamAt (.many out) [1] = none := by
  refine ⟨[.one "b", .many [.one "a", .many [.one "c", .one "b"]], .one "c"], ?_, ?_⟩
  · simp [Dispatch.forward, exMapping, Dispatch.dispatchAll, Dispatch.dispatch, pyGet, Except.map, bind, Except.bind, pure,
      Except.pure]
  · simp [streamAt]

example : Dispatch.forward exMapping ["a", "b"] = .error .index := by
  refine (C22_out_of_range exMapping ["a", "b"]).2 fun h => ?_
  have := h [2] 2 (by simp [idAt, exMapping])
  simp at this

example : ∃ os i', feedAll (Parallel.mod exBranches) (Parallel.mod exBranches).init
    [[1, 10, 100], [2, 20, 200], [3, 30, 300]] = .ok (os, i') ∧
    os = [some [none, none, some 10000], some [some 3, none, some 20000], some [some 6, some 10, some 30000]] :=
  ⟨_, _, rfl, rfl⟩

/-! ### C23 -/

/-- **C23** is false: whenever some branch of the first `Parallel` has no output for the first frame (that is,
whenever it has a delay), `forward_step` raises at the first frame instead of returning `None`: the second `Parallel`
calls its member with `None`.  (The members of the second stage are assumed to need a tensor, as convolutions,
pools, delays, recurrent and attention modules do; a `Delay(0)` or an identity `Lambda` would pass `None` on.) -/
theorem C23_none_refuted (r : Reducer Z W) {ms : List (CoMod (.stream X) (.stream Y))}
    (ns : List (CoMod (.stream Y) (.stream Z))) {φs : List (List X → List Y)} (hlen : ms.length = ns.length)
    (H : List.Forall₂ Implements ms φs) (x : X) (hd : ∃ φ ∈ φs, φ [x] = []) :
    ∃ e, (twoStage r ms ns).step (twoStage r ms ns).init true x = .error e := by
  obtain ⟨os, i', a1, a2, _⟩ := BroadcastReduce.stepAll_ok H true x (BroadcastReduce.init_rel ms)
  have hn : none ∈ os := by
    obtain ⟨φ, hφ, h0⟩ := hd
    clear a1
    have hlos : os.length = φs.length := by simpa using a2.length_eq.symm
    obtain ⟨k, hk, rfl⟩ := List.mem_iff_getElem.1 hφ
    have hko : k < os.length := by omega
    have := List.forall₂_iff_get.1 a2
    have := this.2 k (by simpa using hk) (by simpa using hko)
    simp only [BroadcastReduce.Emit, List.get_eq_getElem, List.nil_append, List.getElem_map] at this
    rw [h0] at this
    have : os[k] = none := by
      cases hos : os[k] with
      | none => rfl
      | some y => rw [hos] at this; simp at this
    exact this ▸ List.getElem_mem hko
  obtain ⟨e, he⟩ := Parallel.step_none (BroadcastReduce.init ns) true hn (by
    have h1 := a2.length_eq
    have h2 := H.length_eq
    simp at h1; omega)
  refine ⟨e, ?_⟩
  have := twoStage_step r ms ns (BroadcastReduce.init ms) (BroadcastReduce.init ns) true x
  rw [a1] at this
  simp only [Except.bind, he] at this
  exact this

example : ∃ e, (twoStage (foldReducer (· + ·)) exBranches exBranches).step
    (twoStage (foldReducer (· + ·)) exBranches exBranches).init true (7 : Int) = .error e := by
  obtain ⟨φs, H⟩ := exBranches_ok
  have hs : ∃ φ ∈ φs, φ [7] = [] := by
    cases H with
    | cons h1 H =>
      cases H with
      | @cons _ φ _ _ h2 H =>
        refine ⟨φ, by simp, List.eq_nil_of_length_eq_zero ?_⟩
        rw [h2.2.geo.sched [7]]
        decide
  exact C23_none_refuted _ exBranches rfl (H.imp fun _ _ h => h.1) 7 hs

theorem callSteps_law {M : CoMod (.stream X) (.stream Y)} {φ : List X → List Y} {R : List X → M.Inst → Prop}
    (hstep : ∀ {h i} (x : X), R h i → ∃ o i', M.step i true x = .ok (o, i') ∧ φ (h ++ [x]) = φ h ++ o.toList ∧
      R (h ++ [x]) i') : ∀ (xs : List X) {h : List X} {i : M.Inst}, R h i →
    ∃ os i', callSteps M i xs = .ok (os, i') ∧ os.length = xs.length ∧
      ∀ n, φ (h ++ xs.take n) = φ h ++ tensors (os.take n) := by
  intro xs
  induction xs with
  | nil => intro h i _; exact ⟨[], i, rfl, rfl, by simp [tensors]⟩
  | cons x xs ih =>
    intro h i hR
    obtain ⟨o, i', h1, h2, h3⟩ := hstep x hR
    obtain ⟨os, i'', k1, k2, k3⟩ := ih h3
    refine ⟨o :: os, i'', by simp [callSteps, h1, k1, bind, Except.bind, pure, Except.pure], by simp [k2], ?_⟩
    intro n
    cases n with
    | zero => simp [tensors]
    | succ n =>
      have e : tensors (o :: os.take n) = o.toList ++ tensors (os.take n) := by cases o <;> rfl
      rw [List.take_succ_cons, List.take_succ_cons, e, ← List.append_assoc, ← h2, ← k3 n]
      simp

/-- **C23**, what holds: if the members of the first stage return a frame for every frame (delay 0, stride 1), the
two-stage network streams the frame-wise reduction of the composed branches, returning `None` while a branch of the
second stage warms up.  (The members of the second stage emit at the same steps: `count n` frames of `n`.)  Missing: delays in the first stage, where the claim is false. -/
theorem C23_two_stages_partial {r : Reducer Z W} {f : List Z → W} {ms : List (CoMod (.stream X) (.stream Y))}
    {ns : List (CoMod (.stream Y) (.stream Z))} {φs : List (List X → List Y)} {ψs : List (List Y → List Z)}
    (hne : ns ≠ []) (hlen : ms.length = ns.length) (H1 : List.Forall₂ Implements ms φs)
    (H2 : List.Forall₂ Implements ns ψs) (h0 : ∀ φ ∈ φs, ∀ xs, (φ xs).length = xs.length)
    {count : Nat → Nat} (hal : ∀ ψ ∈ ψs, ∀ ys, (ψ ys).length = count ys.length) (hr : ReduceOk r f ns.length) (xs : List X) :
    ∃ os i', callSteps (twoStage r ms ns) (twoStage r ms ns).init xs = .ok (os, i') ∧ os.length = xs.length ∧
      ∀ n, tensors (os.take n) =
        zipReduce f (List.zipWith (fun (ψ : List Y → List Z) (φ : List X → List Y) => ψ (φ (xs.take n))) ψs φs) := by
  have hl1 := H1.length_eq
  have hl2 := H2.length_eq
  have ez : ∀ xs, zipReduce f (List.zipWith (fun (ψ : List Y → List Z) (φ : List X → List Y) => ψ (φ xs)) ψs φs) =
      BroadcastReduce.phi f (List.zipWith (fun ψ φ => ψ ∘ φ) ψs φs) xs := by
    intro xs
    unfold BroadcastReduce.phi
    rw [List.map_zipWith]; rfl
  have hnil : ∀ {A B : Type} {ms : List (CoMod (.stream A) (.stream B))} {φs}, List.Forall₂ Implements ms φs →
      ∀ φ ∈ φs, (φ : List A → List B) [] = [] := by
    intro A B ms φs H
    induction H with
    | nil => simp
    | cons h1 _ ih =>
      intro φ hφ
      rcases List.mem_cons.1 hφ with rfl | hφ
      · exact h1.reach.phi_nil
      · exact ih φ hφ
  have hmem : ∀ χ ∈ List.zipWith (fun (ψ : List Y → List Z) (φ : List X → List Y) => ψ ∘ φ) ψs φs,
      ∃ ψ ∈ ψs, ∃ φ ∈ φs, χ = ψ ∘ φ := by
    intro χ hχ
    obtain ⟨k, hk, rfl⟩ := List.mem_iff_getElem.1 hχ
    simp only [List.length_zipWith] at hk
    exact ⟨ψs[k]'(by omega), List.getElem_mem _, φs[k]'(by omega), List.getElem_mem _, by simp⟩
  have hal' : Aligned (List.zipWith (fun (ψ : List Y → List Z) (φ : List X → List Y) => ψ ∘ φ) ψs φs) := by
    intro χ hχ χ' hχ' zs
    obtain ⟨ψ, hψ, φ, hφ, rfl⟩ := hmem χ hχ
    obtain ⟨ψ', hψ', φ', hφ', rfl⟩ := hmem χ' hχ'
    simp only [Function.comp]
    rw [hal ψ hψ, hal ψ' hψ', h0 φ hφ, h0 φ' hφ']
  obtain ⟨os, i', h1, h2, h3⟩ := callSteps_law (M := twoStage r ms ns)
    (φ := BroadcastReduce.phi f (List.zipWith (fun ψ φ => ψ ∘ φ) ψs φs))
    (R := fun h i => BroadcastReduce.RelAll ms h i.2.1 ∧ Parallel.Rel ns (φs.map (· h)) i.2.2.1)
    (by
      rintro h ⟨⟨⟩, i, j, ⟨⟩⟩ x ⟨hi, hj⟩
      obtain ⟨o, i', j', a1, a2, a3, a4⟩ := twoStage_impl hne hlen H1 H2 h0 hal'
        (reduceLawful (List.length_pos_of_ne_nil hne) hr) hi hj x
      exact ⟨o, _, a1, a2, a3, a4⟩) xs (h := []) (i := (twoStage r ms ns).init)
    ⟨BroadcastReduce.init_rel ms, by
      have e : φs.map (· []) = List.replicate ns.length [] := by
        rw [List.eq_replicate_iff]
        refine ⟨by simp; omega, fun b hb => ?_⟩
        obtain ⟨φ, hφ, rfl⟩ := List.mem_map.1 hb
        exact hnil H1 φ hφ
      rw [e]; exact Parallel.init_rel ns⟩
  refine ⟨os, i', h1, h2, fun n => ?_⟩
  have e0 : BroadcastReduce.phi f (List.zipWith (fun ψ φ => ψ ∘ φ) ψs φs) [] = [] := by
    unfold BroadcastReduce.phi
    refine zipReduce_empties f ?_
    intro c hc
    obtain ⟨χ, hχ, rfl⟩ := List.mem_map.1 hc
    obtain ⟨ψ, hψ, φ, hφ, rfl⟩ := hmem χ hχ
    simp [hnil H1 φ hφ, hnil H2 ψ hψ]
  rw [ez]
  have := h3 n
  rw [e0] at this
  simpa using this.symm

example : ∃ os i', callSteps (twoStage (foldReducer (· + ·)) [Pointwise.mod fun x : Int => 2 * x, Pointwise.mod fun x => x + 1]
      [Conv.mod (exSum 3 1 1), Delay.mod { d := 1, fill := fun _ => 0 }])
    (twoStage (foldReducer (· + ·)) _ _).init [1, 2, 3, 4] = .ok (os, i') ∧
    tensors os = [6 + 2, 12 + 3, 18 + 4] := by
  obtain ⟨os, i', h1, _, h3⟩ := C23_two_stages_partial (r := foldReducer (· + ·)) (f := foldFrame (· + ·) (0 : Int))
    (ms := [Pointwise.mod fun x : Int => 2 * x, Pointwise.mod fun x => x + 1])
    (ns := [Conv.mod (exSum 3 1 1), Delay.mod { d := 1, fill := fun _ => 0 }]) (by simp) rfl
    (.cons (net_facts (k := ⟨true, 3⟩) (Net.pointwise _)).impl
      (.cons (net_facts (k := ⟨true, 3⟩) (Net.pointwise _)).impl .nil))
    (.cons (net_facts (k := ⟨true, 3⟩) (Net.conv (exSum 3 1 1) ⟨by decide, by decide, by decide, by decide, fun _ => rfl,
        fun _ => rfl, fun _ => rfl⟩)).impl (.cons (Delay.implements _) .nil))
    (by
      intro φ hφ
      simp only [List.mem_cons, List.not_mem_nil, or_false] at hφ
      rcases hφ with rfl | rfl <;> simp)
    (count := fun n => if n ≤ 1 then 0 else (n - 1 - 1) / 1 + 1)
    (by
      intro ψ hψ
      simp only [List.mem_cons, List.not_mem_nil, or_false] at hψ
      rcases hψ with rfl | rfl
      · exact (Conv.geom (exSum 3 1 1) (convGood (k := ⟨true, 3⟩) ⟨by decide, by decide, by decide, by decide,
          fun _ => rfl, fun _ => rfl, fun _ => rfl⟩).toOk).geo.sched
      · exact (Delay.geom { d := 1, fill := fun _ => (0 : Int) } rfl).geo.sched)
    (reduceOk_of (by decide) (foldReducer_lawful (· + ·) (0 : Int) 2 (by decide)) (foldReducer_sound _)) [1, 2, 3, 4]
  refine ⟨os, i', h1, ?_⟩
  have := h3 4
  rw [List.take_of_length_le (by simp_all)] at this
  rw [this]
  rfl

end CoInf
