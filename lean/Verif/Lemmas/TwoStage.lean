import Verif.Lemmas.Routing

set_option autoImplicit false

namespace CoInf
open Spec
variable {X Y Z W : Type}

/-- `Sequential(Broadcast(), Parallel(*ms), Parallel(*ns), Reduce(r))`. -/
@[reducible] def twoStage (r : Reducer Z W) (ms : List (CoMod (.stream X) (.stream Y)))
    (ns : List (CoMod (.stream Y) (.stream Z))) : CoMod (.stream X) (.stream W) :=
  Sequential.mod (.cons (Broadcast.mod X (some ms.length)) (.cons (Parallel.mod ms)
    (.cons (Parallel.mod ns) (.single (Reduce.mod r)))))

theorem twoStage_step (r : Reducer Z W) (ms : List (CoMod (.stream X) (.stream Y)))
    (ns : List (CoMod (.stream Y) (.stream Z))) (i : BroadcastReduce.Inst ms) (j : BroadcastReduce.Inst ns) (u : Bool) (x : X) :
    (twoStage r ms ns).step ((), i, j, ()) u x =
      (BroadcastReduce.stepAll ms i u x).bind fun p => (Parallel.step ns j u p.1).bind fun q =>
        (nonempty r.frame q.1).map fun o => (o, ((), p.2, q.2, ())) := by
  simp only [Chain.step, Broadcast.out, Except.map, Parallel.step_replicate, bind, Except.bind, pure, Except.pure]
  cases BroadcastReduce.stepAll ms i u x with
  | error e => rfl
  | ok p =>
    simp only
    cases Parallel.step ns j u p.1 with
    | error e => rfl
    | ok q =>
      simp only
      cases nonempty r.frame q.1 <;> rfl

/-- A `Parallel` that is given `None` for one of its streams raises. -/
theorem Parallel.step_none : ∀ {ns : List (CoMod (.stream Y) (.stream Z))} {os : List (Option Y)} (j : BroadcastReduce.Inst ns)
    (u : Bool), none ∈ os → os.length = ns.length → ∃ e, Parallel.step ns j u os = .error e := by
  intro ns
  induction ns with
  | nil => intro os j u h hl; rw [List.eq_nil_of_length_eq_zero hl] at h; simp at h
  | cons n ns ih =>
    intro os j u h hl
    cases os with
    | nil => simp at hl
    | cons o os =>
      cases o with
      | none => exact ⟨.type, rfl⟩
      | some y =>
        rw [Parallel.step, Parallel.arg, ok_bind]
        cases hn : n.step j.1 u y with
        | error e => exact ⟨e, rfl⟩
        | ok p =>
          obtain ⟨e, he⟩ := ih j.2 u (os := os) (by simpa using h) (by simpa using hl)
          refine ⟨e, ?_⟩
          rw [ok_bind]
          simp only [List.tail_cons, he]; rfl

/-- Members that emit one frame per frame do so in each step. -/
theorem emits_all {h : List X} {x : X} : ∀ {φs : List (List X → List Y)} {os : List (Option Y)},
    (∀ φ ∈ φs, ∀ xs, (φ xs).length = xs.length) →
    List.Forall₂ (BroadcastReduce.Emit h [x]) φs (os.map Option.toList) →
    ∃ ys : List Y, os = ys.map some ∧
      φs.map (· (h ++ [x])) = List.zipWith (fun h x => h ++ [x]) (φs.map (· h)) ys := by
  intro φs
  induction φs with
  | nil =>
    intro os _ a2
    cases os with
    | nil => exact ⟨[], rfl, rfl⟩
    | cons o os => cases a2
  | cons φ φs ih =>
    intro os h0 a2
    cases os with
    | nil => cases a2
    | cons o os =>
      cases a2 with
      | cons b1 b2 =>
        have b1 : φ (h ++ [x]) = φ h ++ o.toList := b1
        obtain ⟨ys, rfl, e⟩ := ih (fun ψ hψ => h0 ψ (by simp [hψ])) b2
        have := congrArg List.length b1
        rw [List.length_append, h0 φ (by simp), h0 φ (by simp)] at this
        cases o with
        | none => simp at this
        | some y => exact ⟨y :: ys, rfl, by simp only [List.map_cons, List.zipWith_cons_cons, e]; rw [b1]; rfl⟩

/-- Histories of the second stage: what the first stage has emitted. -/
theorem twoStage_impl {r : Reducer Z W} {f : List Z → W} {ms : List (CoMod (.stream X) (.stream Y))}
    {ns : List (CoMod (.stream Y) (.stream Z))} {φs : List (List X → List Y)} {ψs : List (List Y → List Z)}
    (hne : ns ≠ []) (hlen : ms.length = ns.length) (H1 : List.Forall₂ Implements ms φs) (H2 : List.Forall₂ Implements ns ψs)
    (h0 : ∀ φ ∈ φs, ∀ xs, (φ xs).length = xs.length)
    (hal : Aligned (List.zipWith (fun (ψ : List Y → List Z) (φ : List X → List Y) => ψ ∘ φ) ψs φs))
    (hr : r.Lawful f ns.length)
    {h : List X} {i : BroadcastReduce.Inst ms} {j : BroadcastReduce.Inst ns} (hi : BroadcastReduce.RelAll ms h i)
    (hj : Parallel.Rel ns (φs.map (· h)) j) (x : X) :
    ∃ o i' j', (twoStage r ms ns).step ((), i, j, ()) true x = .ok (o, ((), i', j', ())) ∧
      BroadcastReduce.phi f (List.zipWith (fun ψ φ => ψ ∘ φ) ψs φs) (h ++ [x]) =
        BroadcastReduce.phi f (List.zipWith (fun ψ φ => ψ ∘ φ) ψs φs) h ++ o.toList ∧
      BroadcastReduce.RelAll ms (h ++ [x]) i' ∧ Parallel.Rel ns (φs.map (· (h ++ [x]))) j' := by
  obtain ⟨os, i', a1, a2, a3⟩ := BroadcastReduce.stepAll_ok H1 true x hi
  have hl1 := H1.length_eq
  have hl2 := H2.length_eq
  -- all members of the first stage emit
  obtain ⟨ys, rfl, hys⟩ : ∃ ys : List Y, os = ys.map some ∧
      φs.map (· (h ++ [x])) = List.zipWith (fun h x => h ++ [x]) (φs.map (· h)) ys := emits_all h0 a2
  have hyl : ys.length = ns.length := by
    have := a2.length_eq
    simp at this; omega
  obtain ⟨os2, j', b1, b2, b3, b4⟩ := Parallel.step_ok H2 ys hj hyl
  have hemit : List.Forall₂ (BroadcastReduce.Emit h [x])
      (List.zipWith (fun (ψ : List Y → List Z) (φ : List X → List Y) => ψ ∘ φ) ψs φs) (os2.map Option.toList) := by
    rw [List.forall₂_iff_get]
    refine ⟨by simp; omega, ?_⟩
    intro k k1 k2
    have kψ : k < ψs.length := by simp at k1; omega
    have kφ : k < φs.length := by simp at k1; omega
    have ky : k < ys.length := by omega
    have ko : k < os2.length := by simpa using k2
    have := b4 k ψs[k] (φs[k] h) ys[k] (List.getElem?_eq_getElem kψ) (by simp [kφ]) (List.getElem?_eq_getElem ky)
    have e : φs[k] (h ++ [x]) = φs[k] h ++ [ys[k]] := by
      have := congrArg (fun l => l[k]?) hys
      simpa [kφ, ky] using this
    simp only [BroadcastReduce.Emit, List.get_eq_getElem, List.getElem_zipWith, List.getElem_map, Function.comp, e]
    rw [this, List.getElem?_eq_getElem ko]
    rfl
  obtain ⟨o, c1, c2⟩ := BroadcastReduce.frame_of_emit_count (List.length_pos_of_ne_nil hne) (by simp; omega) hal hr hemit
  refine ⟨o, i', j', ?_, c2, a3, ?_⟩
  · rw [twoStage_step, a1]
    simp only [Except.bind, b1, c1, Except.map]
  · rw [hys]; exact b3

end CoInf
