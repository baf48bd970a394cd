/-
Property C65: axis order of the attention modules.
-/
import Verif.Lemmas.AttnLayout

set_option autoImplicit false

namespace CoInf
open Layout Tensor
variable {F S : Type} [Zero F]

/-- **C65**, `forward_steps`: for `batch_first` modules (with or without `embed_dim_second`), and for retroactive attention
with the default axis order.  Time is axis 1, 2 or 0 of clips in these cases, for inputs and outputs alike: the clip that
`forward_steps` returns has, along that axis, exactly the tensors that `forward_step` returns for the frames of the input
clip along that axis.  If one of the steps raises, `forward_steps` raises too. -/
theorem C65_clips_partial (l : Lay) (hl : l.batchFirst = true ∨ (l.kind = .retro ∧ l.embedSecond = false)) {R N T E : Nat}
    (hR : l.kind = .single → R = 1) (core : Core F S) (hc : Shaped core R N E) (hT : T ≠ 0) (q k v : Tensor F)
    (hq : q.shape = l.clip N T E) (hk : k.shape = l.clip N T E) (hv : v.shape = l.clip N T E) (s : S) :
    match frameByFrame l core q k v s (List.range T) with
    | .error e => forwardSteps l core s q k v = .error e
    | .ok (os, s') => ∃ Y, forwardSteps l core s q k v = .ok (Y, s') ∧
        match Y with
        | none => os.filterMap id = []
        | some y => y.shape[l.time]? = some (os.filterMap id).length ∧
            ∀ (j : Nat) (hj : j < (os.filterMap id).length), y.select l.time j = .ok (os.filterMap id)[j] := by
  have hl' : l.batchFirst = true ∨ l.embedSecond = false := by
    rcases hl with h | h
    · exact .inl h
    · exact .inr h.2
  obtain ⟨gq, q1, q2⟩ := stepsIn_ok l hl' q hq
  obtain ⟨gk, k1, k2⟩ := stepsIn_ok l hl' k hk
  obtain ⟨gv, v1, v2⟩ := stepsIn_ok l hl' v hv
  have H := loop_ok l hl hR hc q2 k2 v2 (List.range T) (fun t h => List.mem_range.1 h) s
  simp only [forwardSteps, q1, k1, v1, Layout.ok_bind, of3_shape, List.headD_cons, and_self, if_true]
  cases hf : frameByFrame l core q k v s (List.range T) with
  | error e =>
    rw [hf] at H
    simp only at H
    rw [H]
    rfl
  | ok r =>
    obtain ⟨os, s'⟩ := r
    rw [hf] at H
    obtain ⟨gs, h1, h2⟩ := H
    rw [h1]
    simp only [Layout.ok_bind, if_neg hT]
    have hlen := h2.length_eq
    cases gs with
    | nil =>
      refine ⟨none, rfl, ?_⟩
      exact List.eq_nil_of_length_eq_zero hlen.symm
    | cons g gs =>
      obtain ⟨y, y1, y2, y3⟩ := stepsOut_ok l hl (N := N) (E := E) hR (g :: gs) (by simp)
      refine ⟨some y, ?_, ?_, ?_⟩
      · rw [y1]; rfl
      · rw [y2, hlen]
      · intro j hj
        obtain ⟨z, z1, z2⟩ := y3 j (by rw [hlen]; exact hj)
        rw [z2]
        have := h2.get (i := j) (by rw [hlen]; exact hj) hj
        simp only [List.get_eq_getElem] at this
        rw [z1] at this
        exact this

/-- **C65**, `forward`: the output clip has, along the time axis, the rows that torch's attention (`full`) returns for the
frames of the inputs along that axis. -/
theorem C65_forward (l : Lay) (hl : l.batchFirst = true ∨ l.embedSecond = false) {N T T' E : Nat}
    (full : Tensor F → Tensor F → Tensor F → Except Err (Tensor F))
    (hfull : ∀ q k v z, full q k v = .ok z → q.shape = [T', N, E] → z.shape = [T', N, E]) (q k v : Tensor F)
    (hq : q.shape = l.clip N T' E) (hk : k.shape = l.clip N T E) (hv : v.shape = l.clip N T E) :
    ∃ q' k' v', q'.shape = [T', N, E] ∧ k'.shape = [T, N, E] ∧ v'.shape = [T, N, E] ∧
      (∀ t < T', q'.select 0 t = q.select l.time t) ∧
      (∀ t < T, k'.select 0 t = k.select l.time t ∧ v'.select 0 t = v.select l.time t) ∧
      match full q' k' v' with
      | .error e => baseForward l full q k v = .error e
      | .ok z => ∃ y, baseForward l full q k v = .ok y ∧ y.shape = l.clip N T' E ∧
          ∀ t < T', y.select l.time t = z.select 0 t := by
  obtain ⟨gq, q1, q2⟩ := stepsIn_ok l hl q hq
  obtain ⟨gk, k1, k2⟩ := stepsIn_ok l hl k hk
  obtain ⟨gv, v1, v2⟩ := stepsIn_ok l hl v hv
  refine ⟨_, _, _, of3_shape (a := T') (b := N) (c := E) gq, of3_shape (a := T) (b := N) (c := E) gk,
    of3_shape (a := T) (b := N) (c := E) gv, fun t ht => ?_, fun t ht => ⟨?_, ?_⟩, ?_⟩
  · rw [q2 t ht, select3_0 _ ht]
  · rw [k2 t ht, select3_0 _ ht]
  · rw [v2 t ht, select3_0 _ ht]
  simp only [baseForward, q1, k1, v1, Layout.ok_bind]
  cases hf : full (of3 T' N E gq) (of3 T N E gk) (of3 T N E gv) with
  | error e => rfl
  | ok z =>
    have hz := hfull _ _ _ _ hf rfl
    have e := eq_of3 z (fun i j k => z.get [i, j, k]) hz fun _ _ _ _ _ _ => rfl
    simp only [Layout.ok_bind]
    rw [e]
    clear hq hk hv q1 k1 v1 q2 k2 v2
    obtain ⟨kind, bf, eds⟩ := l
    cases bf <;> cases eds
    · exact ⟨_, rfl, rfl, fun t _ => rfl⟩
    · simp at hl
    · refine ⟨of3 N T' E fun i j k => z.get [j, i, k], ?_, rfl, fun t ht => ?_⟩
      · simp only [when, if_true, transpose3_10, Layout.ok_bind]; rfl
      · exact (select3_1 _ ht).trans (select3_0 (fun i j k => z.get [i, j, k]) ht).symm
    · refine ⟨of3 N E T' fun i k j => z.get [j, i, k], ?_, rfl, fun t ht => ?_⟩
      · simp only [when, if_true, transpose3_10, Layout.ok_bind, permute3_021]
      · exact (select3_2 _ ht).trans (select3_0 (fun i j k => z.get [i, j, k]) ht).symm

/-- The query that `single_output_forward` selects is a clip of one frame. -/
theorem C65_single_forward (l : Lay) (hl : l.batchFirst = true ∨ l.embedSecond = false) {N T E i : Nat} (hi : i < T)
    (full : Tensor F → Tensor F → Tensor F → Except Err (Tensor F)) (q k v : Tensor F) (hq : q.shape = l.clip N T E) :
    ∃ q1, q1.shape = l.clip N 1 E ∧ q1.select l.time 0 = q.select l.time i ∧
      singleForward l full i q k v = baseForward l full q1 k v := by
  obtain ⟨kind, bf, eds⟩ := l
  cases bf <;> cases eds
  · have e := eq_of3 q (fun i j k => q.get [i, j, k]) hq fun _ _ _ _ _ _ => rfl
    rw [e]
    refine ⟨of3 1 N E fun _ j k => q.get [i, j, k], rfl, ?_, ?_⟩
    · exact (select3_0 _ (by decide)).trans (select3_0 (fun i j k => q.get [i, j, k]) hi).symm
    · simp only [singleForward, Bool.false_eq_true, if_false, select3_0 _ hi, Layout.ok_bind, unsqueeze2_0]
  · simp at hl
  · have e := eq_of3 q (fun i j k => q.get [i, j, k]) hq fun _ _ _ _ _ _ => rfl
    rw [e]
    refine ⟨of3 N 1 E fun j _ k => q.get [j, i, k], rfl, ?_, ?_⟩
    · exact (select3_1 _ (by decide)).trans (select3_1 (fun i j k => q.get [i, j, k]) hi).symm
    · simp only [singleForward, Bool.false_eq_true, if_true, if_false, select3_1 _ hi, Layout.ok_bind, unsqueeze2_1]
  · have e := eq_of3 q (fun i j k => q.get [i, j, k]) hq fun _ _ _ _ _ _ => rfl
    rw [e]
    refine ⟨of3 N E 1 fun j k _ => q.get [j, k, i], rfl, ?_, ?_⟩
    · exact (select3_2 _ (by decide)).trans (select3_2 (fun i j k => q.get [i, j, k]) hi).symm
    · simp only [singleForward, if_true, select3_2 _ hi, Layout.ok_bind, unsqueeze2_2]

/-- **C65** fails for single-output attention without `batch_first`: if `forward_steps` returns a clip for a batch other
than one, then each of its frames has an axis too many (`(1, N, E)`), whereas `forward_step` returns `(N, E)`. -/
theorem C65_batch_second_refuted (l : Lay) (hk : l.kind = .single) (hb : l.batchFirst = false) (he : l.embedSecond = false)
    {N T E : Nat} (hN : N ≠ 1) (core : Core F S) (hc : Shaped core 1 N E) (q k v : Tensor F)
    (hq : q.shape = l.clip N T E) (hk' : k.shape = l.clip N T E) (hv : v.shape = l.clip N T E) (s s' : S) (y : Tensor F)
    (h : forwardSteps l core s q k v = .ok (some y, s')) :
    ∃ n, y.shape = [n, 1, N, E] ∧
      ∀ s q k v z s', q.shape = [N, E] → k.shape = [N, E] → v.shape = [N, E] →
        forwardStep l core s q k v = .ok (some z, s') → z.shape = [N, E] := by
  obtain ⟨kind, bf, eds⟩ := l
  simp only at hk hb he
  subst hk hb he
  have hl : Lay.ok ⟨.retro, false, false⟩ := .inr ⟨rfl, rfl⟩
  obtain ⟨gq, q1, q2⟩ := stepsIn_ok ⟨.retro, false, false⟩ (.inr rfl) q hq
  obtain ⟨gk, k1, k2⟩ := stepsIn_ok ⟨.retro, false, false⟩ (.inr rfl) k hk'
  obtain ⟨gv, v1, v2⟩ := stepsIn_ok ⟨.retro, false, false⟩ (.inr rfl) v hv
  have H := loop_ok ⟨.retro, false, false⟩ hl (R := 1) (fun h => by cases h) hc q2 k2 v2 (List.range T)
    (fun t h => List.mem_range.1 h) s
  have q1' : stepsIn ⟨.single, false, false⟩ q = .ok (of3 T N E gq) := q1
  have k1' : stepsIn ⟨.single, false, false⟩ k = .ok (of3 T N E gk) := k1
  have v1' : stepsIn ⟨.single, false, false⟩ v = .ok (of3 T N E gv) := v1
  simp only [forwardSteps, q1', k1', v1', Layout.ok_bind, of3_shape, List.headD_cons, and_self, if_true] at h
  refine ⟨y.shape.headD 0, ?_, ?_⟩
  · cases hf : frameByFrame ⟨.retro, false, false⟩ core q k v s (List.range T) with
    | error e =>
      rw [hf] at H
      simp only at H
      rw [H] at h
      cases h
    | ok r =>
      obtain ⟨os, s1⟩ := r
      rw [hf] at H
      obtain ⟨gs, h1, _⟩ := H
      rw [h1] at h
      simp only [Layout.ok_bind] at h
      by_cases hT : T = 0
      · rw [if_pos hT] at h; cases h
      rw [if_neg hT] at h
      cases gs with
      | nil => simp at h
      | cons g gs =>
        have hm : ((g :: gs).map (of3 1 N E)).mapM (when false (·.transpose 0 1)) = .ok ((g :: gs).map (of3 1 N E)) :=
          (mapM_ok (when false (·.transpose 0 1)) id _ fun _ _ => rfl).trans (by rw [List.map_id])
        have hs := stack3_0 (a := 1) (b := N) (c := E) (g :: gs) (by simp)
        have hso : stepsOut ⟨.single, false, false⟩ ((g :: gs).map (of3 1 N E)) =
            .ok (of4 (g :: gs).length 1 N E fun t i j k => ((g :: gs).getD t fun _ _ _ => 0) i j k) := by
          simp only [stepsOut, hm, Layout.ok_bind]
          refine (congrArg (· >>= _) hs).trans ?_
          simp only [Layout.ok_bind, squeeze4_2_id _ hN]
          rfl
        rw [if_neg (by simp), hso] at h
        cases h
        rfl
  · intro s q k v z s' hq hk hv hz
    unfold forwardStep at hz
    cases hcore : core s q k v with
    | error e => rw [hcore] at hz; cases hz
    | ok r =>
      obtain ⟨o, s1⟩ := r
      rw [hcore] at hz
      cases o with
      | none => cases hz
      | some o =>
        have ho := hc _ _ _ _ _ _ hcore hq hk hv
        have e := eq_of3 o (fun i j k => o.get [i, j, k]) ho fun _ _ _ _ _ _ => rfl
        rw [e] at hz
        have : stepOut ⟨.single, false, false⟩ (of3 1 N E fun i j k => o.get [i, j, k]) =
            .ok (of2 N E fun i j => o.get [0, i, j]) := squeeze3_0 _
        simp only [this, Except.map] at hz
        cases hz
        rfl

/-- The steps of a stream one after the other, by the step `f`. -/
def Spec.oneByOne (f : S → Tensor F → Tensor F → Tensor F → Except Err (Option (Tensor F) × S)) :
    S → List (Tensor F × Tensor F × Tensor F) → Except Err (List (Option (Tensor F)) × S)
  | s, [] => .ok ([], s)
  | s, (q, k, v) :: fs => do
    let (o, s') ← f s q k v
    let (os, s'') ← Spec.oneByOne f s' fs
    return (o :: os, s'')

theorem Layout.functionalStep_eq (l : Lay) {R N E : Nat} (hR : l.kind = .single → R = 1) (core : Core F S)
    (hc : Shaped core R N E) (s : S) (q k v : Tensor F) (hq : q.shape = [N, E]) (hk : k.shape = [N, E])
    (hv : v.shape = [N, E]) : functionalStep l core s q k v = forwardStep l core s q k v := by
  unfold functionalStep forwardStep
  cases hcore : core s q k v with
  | error e => rfl
  | ok r =>
    obtain ⟨o, s1⟩ := r
    cases o with
    | none => rfl
    | some o =>
      have ho := hc _ _ _ _ _ _ hcore hq hk hv
      have e := eq_of3 o (fun i j k => o.get [i, j, k]) ho fun _ _ _ _ _ _ => rfl
      have : functionalOut l o = stepOut l o := by
        rw [e]
        obtain ⟨kind, bf, eds⟩ := l
        cases kind with
        | retro => rfl
        | single =>
          obtain rfl := hR rfl
          cases bf
          · rfl
          · simp only [functionalOut, stepOut, when, if_true, transpose3_10, Layout.ok_bind, squeeze3_1, squeeze3_0]
      simp only [this]

/-- **C65**, the functional step, for every axis order: stepping an attention module functionally, as a container does that
is itself stepped functionally, returns for each frame the very tensor that `forward_step` returns, and leads to the same
state. -/
theorem C65_functional (l : Lay) {R N E : Nat} (hR : l.kind = .single → R = 1) (core : Core F S) (hc : Shaped core R N E)
    (fs : List (Tensor F × Tensor F × Tensor F))
    (hf : ∀ f ∈ fs, f.1.shape = [N, E] ∧ f.2.1.shape = [N, E] ∧ f.2.2.shape = [N, E]) (s : S) :
    Spec.oneByOne (functionalStep l core) s fs = Spec.oneByOne (forwardStep l core) s fs := by
  induction fs generalizing s with
  | nil => rfl
  | cons f fs ih =>
    obtain ⟨q, k, v⟩ := f
    obtain ⟨h1, h2, h3⟩ := hf (q, k, v) (by simp)
    have ih' := ih (fun f h => hf f (by simp [h]))
    simp only [Spec.oneByOne, Layout.functionalStep_eq l hR core hc s q k v h1 h2 h3, ih']

/-! ### Examples -/

/-- A step that counts frames and returns the sum of its inputs, with a first axis of size one, from the second frame
on. -/
def exCore : Core Int Nat := fun s q k v =>
  .ok (if s = 0 then none else some (Tensor.of (1 :: q.shape) fun idx => q.get idx.tail + k.get idx.tail + v.get idx.tail),
    s + 1)

theorem exCore_shaped (N E : Nat) : Shaped exCore 1 N E := by
  intro s q k v o s' h hq _ _
  unfold exCore at h
  split at h
  · cases h
  · cases h
    simp [hq]

/-- A clip of three frames for a batch of two. -/
def exClip : Tensor Int := Tensor.of [2, 3, 2] fun idx => idx.getD 0 0 * 100 + idx.getD 1 0 * 10 + idx.getD 2 0

example : ((forwardSteps ⟨.single, true, false⟩ exCore 0 exClip exClip exClip).toOption.bind (·.1)).map (·.shape) =
    some [2, 2, 2] := by decide +kernel

example : (frameByFrame ⟨.single, true, false⟩ exCore exClip exClip exClip 0 (List.range 3)).toOption.map
    (fun r => r.1.map (Option.map (·.shape))) = some [none, some [2, 2], some [2, 2]] := by decide +kernel

/-- Two frames. -/
def exStepFrame (i : Int) : Tensor Int := Tensor.of [2, 2] fun idx => i + idx.getD 0 0 * 10 + idx.getD 1 0

example : (Spec.oneByOne (functionalStep ⟨.single, true, false⟩ exCore) 0
      ((List.range 3).map fun i => (exStepFrame i, exStepFrame i, exStepFrame i))).toOption.map
    (fun r => (r.1.map (Option.map (·.shape)), r.2)) = some ([none, some [2, 2], some [2, 2]], 3) := by decide +kernel

/-- The clip of the refutation: three frames of a batch of two, time first. -/
def exTime : Tensor Int := Tensor.of [3, 2, 2] fun idx => idx.getD 0 0 * 100 + idx.getD 1 0 * 10 + idx.getD 2 0

example : ((forwardSteps ⟨.single, false, false⟩ exCore 0 exTime exTime exTime).toOption.bind (·.1)).map (·.shape) =
    some [2, 1, 2, 2] := by decide +kernel

end CoInf
