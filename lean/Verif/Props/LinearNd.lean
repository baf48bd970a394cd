/-
Property C67: `Linear` with a `channel_dim`, on clips and on frames.
-/
import Verif.Lemmas.LinearNd
import Mathlib.Algebra.Ring.Int.Defs

set_option autoImplicit false

namespace CoInf.LinearNd
open Tensor
variable {F : Type} [CommSemiring F]


/-- The bias as a function, zero for `bias=False`. -/
def biasFn (c : Cfg F) : Nat → F := c.bias.getD fun _ => 0

/-- **C67**: on a tensor of any rank, `forward` applies `W x + b` along the axis that `channel_dim` denotes, if that axis
has `in_features` entries. -/
theorem C67_forward (c : Cfg F) (x : Tensor F) (k : Nat) (hk : axis x.shape.length c.channelDim = .ok k)
    (hn : x.shape[k]? = some c.nin) :
    ∃ y, forward c x = .ok y ∧ Spec.AffineAlong k c.nin c.nout c.weight (biasFn c) x y := by
  refine ⟨_, forward_along c x k hk hn, hn, rfl, fun idx hi => ?_⟩
  rw [along, of_get, if_pos (show within idx (x.shape.set k c.nout) = true from hi)]
  have hs : ((List.range c.nin).map fun i => x.get (idx.set k i) * c.weight (idx.getD k 0) i) =
      (List.range c.nin).map fun i => c.weight (idx.getD k 0) i * x.get (idx.set k i) :=
    List.map_congr_left fun i _ => mul_comm _ _
  simp only [hs, biasFn]
  cases c.bias <;> simp

/-- The channel axis `k` of the clip, and the axis `channel_dim` denotes on a frame (a clip without its axis `τ`), are
the same axis: it is before `τ` and counted from the front, or after `τ` and counted from the end. -/
def SameSide (d : Int) (k τ : Nat) : Prop := (0 ≤ d ∧ k < τ) ∨ (d < 0 ∧ τ < k)

theorem erase_get {α : Type} (s : List α) {k τ : Nat} (h : k ≠ τ) :
    (s.eraseIdx τ)[if k < τ then k else k - 1]? = s[k]? := by
  rw [List.getElem?_eraseIdx]
  by_cases hlt : k < τ
  · simp [hlt]
  · rw [if_neg hlt, if_neg (by omega), Nat.sub_add_cancel (by omega)]

theorem along_select (c : Cfg F) (x : Tensor F) {k τ t T : Nat} (hn : x.shape[k]? = some c.nin) (hT : x.shape[τ]? = some T)
    (ht : t < T) (hkt : k ≠ τ) :
    (along c k x).select τ t = (x.select τ t).map (along c (if k < τ then k else k - 1)) := by
  have hT' : (along c k x).shape[τ]? = some T := by
    show (x.shape.set k c.nout)[τ]? = _
    rw [List.getElem?_set, if_neg hkt, hT]
  have hτ : τ < x.shape.length := by
    by_contra hh
    rw [List.getElem?_eq_none (by omega)] at hT
    cases hT
  unfold select
  rw [hT', hT]
  simp only [ht, if_true, Except.map]
  congr 1
  have hsh : (along c k x).shape.eraseIdx τ = (x.shape.eraseIdx τ).set (if k < τ then k else k - 1) c.nout := by
    show (x.shape.set k c.nout).eraseIdx τ = _
    split
    · exact erase_set_before _ _ (by assumption)
    · exact erase_set_after _ _ (by omega)
  refine of_congr hsh fun idx hi => ?_
  have hw := within_insert hT' ht hi
  have hlen : idx.length = x.shape.length - 1 := by
    have := within_length hi
    rw [hsh, List.length_set, List.length_eraseIdx, if_pos hτ] at this
    exact this
  have hg : (idx.insertIdx τ t).getD k 0 = idx.getD (if k < τ then k else k - 1) 0 := by
    rw [List.getD_eq_getElem?_getD, List.getD_eq_getElem?_getD, List.getElem?_insertIdx]
    split
    · rfl
    · rfl
  have hset : ∀ i, (idx.insertIdx τ t).set k i = (idx.set (if k < τ then k else k - 1) i).insertIdx τ t := by
    intro i
    split
    · exact insert_set_before _ _ _ (by assumption)
    · exact insert_set_after _ _ _ (by omega)
  have hx : ∀ i, i < c.nin → x.get ((idx.insertIdx τ t).set k i) =
      (of (x.shape.eraseIdx τ) fun idx => x.get (idx.insertIdx τ t)).get (idx.set (if k < τ then k else k - 1) i) := by
    intro i hin
    rw [of_get, if_pos, hset]
    have hi' := hi
    rw [hsh] at hi'
    obtain ⟨h1, h2⟩ := (within_iff _ _).1 hi'
    refine (within_iff _ _).2 ⟨by simpa using h1, fun m a n ha hb => ?_⟩
    by_cases hm : m = if k < τ then k else k - 1
    · subst hm
      rw [List.getElem?_set, if_pos rfl] at ha
      have hb' : (x.shape.eraseIdx τ)[if k < τ then k else k - 1]? = some c.nin := by
        rw [erase_get _ hkt, hn]
      rw [hb'] at hb
      by_cases hlt : (if k < τ then k else k - 1) < idx.length
      · rw [if_pos hlt] at ha
        cases ha; cases hb; exact hin
      · rw [if_neg hlt] at ha
        cases ha
    · rw [List.getElem?_set, if_neg (Ne.symm hm)] at ha
      exact h2 m a n ha (by rw [List.getElem?_set, if_neg (Ne.symm hm)]; exact hb)
  have hs : ((List.range c.nin).map fun i => x.get ((idx.insertIdx τ t).set k i) * c.weight (idx.getD (if k < τ then k else k - 1) 0) i)
      = (List.range c.nin).map fun i => (of (x.shape.eraseIdx τ) fun idx => x.get (idx.insertIdx τ t)).get (idx.set (if k < τ then k else k - 1) i)
        * c.weight (idx.getD (if k < τ then k else k - 1) 0) i :=
    List.map_congr_left fun i hi => by rw [hx i (List.mem_range.1 hi)]
  rw [along, of_get, if_pos (show within _ (x.shape.set k c.nout) = true from hw)]
  simp only [hg, hs]

/-- **C67**: for a clip of any rank with time axis `τ` and the channels on the same side, `forward_steps` on the clip, cut
at any time, is `forward_step` on the frame of that time.

Missing from the full property: it fails if `channel_dim` counts over the time axis, `C67_negative_refuted` and
`C67_refuted`. -/
theorem C67_frames_partial (c : Cfg F) (x : Tensor F) (k τ T : Nat) (hk : axis x.shape.length c.channelDim = .ok k)
    (hn : x.shape[k]? = some c.nin) (hT : x.shape[τ]? = some T) (side : SameSide c.channelDim k τ) :
    ∃ y, forwardSteps c x = .ok y ∧ forward c x = .ok y ∧ y.shape[τ]? = some T ∧
      ∀ t < T, ∃ f g, x.select τ t = .ok f ∧ forwardStep c f = .ok g ∧ y.select τ t = .ok g := by
  have hf := forward_along c x k hk hn
  have hkt : k ≠ τ := by unfold SameSide at side; omega
  have hτ : τ < x.shape.length := by
    by_contra hh
    rw [List.getElem?_eq_none (by omega)] at hT
    cases hT
  refine ⟨along c k x, hf, hf, ?_, fun t ht => ?_⟩
  · show (x.shape.set k c.nout)[τ]? = _
    rw [List.getElem?_set, if_neg hkt, hT]
  have hsel : x.select τ t = .ok (of (x.shape.eraseIdx τ) fun idx => x.get (idx.insertIdx τ t)) := by
    unfold select; rw [hT]; simp only [ht, if_true]
  refine ⟨_, along c (if k < τ then k else k - 1) (of (x.shape.eraseIdx τ) fun idx => x.get (idx.insertIdx τ t)), hsel, ?_, ?_⟩
  · refine forward_along c _ _ ?_ ?_
    · rw [of_shape, List.length_eraseIdx, if_pos hτ]
      unfold axis at hk ⊢
      rcases side with ⟨h1, h2⟩ | ⟨h1, h2⟩
      · rw [if_pos h1] at hk ⊢
        split at hk
        · injection hk with hk
          rw [if_pos (by omega), if_pos h2, hk]
        · cases hk
      · rw [if_neg (by omega)] at hk ⊢
        split at hk
        · injection hk with hk
          rw [if_pos (by omega), if_neg (by omega)]
          congr 1
          omega
        · cases hk
    · rw [of_shape, erase_get _ hkt, hn]
  · rw [along_select c x hn hT ht hkt, hsel]
    rfl

/-- **C67**, refuted for `channel_dim=-2` on clips `(B, C, T)`: `forward` and `forward_steps` project the channels, but
every `forward_step` raises unless there are as many batch entries as channels. -/
theorem C67_negative_refuted (c : Cfg F) (hd : c.channelDim = -2) (x : Tensor F) (B T : Nat) (hx : x.shape = [B, c.nin, T])
    (hB : B ≠ c.nin) :
    (∃ y, forwardSteps c x = .ok y ∧ Spec.AffineAlong 1 c.nin c.nout c.weight (biasFn c) x y) ∧
    ∀ t < T, ∃ f, x.select 2 t = .ok f ∧ forwardStep c f = .error .runtime := by
  refine ⟨C67_forward c x 1 (by rw [hx, hd]; rfl) (by rw [hx]; rfl), fun t ht => ?_⟩
  refine ⟨of [B, c.nin] fun idx => x.get (idx.insertIdx 2 t), ?_, ?_⟩
  · unfold select
    simp [hx, ht]
  · unfold forwardStep forward
    rw [hd]
    simp [transpose, axis, swap, bind, Except.bind, linear, hB]

/-- As many batch entries as channels, two; `channel_dim=-2`. -/
def exMix : Cfg Int := ⟨2, 2, fun o i => if o = 0 then (if i = 0 then 1 else 0) else 1, none, -2⟩

/-- Two batch entries, two channels, one time. -/
def exMixClip : Tensor Int := Tensor.of [2, 2, 1] fun idx => 10 * idx.getD 0 0 + idx.getD 1 0

/-- **C67**, refuted: otherwise `forward_step` raises no error, but mixes the batch entries. -/
theorem C67_refuted : ∃ y f g, forwardSteps exMix exMixClip = .ok y ∧ exMixClip.select 2 0 = .ok f ∧
    forwardStep exMix f = .ok g ∧ y.select 2 0 ≠ .ok g := by
  obtain ⟨y, hy, _⟩ := C67_forward exMix exMixClip 1 rfl rfl
  obtain ⟨g, hg, _⟩ := C67_forward exMix (of [2, 2] fun idx => exMixClip.get (idx.insertIdx 2 0)) 0 rfl rfl
  have hf : exMixClip.select 2 0 = .ok (of [2, 2] fun idx => exMixClip.get (idx.insertIdx 2 0)) := rfl
  refine ⟨y, _, g, hy, hf, hg, fun h => ?_⟩
  have e : ((forwardSteps exMix exMixClip).bind fun y => y.select 2 0).toOption.map (fun g => g.get [1, 1]) ≠
      ((exMixClip.select 2 0).bind (forwardStep exMix)).toOption.map (fun g => g.get [1, 1]) := by
    decide +kernel
  apply e
  rw [hf, show forwardSteps exMix exMixClip = .ok y from hy]
  show (y.select 2 0).toOption.map _ = (forward exMix _).toOption.map _
  rw [h, hg]

/-! ### Examples -/

/-- Channels second, `channel_dim=1`, three output features. -/
def exLin : Cfg Int := ⟨2, 3, fun o i => 2 * o + i, some fun o => o, 1⟩

/-- Two batch entries, two channels, four times. -/
def exLinClip : Tensor Int := Tensor.of [2, 2, 4] fun idx => 100 * idx.getD 0 0 + 10 * idx.getD 1 0 + idx.getD 2 0

example : axis exLinClip.shape.length exLin.channelDim = .ok 1 ∧ exLinClip.shape[1]? = some exLin.nin ∧
    exLinClip.shape[2]? = some 4 ∧ SameSide exLin.channelDim 1 2 := ⟨rfl, rfl, rfl, .inl ⟨by decide, by decide⟩⟩

example : (forward exLin exLinClip).toOption.map (fun y => (y.shape, y.get [1, 2, 3])) =
    some ([2, 3, 4], 4 * 103 + 5 * 113 + 2) := by decide +kernel

example : exMix.channelDim = -2 ∧ (Tensor.of [1, 2, 3] fun _ => (0 : Int)).shape = [1, exMix.nin, 3] ∧ 1 ≠ exMix.nin :=
  ⟨rfl, rfl, by decide⟩

end CoInf.LinearNd
