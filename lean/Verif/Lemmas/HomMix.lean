/-
Translations of modules that combine the entries of a batch linearly.
-/
import Verif.Lemmas.HomNd
import Mathlib.Algebra.Module.Pi
import Mathlib.Algebra.Module.BigOperators
import Mathlib.Algebra.BigOperators.Field

set_option autoImplicit false

namespace CoInf

/-- Linear combinations of the entries of a batch: entry `b'` of the result is `∑ b, A b' b • x b`. -/
@[reducible] def mix {R β β' V : Type} [Semiring R] [Fintype β] [AddCommMonoid V] [Module R V] (A : β' → β → R) (x : β → V) :
    β' → V := fun b' => ∑ b, A b' b • x b

/-- The same for tensors whose channels are indexed together with the batch. -/
@[reducible] def mixCh {R β β' Ch V : Type} [Semiring R] [Fintype β] [AddCommMonoid V] [Module R V] (A : β' → β → R)
    (x : β × Ch → V) : β' × Ch → V := fun q => ∑ b, A q.1 b • x (b, q.2)

namespace ConvNd
variable {R β β' : Type} [CommRing R] [Fintype β] (c : Cfg R) (A : β' → β → R)

/-- The coefficients fit the bias. -/
def Fit (bias : Option (Fin (c.groups * c.coutG) → R)) : Prop := bias.isSome → ∀ b', ∑ b, A b' b = 1

theorem mix_temporal_hom (hA : Fit c A c.bias) :
    Conv.CfgHom (temporal (β := β) c) (temporal (β := β') c) (mix A) (mix A) where
  K := rfl
  S := rfl
  P := rfl
  fill := rfl
  padMode := rfl
  bias := by
    simp only [temporal]
    cases hb : c.bias with
    | none => rfl
    | some v =>
      simp only [Option.map_some]
      congr 1
      funext b' o p
      simp only [mix, Finset.sum_apply, Pi.smul_apply, smul_eq_mul]
      rw [← Finset.sum_mul, hA (by rw [hb]; rfl) b', one_mul]
  zeroX := by funext b'; simp [mix]
  zeroY := by funext b'; simp [mix]
  add := fun x y => by funext b'; simp [mix, smul_add, Finset.sum_add_distrib]

theorem padFrame_mix (x : Frame β c) : padFrame c (mix A x) = mix A (padFrame c x) := by
  funext b' ch q
  simp only [mix, Finset.sum_apply, Pi.smul_apply, padFrame]
  cases c.padMode with
  | zeros => by_cases hq : ∀ j, c.pad j ≤ q j ∧ q j - c.pad j < c.h j <;> simp [hq]
  | replicate => by_cases hq : ∀ j, min (q j - c.pad j) (c.h j - 1) < c.h j <;> simp [hq]

theorem convFunc_mix (st pt : Nat) (bias : Option (Fin (c.groups * c.coutG) → R)) (hA : Fit c A bias)
    (zs : List (Padded β c)) :
    convFunc c st pt bias (zs.map (mix A)) = (convFunc c st pt bias zs).map (List.map (mix A)) := by
  unfold convFunc
  simp only [List.length_map]
  split
  · rfl
  · simp only [Except.map, List.map_map]
    congr 1
    apply List.map_congr_left
    intro t _
    funext b' o p
    simp only [Function.comp_def, mix, List.getElem?_map, Finset.sum_apply, Pi.smul_apply, smul_eq_mul, mul_add,
      Finset.sum_add_distrib]
    congr 1
    · simp only [Finset.mul_sum]
      conv_rhs => rw [Finset.sum_comm]
      refine Finset.sum_congr rfl fun ci _ => ?_
      conv_rhs => rw [Finset.sum_comm]
      refine Finset.sum_congr rfl fun kt _ => ?_
      conv_rhs => rw [Finset.sum_comm]
      refine Finset.sum_congr rfl fun ks _ => ?_
      split
      · cases zs[t * st + kt - pt]? with
        | none => simp
        | some z =>
          simp only [Option.map_some]
          split
          · simp only [mix, Finset.sum_apply, Pi.smul_apply, smul_eq_mul, Finset.mul_sum]
            exact Finset.sum_congr rfl fun b _ => by ring
          · simp
      · simp
    · cases bias with
      | none => simp
      | some v => rw [← Finset.sum_mul, hA rfl b', one_mul]

theorem forward_mix (hA : Fit c A c.bias) (xs : List (Frame β c)) :
    forward c (xs.map (mix A)) = (forward c xs).map (List.map (mix A)) := by
  have hpad : ∀ zs : List (Frame β c),
      (zs.map (mix A)).map (padFrame c) = (zs.map (padFrame c)).map (mix A) := by
    intro zs
    simp only [List.map_map]
    exact List.map_congr_left fun x _ => padFrame_mix c A x
  unfold forward
  rw [List.head?_map, List.getLast?_map]
  cases c.padMode with
  | zeros =>
    cases xs.head? with
    | none => rfl
    | some a => simp only [Option.map_some, hpad, convFunc_mix c A _ _ _ hA]
  | replicate =>
    cases xs.head? with
    | none => rfl
    | some a =>
      cases xs.getLast? with
      | none => rfl
      | some b =>
        have : List.replicate c.P (mix A a) ++ xs.map (mix A) ++ List.replicate c.P (mix A b) =
            (List.replicate c.P a ++ xs ++ List.replicate c.P b).map (mix A) := by
          simp
        simp only [Option.map_some, this, hpad, convFunc_mix c A _ _ _ hA]

theorem pstep_mix (hA : Fit c A c.bias) (x : Frame β c) (s : Option (Conv.St (OutFrame β c))) :
    pstep c (mix A x) (s.map (Conv.St.map (mix A))) =
      (pstep c x s).map fun p => (p.1.map (mix A), p.2.map (Conv.St.map (mix A))) := by
  have h := mix_temporal_hom c A hA
  unfold pstep
  rw [h.stateless]
  split
  · have := forward_mix c A hA [x]
    rw [List.map_singleton] at this
    rw [this]
    cases forward c [x] with
    | error e => rfl
    | ok ys =>
      simp only [Except.map, pyGet_map]
      cases pyGet ys 0 <;> rfl
  · have := convFunc_mix c A 1 (c.K - 1) none (by intro h; cases h) [padFrame c x]
    rw [List.map_singleton] at this
    rw [padFrame_mix, this]
    cases convFunc c 1 (c.K - 1) none [padFrame c x] with
    | error e => rfl
    | ok ys =>
      simp only [Except.map, pyGet_map]
      cases pyGet ys 0 with
      | error e => rfl
      | ok xOut =>
        have key : ∀ st : Conv.St (OutFrame β c),
            (match Conv.output (temporal (β := β') c) (Conv.St.map (mix A) st) (mix A xOut) with
              | .error e => .error e
              | .ok out => match Conv.writeBack (temporal (β := β') c) (Conv.St.map (mix A) st)
                  ((ys.drop 1).map (mix A)) with
                | .error e => .error e
                | .ok next => .ok (out, some ⟨next.1, next.2,
                    Conv.nextStride c.S (Conv.St.map (mix A) st).strideIndex⟩)) =
            Except.map (fun p : Option (OutFrame β c) × Option (Conv.St (OutFrame β c)) =>
                (p.1.map (mix A), p.2.map (Conv.St.map (mix A))))
              (match Conv.output (temporal (β := β) c) st xOut with
              | .error e => .error e
              | .ok out => match Conv.writeBack (temporal (β := β) c) st (ys.drop 1) with
                | .error e => .error e
                | .ok next => .ok (out, some ⟨next.1, next.2, Conv.nextStride c.S st.strideIndex⟩)) := by
          intro st
          rw [h.output, h.writeBack]
          cases Conv.output (temporal (β := β) c) st xOut with
          | error e => rfl
          | ok out =>
            simp only [Except.map]
            cases Conv.writeBack (temporal (β := β) c) st (ys.drop 1) <;> rfl
        simp only [← List.map_drop]
        cases s with
        | some st => exact key st
        | none =>
          simp only [Option.map_none, h.initState]
          exact key _

theorem mix_leafHom (hA : Fit c A c.bias) : LeafHom (leaf (β := β) c) (leaf (β := β') c) (mix A) (mix A)
    (Conv.St.map (mix A)) (Conv.St.map (mix A)) where
  init := rfl
  clean := fun _ => rfl
  get := fun i => by
    simp only [Conv.St.map, List.length_map]
    split <;> rfl
  set := fun _ _ => rfl
  pstep := pstep_mix c A hA
  padding := rfl
  makePad := fun x => Conv.fill_make_map (mix_temporal_hom c A hA).zeroX c.fill x

theorem mix_hom (hA : Fit c A c.bias) : Hom (mod (β := β) c) (mod (β := β') c) (.stream (mix A)) (.stream (mix A))
    (Conv.St.map (mix A)) where
  init := rfl
  clean := fun _ => rfl
  fwd := fun i xs => by simp only [forward_mix c A hA]; cases forward c xs <;> rfl
  step := (mix_leafHom c A hA).forwardStep
  steps := (mix_leafHom c A hA).forwardSteps

end ConvNd

namespace PoolNd
variable {R β β' Ch : Type} [Field R] [Fintype β] (A : β' → β → R)

theorem spSum_mix (c : Avg) (x : Frame R (β × Ch) c.shape) (q : β' × Ch) (p) :
    c.spSum (mixCh A x) q p = ∑ b, A q.1 b * c.spSum x (b, q.2) p := by
  simp only [Avg.spSum, Finset.mul_sum]
  rw [Finset.sum_comm]
  refine Finset.sum_congr rfl fun κ _ => ?_
  simp only [padded]
  split <;> simp [mixCh]

theorem Avg.mix_hom (c : Avg) :
    Hom (c.mod (R := R) (β := β × Ch)) (c.mod (R := R) (β := β' × Ch)) (.stream (mixCh A)) (.stream (mixCh A))
      (Pool.St.map (mixCh A)) := by
  apply PoolNd.hom
  · refine ⟨rfl, rfl, rfl, rfl, ?_, ?_, ?_, ?_⟩
    · intro x
      funext q p
      simp only [Avg.cfg, Avg.spatial, spSum_mix, mixCh, Finset.sum_apply, Pi.smul_apply, smul_eq_mul, Finset.sum_div, mul_div_assoc]
    · intro ys
      funext q p
      simp only [Avg.cfg, mixCh, Finset.sum_apply, Pi.smul_apply, smul_eq_mul, List.length_map, List.map_map, Function.comp_def]
      simp only [← mul_div_assoc]
      rw [← Finset.sum_div]
      congr 1
      induction ys with
      | nil => simp
      | cons y ys ih => simp only [List.map_cons, List.sum_cons, mul_add, Finset.sum_add_distrib, ih]
    · intro x; exact Conv.fill_make_map (by funext q; simp [mixCh]) c.fill x
    · intro x; exact Conv.fill_make_map (by funext q; simp [mixCh]) c.fill x
  · intro xs
    unfold Avg.forward
    simp only [List.length_map, List.map_eq_nil_iff]
    split
    · rfl
    · simp only [Except.map, List.map_map]
      congr 1
      apply List.map_congr_left
      intro t _
      funext q p
      simp only [Function.comp_def, List.getElem?_map, mixCh, Finset.sum_apply, Pi.smul_apply, smul_eq_mul]
      simp only [← mul_div_assoc]
      rw [← Finset.sum_div]
      congr 1
      simp only [Finset.mul_sum]
      rw [Finset.sum_comm]
      apply Finset.sum_congr rfl; intro k _
      split
      · cases xs[t * c.refTime.s + k - c.refTime.p]? with
        | none => simp
        | some x => simp only [Option.map_some]; exact spSum_mix A c x q p
      · simp

end PoolNd

end CoInf
