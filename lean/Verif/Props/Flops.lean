/-
Property C81: operation counts of the attention modules.
-/
import Verif.Model.Flops
import Mathlib.Algebra.BigOperators.Fin
import Mathlib.Tactic.Ring
import Mathlib.Tactic.Linarith

set_option autoImplicit false

namespace CoInf
open Attn Flops CallMode

namespace Flops
variable {F : Type} [Field F] {d : Nat}

theorem mem_zipWith {α β γ : Type} (f : α → β → γ) (P : γ → Prop) : ∀ (l : List α) (l' : List β),
    (∀ a ∈ l, ∀ b, P (f a b)) → ∀ x ∈ List.zipWith f l l', P x
  | [], _, _, x, hx => by simp at hx
  | _ :: _, [], _, x, hx => by simp at hx
  | a :: l, b :: l', h, x, hx => by
    rw [List.zipWith_cons_cons, List.mem_cons] at hx
    rcases hx with rfl | hx
    · exact h a (by simp) b
    · exact mem_zipWith f P l l' (fun a ha b => h a (by simp [ha]) b) x hx

theorem sum_const {α : Type} (l : List (α × Cost)) (c : Cost) (h : ∀ x ∈ l, x.2 = c) :
    (seqC l).2 = (l.length * c.1, l.length * c.2.1, l.length * c.2.2) := by
  show (l.map Prod.snd).sum = _
  have : l.map Prod.snd = List.replicate l.length c := by
    rw [List.eq_replicate_iff]
    refine ⟨by simp, fun b hb => ?_⟩
    obtain ⟨x, hx, rfl⟩ := List.mem_map.mp hb
    exact h x hx
  rw [this, List.sum_replicate]
  rfl

theorem vec_const {α : Type} (f : Fin d → α × Cost) (c : Cost) (h : ∀ e, (f e).2 = c) :
    (vecC f).2 = (d * c.1, d * c.2.1, d * c.2.2) := by
  show (∑ e, (f e).2) = _
  rw [Finset.sum_congr rfl (fun e _ => h e), Finset.sum_const, Finset.card_univ, Fintype.card_fin]
  rfl

theorem dotC_val (a b : Fin d → F) : (dotC a b).1 = ∑ e, a e * b e := by
  show (List.map Prod.fst (List.ofFn fun e => mulC (a e) (b e))).sum = _
  rw [List.map_ofFn, List.sum_ofFn]
  rfl

theorem dotC_cost (a b : Fin d → F) : (dotC a b).2 = (d, d - 1, 0) := by
  unfold dotC bindC
  simp only
  rw [sum_const _ (1, 0, 0) (by simp [List.mem_ofFn, mulC])]
  simp [sumC, seqC]

theorem mixC_val (ps : List F) (vs : List (Fin d → F)) (e : Fin d) :
    (mixC ps vs).1 e = (List.zipWith (fun p v => p * v e) ps vs).sum := by
  show (List.map Prod.fst (List.zipWith (fun p v => mulC p (v e)) ps vs)).sum = _
  rw [List.map_zipWith]
  rfl

theorem mixC_cost (ps : List F) (vs : List (Fin d → F)) (h : ps.length = vs.length) :
    (mixC ps vs).2 = (d * vs.length, d * (vs.length - 1), 0) := by
  unfold mixC
  rw [vec_const _ (vs.length, vs.length - 1, 0)]
  · simp
  · intro e
    unfold bindC
    simp only
    rw [sum_const _ (1, 0, 0) (mem_zipWith _ _ _ _ fun _ _ _ => rfl)]
    simp [sumC, seqC, h]

theorem scaleC_cost (s : F) (q : Fin d → F) : (scaleC s q).2 = (d, 0, 0) := by
  unfold scaleC
  rw [vec_const _ (1, 0, 0) fun _ => rfl]
  simp

theorem linearC_cost {a b : Nat} (w : Fin a → Fin b → F) (bias : Option (Fin a → F)) (x : Fin b → F) :
    (linearC w bias x).2 = (a * b, a * (b - 1 + if bias.isSome then 1 else 0), 0) := by
  unfold linearC
  rw [vec_const _ (b, b - 1 + if bias.isSome then 1 else 0, 0)]
  · simp
  · intro o
    unfold bindC
    simp only
    rw [dotC_cost]
    cases bias <;> rfl

theorem rowC_cost (ex : F → F) (q : Fin d → F) (ks vs : List (Fin d → F)) (h : ks.length = vs.length) :
    (rowC ex q ks vs).2 = (vs.length * d + vs.length + d * vs.length,
      vs.length * (d - 1) + (vs.length - 1) + d * (vs.length - 1), vs.length) := by
  unfold rowC bindC
  simp only
  rw [mixC_cost _ _ (by simp [seqC, h])]
  rw [sum_const _ (d, d - 1, 0) (by simp [dotC_cost])]
  rw [sum_const _ (0, 0, 1) (by simp [expC])]
  rw [sum_const _ (1, 0, 0) (by simp [divC])]
  simp only [seqC, sumC, List.length_map, h, Prod.mk_add_mk]
  simp
  omega

theorem sum_at {B E : Type} (l : List (B → E → F)) (i : B) (e : E) : l.sum i e = (l.map fun a => a i e).sum := by
  induction l with
  | nil => rfl
  | cons a l ih => simp [ih]

theorem sum_at₁ {B : Type} (l : List (B → F)) (i : B) : l.sum i = (l.map fun a => a i).sum := by
  induction l with
  | nil => rfl
  | cons a l ih => simp [ih]

theorem mix_at {B : Type} (as : List (B → F)) (vs : List (B → Fin d → F)) (i : B) :
    mix as vs i = (mixC (as.map fun a => a i) (vs.map fun v => v i)).1 := by
  funext e
  rw [mixC_val]
  unfold mix
  rw [sum_at, List.map_zipWith, List.zipWith_map]

theorem rowC_val {X Y B : Type} (c : Attn.Cfg F X Y B (Fin d)) (q : B → Fin d → F) (ks vs : List (B → Fin d → F)) (i : B) :
    (rowC c.ex (q i) (ks.map fun k => k i) (vs.map fun v => v i)).1 = attnRow c q ks vs i := by
  unfold attnRow
  rw [mix_at]
  unfold rowC bindC softmax
  simp only [seqC, sumC, List.map_map]
  congr 2
  apply List.map_congr_left
  intro k _
  simp [divC, expC, dotC_val, dot, Function.comp_def]

theorem zipWith₂ {α β γ δ δ' ε : Type} (g : α → β → δ) (f : δ → γ → ε) (g' : α → β → δ') (f' : δ' → γ → ε)
    (h : ∀ a b r, f (g a b) r = f' (g' a b) r) : ∀ (A : List α) (Q : List β) (R : List γ),
    List.zipWith f (List.zipWith g A Q) R = List.zipWith f' (List.zipWith g' A Q) R
  | [], _, _ => rfl
  | _ :: _, [], _ => rfl
  | _ :: _, _ :: _, [] => rfl
  | a :: A, b :: Q, r :: R => by
    simp only [List.zipWith_cons_cons]
    rw [h, zipWith₂ g f g' f' h A Q R]

theorem retroC_val {X Y B : Type} (c : Attn.Cfg F X Y B (Fin d)) (s : RetroSt F B (Fin d)) (q k v k0 v0 : B → Fin d → F)
    (Qn Kn Vn : List (B → Fin d → F)) (i : B) :
    (retroC c.ex (s.d.map fun a => a i) (s.AV.map fun a => a i) (s.Q.map fun a => a i) (q i) (k i) (v i) (k0 i) (v0 i)
      (Kn.map fun a => a i) (Vn.map fun a => a i)).1 = (retroCore c s q k v k0 v0 Qn Kn Vn).1.map fun a => a i := by
  have hw : ∀ (r r' : B → Fin d → F), c.ex (dotC (r i) (r' i)).1 = w c r r' i := by
    intro r r'; rw [dotC_val]; rfl
  have hdiv : ∀ (A : List (B → Fin d → F)) (D : List (B → F)),
      (List.zipWith (fun av dd => fun i e => av i e / dd i) A D).map (fun a => a i) =
        List.zipWith (fun x y => (vecC fun e => divC (x e) y).1) (A.map fun a => a i) (D.map fun a => a i) := by
    intro A D
    rw [List.map_zipWith, List.zipWith_map]
    rfl
  unfold retroC retroCore bindC
  simp only [seqC, sumC]
  rw [hdiv, List.map_zipWith]
  congr 1
  · simp only [List.map_append, List.map_cons, List.map_nil, mix_at, List.map_map, List.map_zipWith, List.zipWith_map]
    simp only [expC, Function.comp_def, hw]
    simp only [vecC, addC, subC, mulC, List.zipWith_map_right]
    congr 1
    refine zipWith₂ _ _ _ _ ?_ _ _ _
    intros; rfl
  · simp only [List.map_append, List.map_cons, List.map_nil, sum_at₁, List.map_map, List.map_zipWith, List.zipWith_map]
    simp only [expC, Function.comp_def, hw]
    simp only [addC, subC, List.zipWith_map_right]
    congr 1
    refine zipWith₂ _ _ _ _ ?_ _ _ _
    intros; rfl

theorem retroC_cost (ex : F → F) (ds : List F) (AV Q : List (Fin d → F)) (q k v k0 v0 : Fin d → F)
    (Kn Vn : List (Fin d → F)) (n : Nat) (hd : ds.length = n - 1) (hA : AV.length = n - 1) (hQ : Q.length = n - 1)
    (hK : Kn.length = n) (hV : Vn.length = n) :
    (retroC ex ds AV Q q k v k0 v0 Kn Vn).2 =
      (4 * ((n - 1) * d) + 2 * (n * d) + (n - 1 + 1) * d,
       2 * ((n - 1) * (d - 1)) + n * (d - 1) + 2 * (n - 1) + (n - 1) + 2 * ((n - 1) * d) + d * (n - 1), 2 * (n - 1) + n) := by
  unfold retroC bindC
  simp only
  rw [mixC_cost _ _ (by simp [seqC, hK, hV])]
  rw [sum_const _ (d, d - 1, 1) (by simp [dotC_cost, expC])]
  rw [sum_const _ (d, d - 1, 1) (by simp [dotC_cost, expC])]
  rw [sum_const _ (d, d - 1, 1) (by simp [dotC_cost, expC])]
  rw [sum_const _ (0, 2, 0) (by
    refine mem_zipWith _ _ _ _ ?_
    intro a ha b
    have : a.2 = (0, 1, 0) := mem_zipWith _ (fun x : F × Cost => x.2 = (0, 1, 0)) _ _ (fun _ _ _ => rfl) a ha
    simp [this, addC])]
  rw [sum_const _ (d, 0, 0) (by
    intro x hx
    obtain ⟨a, _, rfl⟩ := List.mem_map.mp hx
    rw [vec_const _ (1, 0, 0) fun _ => rfl]; simp)]
  rw [sum_const _ (d, 0, 0) (by
    intro x hx
    obtain ⟨a, _, rfl⟩ := List.mem_map.mp hx
    rw [vec_const _ (1, 0, 0) fun _ => rfl]; simp)]
  rw [sum_const _ (0, 2 * d, 0) (by
    refine mem_zipWith _ _ _ _ ?_
    intro a ha b
    have : a.2 = (0, d, 0) := mem_zipWith _ (fun x : (Fin d → F) × Cost => x.2 = (0, d, 0)) _ _
      (fun _ _ _ => by rw [vec_const _ (0, 1, 0) fun _ => rfl]; simp) a ha
    simp only [this]
    rw [vec_const _ (0, 1, 0) fun _ => rfl]
    simp
    omega)]
  rw [sum_const _ (d, 0, 0) (by
    refine mem_zipWith _ _ _ _ ?_
    intro a _ b
    rw [vec_const _ (1, 0, 0) fun _ => rfl]; simp)]
  simp only [seqC, sumC, List.length_map, List.length_zipWith, List.length_append, List.length_cons, List.length_nil, hd, hA,
    hQ, hK, hV, Prod.mk_add_mk, Nat.min_self]
  refine Prod.ext ?_ (Prod.ext ?_ ?_)
  · simp only; ring
  · simp only; ring_nf
  · simp only; ring_nf

end Flops

variable {F : Type} [Field F] {d : Nat}

/-- The operations of attention for one query of a head: scaling, then the row. -/
def Spec.rowCost (scale : F) (ex : F → F) (q q' : Fin d → F) (ks vs : List (Fin d → F)) : Cost :=
  (scaleC scale q).2 + (rowC ex q' ks vs).2

/-- The operations of a retroactive step of a head. -/
def Spec.retroCost (scale : F) (ex : F → F) (q₀ : Fin d → F) (ds : List F) (AV Q : List (Fin d → F)) (q k v k0 v0 : Fin d → F)
    (Kn Vn : List (Fin d → F)) : Cost := (scaleC scale q₀).2 + (retroC ex ds AV Q q k v k0 v0 Kn Vn).2

/-- Include one kind only. -/
def Spec.onlyMuls : Include := ⟨true, false, false⟩
def Spec.onlyAdds : Include := ⟨false, true, false⟩
def Spec.onlyExps : Include := ⟨false, false, true⟩

open Spec

/-- **C81**, the programs that are counted compute the attention of the model, for every batch entry and head. -/
theorem C81_counted {X Y B : Type} (c : Attn.Cfg F X Y B (Fin d)) (i : B) (x : X) (q k v k0 v0 : B → Fin d → F)
    (s : RetroSt F B (Fin d)) (Qn Kn Vn : List (B → Fin d → F)) :
    (scaleC c.scale (c.q x i)).1 = sq c x i ∧
    (rowC c.ex (q i) (Kn.map fun k => k i) (Vn.map fun v => v i)).1 = attnRow c q Kn Vn i ∧
    (retroC c.ex (s.d.map fun a => a i) (s.AV.map fun a => a i) (s.Q.map fun a => a i) (q i) (k i) (v i) (k0 i) (v0 i)
      (Kn.map fun a => a i) (Vn.map fun a => a i)).1 = (retroCore c s q k v k0 v0 Qn Kn Vn).1.map fun a => a i :=
  ⟨rfl, rowC_val c q Kn Vn i, retroC_val c s q k v k0 v0 Qn Kn Vn i⟩

/-- **C81**, single-output attention with `n` keys: additions and exponentials are reported exactly; multiplications are off by
the difference of `n` and the head size. -/
theorem C81_single_partial (n : Nat) (hn : 1 ≤ n) (hd : 1 ≤ d) (scale : F) (ex : F → F) (q q' : Fin d → F)
    (ks vs : List (Fin d → F)) (hk : ks.length = n) (hv : vs.length = n) :
    singleFlops n d onlyAdds = (rowCost scale ex q q' ks vs).2.1 ∧
    singleFlops n d onlyExps = (rowCost scale ex q q' ks vs).2.2 ∧
    singleFlops n d onlyMuls + n = (rowCost scale ex q q' ks vs).1 + d := by
  obtain ⟨n, rfl⟩ : ∃ m, n = m + 1 := ⟨n - 1, by omega⟩
  obtain ⟨d, rfl⟩ : ∃ m, d = m + 1 := ⟨d - 1, by omega⟩
  unfold rowCost
  rw [scaleC_cost, rowC_cost _ _ _ _ (hk.trans hv.symm), hv]
  simp only [singleFlops, incl, onlyAdds, onlyExps, onlyMuls]
  refine ⟨?_, ?_, ?_⟩ <;> simp <;> ring

/-- **C81**, retroactive step with `n` keys: exponentials are reported exactly; `2 n` multiplications too many are reported, and
the additions are off by `3 n - d - 2`. -/
theorem C81_retro_partial (n : Nat) (hn : 1 ≤ n) (hd : 1 ≤ d) (scale : F) (ex : F → F) (q₀ : Fin d → F) (ds : List F)
    (AV Q : List (Fin d → F)) (q k v k0 v0 : Fin d → F) (Kn Vn : List (Fin d → F)) (hds : ds.length = n - 1)
    (hA : AV.length = n - 1) (hQ : Q.length = n - 1) (hK : Kn.length = n) (hV : Vn.length = n) :
    retroStepFlops n d onlyExps = (retroCost scale ex q₀ ds AV Q q k v k0 v0 Kn Vn).2.2 ∧
    retroStepFlops n d onlyMuls = (retroCost scale ex q₀ ds AV Q q k v k0 v0 Kn Vn).1 + 2 * n ∧
    retroStepFlops n d onlyAdds = (retroCost scale ex q₀ ds AV Q q k v k0 v0 Kn Vn).2.1 + (3 * n - d - 2 : Int) := by
  unfold retroCost
  rw [scaleC_cost, retroC_cost _ _ _ _ _ _ _ _ _ _ _ n hds hA hQ hK hV]
  obtain ⟨n, rfl⟩ : ∃ m, n = m + 1 := ⟨n - 1, by omega⟩
  obtain ⟨d, rfl⟩ : ∃ m, d = m + 1 := ⟨d - 1, by omega⟩
  simp only [retroStepFlops, incl, onlyAdds, onlyExps, onlyMuls]
  refine ⟨?_, ?_, ?_⟩ <;> simp <;> ring

/-- **C81**, `forward` of `n` queries: exponentials are reported exactly; multiplications are off as for the single query. -/
theorem C81_forward_partial (n : Nat) (hn : 1 ≤ n) (hd : 1 ≤ d) (scale : F) (ex : F → F) (q q' : Fin d → F)
    (ks vs : List (Fin d → F)) (hk : ks.length = n) (hv : vs.length = n) :
    attnFlops n d onlyExps = n * (rowCost scale ex q q' ks vs).2.2 ∧
    attnFlops n d onlyMuls + n * n = n * (rowCost scale ex q q' ks vs).1 + n * d := by
  obtain ⟨n, rfl⟩ : ∃ m, n = m + 1 := ⟨n - 1, by omega⟩
  obtain ⟨d, rfl⟩ : ∃ m, d = m + 1 := ⟨d - 1, by omega⟩
  unfold rowCost
  rw [scaleC_cost, rowC_cost _ _ _ _ (hk.trans hv.symm), hv]
  simp only [attnFlops, incl, onlyExps, onlyMuls]
  refine ⟨?_, ?_⟩ <;> simp <;> ring

/-- **C81 refuted** for the additions of `forward`: `2 n² (d - 1)` too few are reported, so that with large heads including
additions lowers the count. -/
theorem C81_adds_refuted (n : Nat) (hn : 1 ≤ n) (hd : 1 ≤ d) (scale : F) (ex : F → F) (q q' : Fin d → F)
    (ks vs : List (Fin d → F)) (hk : ks.length = n) (hv : vs.length = n) :
    attnFlops n d onlyAdds + 2 * n * n * (d - 1) = n * (rowCost scale ex q q' ks vs).2.1 ∧
    (2 * n ≤ d → ∀ m e, attnFlops n d ⟨m, true, e⟩ < attnFlops n d ⟨m, false, e⟩) := by
  constructor
  · obtain ⟨n, rfl⟩ : ∃ m, n = m + 1 := ⟨n - 1, by omega⟩
    obtain ⟨d, rfl⟩ : ∃ m, d = m + 1 := ⟨d - 1, by omega⟩
    unfold rowCost
    rw [scaleC_cost, rowC_cost _ _ _ _ (hk.trans hv.symm), hv]
    simp only [attnFlops, incl, onlyAdds]
    simp
    ring
  · intro h m e
    have h1 : (2 * n * n - n * d - n : Int) < 0 := by
      have hn' : (1 : Int) ≤ n := by exact_mod_cast hn
      have hd' : (2 * n : Int) ≤ d := by exact_mod_cast h
      nlinarith
    simp only [attnFlops, incl, if_true]
    simp
    linarith

/-- **C81**, steps are cheap: a retroactive step is reported to take at most as many operations as `forward`. -/
theorem C81_step_retro (c : Flops.Cfg) (D : Nat) (hE : c.E = c.H * D) (hH : 1 ≤ c.H) (hD : 1 ≤ D) (hn : 2 ≤ c.n) :
    ∃ a b, retroFlops c (.tok .step) .default = .ok a ∧ retroFlops c (.tok .forward) .default = .ok b ∧ a ≤ b := by
  refine ⟨_, _, rfl, rfl, ?_⟩
  have hdiv : (c.E : Int) / c.H = D := by
    rw [hE]; push_cast
    exact Int.mul_ediv_cancel_left _ (by omega)
  rw [hdiv, hE]
  obtain ⟨n, hn'⟩ : ∃ m, c.n = m + 2 := ⟨c.n - 2, by omega⟩
  obtain ⟨H, hH'⟩ : ∃ m, c.H = m + 1 := ⟨c.H - 1, by omega⟩
  obtain ⟨D, rfl⟩ : ∃ m, D = m + 1 := ⟨D - 1, by omega⟩
  simp only [inFlops, attnFlops, retroStepFlops, incl, Include.default, hn', hH', hE]
  push_cast
  rw [← sub_nonneg]
  cases c.bias <;> simp only [if_true, if_false, Bool.false_eq_true] <;> ring_nf <;> positivity

/-- **C81**, the same for single-output attention. -/
theorem C81_step_single (c : Flops.Cfg) (hn : 1 ≤ c.n) :
    ∃ a b, singleOutputFlops c true (.tok .step) .default = .ok a ∧ singleOutputFlops c true (.tok .forward) .default = .ok a ∧
      singleOutputFlops c false (.tok .step) .default = .ok a ∧ singleOutputFlops c false (.tok .forward) .default = .ok b ∧
      a ≤ b := by
  refine ⟨_, _, rfl, rfl, rfl, rfl, ?_⟩
  obtain ⟨n, hn'⟩ : ∃ m, c.n = m + 1 := ⟨c.n - 1, by omega⟩
  have hdiv : (0 : Int) ≤ (c.E : Int) / c.H := Int.ediv_nonneg (by omega) (by omega)
  obtain ⟨D, hD⟩ := Int.eq_ofNat_of_zero_le hdiv
  simp only [inFlops, attnFlops, singleFlops, incl, Include.default, hn', hD]
  push_cast
  rw [← sub_nonneg]
  cases c.bias <;> simp only [if_true, if_false, Bool.false_eq_true] <;> ring_nf <;> positivity

/-- **C81 refuted** for `forward` with `single_output_forward`: it projects one query, but all `n` keys and values, and the count
holds the projection of one key and one value only.  For `n ≥ 2` it is below the multiplications that are done. -/
theorem C81_projection_refuted (c : Flops.Cfg) (D : Nat) (hE : c.E = c.H * D) (hH : 1 ≤ c.H) (hD : 3 ≤ D) (hn : 2 ≤ c.n)
    (hb : c.bias = false) (w : Fin c.E → Fin c.E → F) (x : Fin c.E → F) (scale : F) (ex : F → F) (q q' : Fin D → F)
    (ks vs : List (Fin D → F)) (hk : ks.length = c.n) (hv : vs.length = c.n) :
    ∃ a, singleOutputFlops c true (.tok .forward) .default = .ok a ∧
      a < ((1 + 2 * c.n) * (linearC w none x).2.1 + c.H * (rowCost scale ex q q' ks vs).1 + (linearC w none x).2.1 : Nat) := by
  refine ⟨_, rfl, ?_⟩
  have hdiv : (c.E : Int) / c.H = D := by
    rw [hE]; push_cast
    exact Int.mul_ediv_cancel_left _ (by omega)
  unfold rowCost
  rw [hdiv, linearC_cost, scaleC_cost, rowC_cost _ _ _ _ (hk.trans hv.symm), hv]
  obtain ⟨n, hn'⟩ : ∃ m, c.n = m + 2 := ⟨c.n - 2, by omega⟩
  obtain ⟨H, hH'⟩ : ∃ m, c.H = m + 1 := ⟨c.H - 1, by omega⟩
  obtain ⟨D, rfl⟩ : ∃ m, D = m + 3 := ⟨D - 3, by omega⟩
  rw [← sub_pos]
  simp only [inFlops, singleFlops, incl, Include.default, hn', hH', hE, hb, if_true, if_false, Bool.false_eq_true, Prod.fst_add]
  push_cast
  ring_nf
  positivity

/-- **C81 refuted** for the kinds of operations: with every kind excluded the projections are still counted. -/
theorem C81_kinds_refuted (c : Flops.Cfg) (hE : 1 ≤ c.E) (one : Bool) :
    (∃ a, retroFlops c (.tok .step) ⟨false, false, false⟩ = .ok a ∧ 0 < a) ∧
    (∃ a, singleOutputFlops c one (.tok .step) ⟨false, false, false⟩ = .ok a ∧ 0 < a) := by
  obtain ⟨E, hE'⟩ : ∃ m, c.E = m + 1 := ⟨c.E - 1, by omega⟩
  refine ⟨⟨_, rfl, ?_⟩, ⟨_, rfl, ?_⟩⟩ <;>
  · simp only [inFlops, singleFlops, retroStepFlops, incl, if_true, if_false, Bool.false_eq_true, hE']
    cases c.bias <;> simp only [if_true, if_false, Bool.false_eq_true] <;> push_cast <;> ring_nf <;> positivity

/-- **C81 refuted** for the call mode: no count in mode `forward_steps`, although calls in that mode are served; and within
`with co.call_mode("forward_step")` calls run `forward_step`, while the count is the one of `forward`. -/
theorem C81_mode_refuted (c : Flops.Cfg) (one : Bool) (i : Include) :
    (dispatch Ctx.init (.tok .steps) = .ok .steps ∧ retroFlops c (.tok .steps) i = .error .key ∧
      singleOutputFlops c one (.tok .steps) i = .error .key) ∧
    (dispatch (Ctx.init.enter (.val (.tok .step))).1 (.tok .forward) = .ok .step ∧
      (∀ D, c.E = c.H * D → 1 ≤ c.H → 1 ≤ D → 3 ≤ c.n →
        retroFlops c (.tok .forward) .default ≠ retroFlops c (.tok .step) .default)) := by
  refine ⟨⟨rfl, rfl, rfl⟩, rfl, ?_⟩
  intro D hE hH hD hn h
  have h := Except.ok.inj h
  have hdiv : (c.E : Int) / c.H = D := by
    rw [hE]; push_cast
    exact Int.mul_ediv_cancel_left _ (by omega)
  rw [hdiv] at h
  obtain ⟨n, hn'⟩ : ∃ m, c.n = m + 3 := ⟨c.n - 3, by omega⟩
  obtain ⟨H, hH'⟩ : ∃ m, c.H = m + 1 := ⟨c.H - 1, by omega⟩
  obtain ⟨D, rfl⟩ : ∃ m, D = m + 1 := ⟨D - 1, by omega⟩
  have h := sub_eq_zero.mpr h
  refine absurd h (ne_of_gt ?_)
  simp only [inFlops, attnFlops, retroStepFlops, incl, Include.default, hn', hH', hE, if_true, if_false, Bool.false_eq_true]
  push_cast
  cases c.bias <;> simp only [if_true, if_false, Bool.false_eq_true] <;> ring_nf <;> positivity

/-! Concrete cases -/

/-- Three keys of size two: 17 multiplications and divisions, of which 16 are reported; 9 additions; 3 exponentials. -/
example : rowCost (1 : ℚ) (fun x => x) ![1, 2] ![1, 2] [![1, 0], ![0, 1], ![1, 1]] [![1, 0], ![0, 1], ![1, 1]] = (17, 9, 3) := by
  unfold rowCost
  rw [scaleC_cost, rowC_cost _ _ _ _ rfl]; rfl

example : singleFlops 3 2 onlyMuls = 16 ∧ singleFlops 3 2 onlyAdds = 9 ∧ singleFlops 3 2 onlyExps = 3 := by decide

/-- The hypotheses of `C81_retro_partial`. -/
example : retroCost (1 : ℚ) (fun x => x) ![1, 2] [1, 1] [![1, 0], ![0, 1]] [![1, 0], ![0, 1]] ![1, 2] ![1, 2] ![1, 2] ![1, 2]
    ![1, 2] [![1, 0], ![0, 1], ![1, 1]] [![1, 0], ![0, 1], ![1, 1]] = (36, 25, 7) := by
  unfold retroCost
  rw [scaleC_cost, retroC_cost _ _ _ _ _ _ _ _ _ _ _ 3 rfl rfl rfl rfl rfl]; rfl

/-- Including additions makes the count of a single key with head size 10 smaller: `40 - 9`. -/
example : attnFlops 1 10 ⟨true, true, false⟩ = 31 ∧ attnFlops 1 10 .default = 40 := by decide

/-- Ten positions, four heads of size eight. -/
def exFlops : Flops.Cfg := ⟨10, 32, 4, true⟩

example : retroFlops exFlops (.tok .step) .default = .ok (3072 + 96 + 4 * 556 + 10560) ∧
    retroFlops exFlops (.tok .forward) .default = .ok (30720 + 960 + 4 * 1760 + 10560) := ⟨rfl, rfl⟩

example := C81_step_retro exFlops 8 rfl (by decide) (by decide) (by decide)
example := C81_mode_refuted exFlops false .default

end CoInf
