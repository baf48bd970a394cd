import Verif.Spec.Net
import Verif.Lemmas.Rnn
import Verif.Lemmas.Geometry

namespace CoInf
open Spec
variable {X Y Z : Type}

/-! ### Modules wrapped by `forward_stepping` -/

namespace Stepping
variable {g : List X → Except Err (List Y)} {f : X → Y} {s p : Nat}

theorem simRel (H : FrameWise g f) : SimRel (mod g s p) (List.map f) (fun _ _ => True) where
  phi_nil := rfl
  init := trivial
  clean := fun _ => trivial
  step := fun {h i} u x _ => ⟨some (f x), i, by
    simp only [H.eq [x] (by simp), ok_bind]; rfl, by simp, trivial⟩
  steps := fun {h i} u xs hx _ => ⟨xs.map f, i, by
    simp only [H.eq xs hx, Except.map]
    cases xs with
    | nil => exact absurd rfl hx
    | cons a t => rfl, by simp, trivial⟩
  fwd_state := fun _ _ => trivial
  fwd_indep := fun xs _ => rfl

theorem padRel (H : FrameWise g f) : PadRel (mod g s p) (List.map f) (fun _ _ => True) where
  finish := by
    intro h i xs ys i0 _ hx hf
    simp only [H.eq (h ++ xs) (by simp [hx]), Except.map] at hf
    cases hf
    refine ⟨xs.map f, i, by simp, ?_⟩
    simp only [H.eq xs hx, Except.map]
    cases xs with
    | nil => exact absurd rfl hx
    | cons a t => rfl
  clean_probe := by
    intro i xs ys i0 _ hx hf
    simp only [H.eq xs hx, Except.map] at hf
    cases hf
    refine ⟨i, ?_⟩
    simp only [H.eq xs hx, Except.map]
    cases xs with
    | nil => exact absurd rfl hx
    | cons a t => rfl

theorem fwd_nil (H : FrameWise g f) {ys i0} (h : (mod g s p).fwd (mod g s p).init [] = .ok (ys, i0)) :
    ys = [] := by
  simp only [Except.map] at h
  split at h
  · cases h
  · rename_i y hy
    cases h
    exact H.nil _ hy

theorem flow (H : FrameWise g f) : Flow (mod g s p) (List.map f) := by
  intro h xs ys i0 hx hf
  simp only [H.eq (h ++ xs) (by simp [hx]), Except.map] at hf
  cases hf
  have := List.length_pos_of_ne_nil hx
  simpa using this

theorem pImplements (H : FrameWise g f) : PImplements (mod g s p) (List.map f) :=
  ⟨fun _ _ => True, trivial, fun {h st} x _ => ⟨some (f x), st, by
    simp only [H.eq [x] (by simp), ok_bind]; rfl, by simp, trivial⟩⟩

end Stepping

/-! ### Translation of the side conditions -/

theorem convRoundGood [Zero X] [Zero Y] [Add Y] {c : Conv.Cfg X Y} {k} (h : ConvRoundOk c k) : Conv.Good c :=
  ⟨⟨h.K_pos, h.S_pos, h.P_lt, h.linear⟩, by
    have := h.K1; have := h.K_pos
    by_cases hK : c.K = 1
    · exact Or.inr (by have := h.K1 hK; omega)
    · exact Or.inl (by omega)⟩

theorem convGood [Zero X] [AddCommMonoid Y] {c : Conv.Cfg X Y} {k} (h : ConvOk c k) : Conv.Good c :=
  ⟨⟨h.K_pos, h.S_pos, h.P_lt, h.linear⟩, by
    have := h.K1; have := h.K_pos
    by_cases hK : c.K = 1
    · exact Or.inr (by have := h.K1 hK; omega)
    · exact Or.inl (by omega)⟩

theorem poolOk {c : Pool.Cfg X Y} {k} (h : PoolOk c k) : Pool.Ok c :=
  ⟨h.K_pos, h.S_pos, h.P_lt, h.dil, h.fill, h.order⟩

theorem lambdaLawful {c : Lambda.Cfg X Y} {f} (h : LambdaOk c f) : Lambda.Lawful c f :=
  ⟨h.fwd.eq, h.steps, h.step, h.fwd.nil⟩

theorem reduceLawful {r : Reducer Y Z} {f : List Y → Z} {n} (hn : 1 ≤ n) (h : ReduceOk r f n) :
    r.Lawful f n :=
  ⟨h.frame, fun cs T h1 h2 => by
    rw [h.clip cs T h1 h2, zipReduce_eq f _ h2]
    rintro rfl
    simp at h1; omega⟩

theorem reduceSound {r : Reducer Y Z} {f : List Y → Z} {n} (h : ReduceOk r f n) : r.Sound :=
  ⟨h.nonempty, h.empty⟩

theorem reduceOk_of {r : Reducer Y Z} {f : List Y → Z} {n} (hn : 1 ≤ n) (h : r.Lawful f n) (hs : r.Sound) :
    ReduceOk r f n :=
  ⟨h.frame, fun cs T h1 h2 => by
    rw [h.clip cs T h1 h2, zipReduce_eq f _ h2]
    rintro rfl
    simp at h1; omega, hs.nonempty, hs.empty⟩

theorem forall₂_ofFn {α : Type 1} {β : Type} {R : α → β → Prop} {n : Nat} {a : Fin n → α} {b : Fin n → β}
    (h : ∀ j, R (a j) (b j)) : List.Forall₂ R (List.ofFn a) (List.ofFn b) := by
  induction n with
  | zero => simp
  | succ n ih =>
    rw [List.ofFn_succ, List.ofFn_succ]
    exact .cons (h 0) (ih fun j => h j.succ)

/-- Everything that is known about a network. -/
structure NetFacts (k : Cls) (m : CoMod (.stream X) (.stream Y)) (φ : List X → List Y) : Prop where
  impl : Implements m φ
  pimpl : PImplements m φ
  geom : k.geo = true → Geom m φ
  padClean : 1 ≤ k.pad → PadClean m (Reach m)
  padRel : 2 ≤ k.pad → PadRel m φ (Reach m)
  flow : 3 ≤ k.pad → Flow m φ

theorem netFacts_leaf {k : Cls} {m : CoMod (.stream X) (.stream Y)} {φ R} (S : SimRel m φ R)
    (Pi : PImplements m φ) (G : k.geo = true → Geom m φ) (P : 1 ≤ k.pad → PadRel m φ R)
    (hnil : ∀ {ys i0}, m.fwd m.init [] = .ok (ys, i0) → ys = []) (F : 3 ≤ k.pad → Flow m φ) :
    NetFacts k m φ where
  impl := ⟨R, S⟩
  pimpl := Pi
  geom := G
  padClean := fun h => ((P h).padClean S hnil).reach S
  padRel := fun h => (P (by omega)).reach S
  flow := F

theorem net_facts {k : Cls} {m : CoMod (.stream X) (.stream Y)} {φ} (h : Net k m φ) : NetFacts k m φ := by
  induction h with
  | @conv k X Y _ _ c h =>
    have hg := convGood h
    exact netFacts_leaf (Conv.simRel c hg) (Conv.pImplements c hg.1) (fun _ => Conv.geom c hg.1)
      (fun hk => Conv.padRel c hg (h.mode hk)) (Conv.fwd_nil c)
      (fun hk => Conv.flow c hg.1 (h.unit hk) (h.mode (by omega)))
  | @convRound k X Y _ _ _ c h =>
    have hg := convRoundGood h
    have hp := h.pad
    exact netFacts_leaf (Conv.simRelR c hg) (Conv.pImplementsR c hg.1) (fun _ => ⟨hasGeo_window hg.hS hg.hP _ _, rfl⟩)
      (fun hk => absurd hk (by omega)) (fun {ys i0} h => by cases h) (fun hk => absurd hk (by omega))
  | @pool k X Y c h =>
    have hg := poolOk h
    exact netFacts_leaf (Pool.simRel c hg) (Pool.pImplements c hg) (fun _ => Pool.geom c hg)
      (fun hk => Pool.padRel c hg (h.mode hk)) (Pool.fwd_nil c)
      (fun hk => Pool.flow c hg (h.unit hk))
  | @delay k X c h =>
    exact netFacts_leaf (Delay.simRel' c) (Delay.pImplements c) (fun hk => Delay.geom c (h (Or.inl hk)))
      (fun hk => Delay.padRel c (h (Or.inr hk))) (Delay.fwd_nil c)
      (fun hk => Delay.flow c (h (Or.inr (by omega))))
  | @rnn k V S c h =>
    exact netFacts_leaf (Rnn.simRel c) (Rnn.pImplements c) (fun hk => absurd hk h)
      (fun _ => Rnn.padRel c) (Rnn.fwd_nil c) (fun _ => Rnn.flow c)
  | @skip k X n h h' =>
    exact netFacts_leaf (Skip.simRel n) (Skip.pImplements n) (fun hk => absurd hk h)
      (fun _ => Skip.padRel n) (Skip.fwd_nil n) (fun hk => absurd hk (by omega))
  | @pointwise k X Y f =>
    exact netFacts_leaf (Pointwise.simRel f) (Pointwise.pImplements f) (fun _ => Pointwise.geom f)
      (fun _ => Pointwise.padRel f) (fun h => by cases h; rfl) (fun _ => Pointwise.flow f)
  | @lambda k X Y c f h =>
    have hl := lambdaLawful h
    exact netFacts_leaf (Lambda.simRel hl) (Lambda.pImplements hl) (fun _ => Lambda.geom c f)
      (fun _ => Lambda.padRel hl) (Lambda.fwd_nil hl) (fun _ => Lambda.flow hl)
  | @stepping k X Y g f s p h hg =>
    exact netFacts_leaf (Stepping.simRel h) (Stepping.pImplements h)
      (fun hk => by obtain ⟨rfl, rfl⟩ := hg hk; exact ⟨hasGeo_map f, rfl⟩)
      (fun _ => Stepping.padRel h) (Stepping.fwd_nil h) (fun _ => Stepping.flow h)
  | @single k X Y m φ _ ih =>
    have S := Sequential.simRel_single ih.impl.reach
    exact {
      impl := ⟨_, S⟩
      pimpl := Sequential.pImplements_single ih.pimpl
      geom := fun hk => Sequential.geom_single (ih.geom hk)
      padClean := fun hk => (Sequential.padClean_single (ih.padClean hk)).reach S
      padRel := fun hk => (Sequential.padRel_single (ih.padRel hk)).reach S
      flow := fun hk {h xs ys i0} hx hf => ih.flow hk hx hf }
  | @cons k X Y Z m c φ ψ _ _ ih1 ih2 =>
    have S := Sequential.simRel_cons ih1.impl.reach ih2.impl.reach
    have hfront : k.pad = 2 ∨ k.front.pad = k.pad := by
      unfold Cls.front; split <;> simp_all
    have hle : ∀ n, n ≤ k.pad → n ≤ k.front.pad := by
      intro n hn
      unfold Cls.front
      simp only
      split <;> omega
    have h23 : 2 ≤ k.pad → 3 ≤ k.front.pad := by
      intro hn
      unfold Cls.front
      simp only
      split <;> omega
    exact {
      impl := ⟨_, S⟩
      pimpl := Sequential.pImplements_cons ih1.impl.reach.phi_nil ih1.pimpl ih2.pimpl
      geom := fun hk => Sequential.geom_cons (ih1.geom hk) (ih2.geom hk)
      padClean := fun hk =>
        (Sequential.padClean_cons ih1.impl.reach (ih1.padClean (hle _ hk)) (ih2.padClean hk)).reach S
      padRel := fun hk => (Sequential.padRel_cons ih1.impl.reach (ih1.flow (h23 hk))
        (ih1.padRel (hle _ hk)) (ih2.padRel hk)).reach S
      flow := fun hk => Sequential.flow_cons (ih1.flow (hle _ hk)) (ih1.padRel (by have := hle _ hk; omega))
        ih1.impl.exists_reach (ih2.flow hk) }
  | @reduce k X Y Z n r f ms φs hn _ hr hal hgeo hpad ih =>
    have hne : List.ofFn ms ≠ [] := by
      intro h0
      have := congrArg List.length h0
      simp at this; omega
    have hlen : (List.ofFn ms).length = n := by simp
    have hlaw : r.Lawful f (List.ofFn ms).length := by rw [hlen]; exact reduceLawful hn hr
    have hal' : Aligned (List.ofFn φs) := by
      intro a ha b hb xs
      obtain ⟨i, rfl⟩ := List.mem_ofFn.1 ha
      obtain ⟨j, rfl⟩ := List.mem_ofFn.1 hb
      exact hal i j xs
    have hmap : (fun xs => zipReduce f (List.ofFn fun j => φs j xs)) =
        BroadcastReduce.phi f (List.ofFn φs) := by
      funext xs
      unfold BroadcastReduce.phi
      rw [List.map_ofFn]; rfl
    rw [hmap]
    have himp := forall₂_ofFn (R := fun m φ => Implements m φ) fun j => (ih j).impl
    have S := BroadcastReduce.simRel hne himp hal' hlaw
    have hpc : 1 ≤ k.pad → ∀ m ∈ List.ofFn ms, PadClean m (Reach m) := by
      intro hk m hm
      obtain ⟨j, rfl⟩ := List.mem_ofFn.1 hm
      exact (ih j).padClean hk
    have hfa : 2 ≤ k.pad → BroadcastReduce.FwdAligned (List.ofFn ms) := by
      intro hk m hm m' hm' xs ys ys' a b h1 h2
      obtain ⟨i, rfl⟩ := List.mem_ofFn.1 hm
      obtain ⟨j, rfl⟩ := List.mem_ofFn.1 hm'
      exact hpad hk i j h1 h2
    exact {
      impl := ⟨_, S⟩
      pimpl := BroadcastReduce.pImplements hne (forall₂_ofFn fun j => (ih j).pimpl) hal' hlaw
      geom := fun hk => by
        refine BroadcastReduce.geom hne (forall₂_ofFn fun j => (ih j).geom hk)
          (S := (ms ⟨0, hn⟩).stride) (d := (ms ⟨0, hn⟩).delay) ?_ ?_
        · intro m hm
          obtain ⟨j, rfl⟩ := List.mem_ofFn.1 hm
          exact (hgeo hk _ _).1
        · intro m hm
          obtain ⟨j, rfl⟩ := List.mem_ofFn.1 hm
          exact (hgeo hk _ _).2
      padClean := fun hk => (BroadcastReduce.padClean hne (reduceSound hr) (hpc hk)).reach S
      padRel := fun hk => (BroadcastReduce.padRel hne (forall₂_ofFn fun j => (ih j).padRel hk)
        (hpc (by omega)) hal' (hfa hk) hlaw (reduceSound hr)).reach S
      flow := fun hk => BroadcastReduce.flow (m := ms ⟨0, hn⟩) (φ := φs ⟨0, hn⟩)
        (List.mem_ofFn.2 ⟨_, rfl⟩) (List.mem_ofFn.2 ⟨_, rfl⟩) ((ih _).flow hk) hal'
        (hfa (by omega)) hlaw }

end CoInf
