/-
Restricting the batch: the modules with all their axes, on some entries of the batch.
-/
import Verif.Lemmas.Hom
import Verif.Model.ConvNd
import Verif.Model.PoolNd
import Verif.Model.AttnNd

set_option autoImplicit false

namespace CoInf

/-- The entries `ι b'` of a tensor whose first axis is indexed by `β`. -/
@[reducible] def restrict {β β' : Type} (ι : β' → β) {A : Type} (x : β → A) : β' → A := fun b' => x (ι b')

theorem Pool.TFill.make_restrict {β β' A : Type} [Zero A] [Bot A] (ι : β' → β) (m : Pool.TFill) (x : β → A) :
    m.make (restrict ι x) = restrict ι (m.make x) := by
  cases m <;> rfl

/-! ### Convolution -/

namespace ConvNd
variable {R β β' : Type} [NonUnitalNonAssocSemiring R] (c : Cfg R) (ι : β' → β)

theorem temporal_hom : Conv.CfgHom (temporal (β := β) c) (temporal (β := β') c) (restrict ι) (restrict ι) where
  K := rfl
  S := rfl
  P := rfl
  fill := rfl
  padMode := rfl
  bias := by simp only [temporal]; cases c.bias <;> rfl
  zeroX := rfl
  zeroY := rfl
  add := fun _ _ => rfl

theorem padFrame_restrict (x : Frame β c) : padFrame c (restrict ι x) = restrict ι (padFrame c x) := rfl

theorem convFunc_restrict (st pt : Nat) (bias : Option (Fin (c.groups * c.coutG) → R)) (zs : List (Padded β c)) :
    convFunc c st pt bias (zs.map (restrict ι)) = (convFunc c st pt bias zs).map (List.map (restrict ι)) := by
  unfold convFunc
  simp only [List.length_map]
  split
  · rfl
  · simp only [Except.map, List.map_map]
    congr 1
    apply List.map_congr_left
    intro t _
    funext b o p
    simp only [Function.comp_def, restrict, List.getElem?_map]
    congr 1
    apply Finset.sum_congr rfl; intro ci _
    apply Finset.sum_congr rfl; intro kt _
    apply Finset.sum_congr rfl; intro ks _
    congr 1
    split
    · cases zs[t * st + kt - pt]? <;> rfl
    · rfl

theorem forward_restrict (xs : List (Frame β c)) :
    forward c (xs.map (restrict ι)) = (forward c xs).map (List.map (restrict ι)) := by
  have hpad : ∀ zs : List (Frame β c),
      (zs.map (restrict ι)).map (padFrame c) = (zs.map (padFrame c)).map (restrict ι) := by
    intro zs
    simp only [List.map_map]
    rfl
  unfold forward
  rw [List.head?_map, List.getLast?_map]
  cases c.padMode with
  | zeros =>
    cases xs.head? with
    | none => rfl
    | some a => simp only [Option.map_some, hpad, convFunc_restrict]
  | replicate =>
    cases xs.head? with
    | none => rfl
    | some a =>
      cases xs.getLast? with
      | none => rfl
      | some b =>
        have : List.replicate c.P (restrict ι a) ++ xs.map (restrict ι) ++ List.replicate c.P (restrict ι b) =
            (List.replicate c.P a ++ xs ++ List.replicate c.P b).map (restrict ι) := by
          simp
        simp only [Option.map_some, this, hpad, convFunc_restrict]

theorem pstep_restrict (x : Frame β c) (s : Option (Conv.St (OutFrame β c))) :
    pstep c (restrict ι x) (s.map (Conv.St.map (restrict ι))) =
      (pstep c x s).map fun p => (p.1.map (restrict ι), p.2.map (Conv.St.map (restrict ι))) := by
  have h := temporal_hom (β := β) (β' := β') c ι
  unfold pstep
  rw [h.stateless]
  split
  · have := forward_restrict c ι [x]
    rw [List.map_singleton] at this
    rw [this]
    cases forward c [x] with
    | error e => rfl
    | ok ys =>
      simp only [Except.map, pyGet_map]
      cases pyGet ys 0 <;> rfl
  · have := convFunc_restrict c ι 1 (c.K - 1) none [padFrame c x]
    rw [List.map_singleton] at this
    rw [padFrame_restrict, this]
    cases convFunc c 1 (c.K - 1) none [padFrame c x] with
    | error e => rfl
    | ok ys =>
      simp only [Except.map, pyGet_map]
      cases pyGet ys 0 with
      | error e => rfl
      | ok xOut =>
        have key : ∀ st : Conv.St (OutFrame β c),
            (match Conv.output (temporal (β := β') c) (Conv.St.map (restrict ι) st) (restrict ι xOut) with
              | .error e => .error e
              | .ok out => match Conv.writeBack (temporal (β := β') c) (Conv.St.map (restrict ι) st)
                  ((ys.drop 1).map (restrict ι)) with
                | .error e => .error e
                | .ok next => .ok (out, some ⟨next.1, next.2,
                    Conv.nextStride c.S (Conv.St.map (restrict ι) st).strideIndex⟩)) =
            Except.map (fun p : Option (OutFrame β c) × Option (Conv.St (OutFrame β c)) =>
                (p.1.map (restrict ι), p.2.map (Conv.St.map (restrict ι))))
              (match Conv.output (temporal (β := β) c) st xOut with
              | .error e => .error e
              | .ok out => match Conv.writeBack (temporal (β := β) c) st (ys.drop 1) with
                | .error e => .error e
                | .ok next => .ok (out, some ⟨next.1, next.2, Conv.nextStride c.S st.strideIndex⟩)) := by
          intro st
          rw [h.output, h.writeBack]
          cases Conv.output (temporal (β := β) c) st xOut with
          | error e => rfl
          | ok out =>
            simp only [Except.map]
            cases Conv.writeBack (temporal (β := β) c) st (ys.drop 1) <;> rfl
        simp only [← List.map_drop]
        cases s with
        | some st => exact key st
        | none =>
          simp only [Option.map_none, h.initState]
          exact key _

theorem leafHom : LeafHom (leaf (β := β) c) (leaf (β := β') c) (restrict ι) (restrict ι)
    (Conv.St.map (restrict ι)) (Conv.St.map (restrict ι)) where
  init := rfl
  clean := fun _ => rfl
  get := fun i => by
    simp only [Conv.St.map, List.length_map]
    split <;> rfl
  set := fun _ _ => rfl
  pstep := pstep_restrict c ι
  padding := rfl
  makePad := fun x => Conv.fill_make_map rfl c.fill x

theorem hom : Hom (mod (β := β) c) (mod (β := β') c) (.stream (restrict ι)) (.stream (restrict ι))
    (Conv.St.map (restrict ι)) where
  init := rfl
  clean := fun _ => rfl
  fwd := fun i xs => by simp only [forward_restrict]; cases forward c xs <;> rfl
  step := (leafHom c ι).forwardStep
  steps := (leafHom c ι).forwardSteps

end ConvNd

/-! ### Pooling -/

namespace PoolNd

theorem hom {X Y X' Y' : Type} {f : X → X'} {g : Y → Y'} {ok : Bool} {a : Pool.Cfg X Y} {a' : Pool.Cfg X' Y'}
    {fwd : List X → Except Err (List Y)} {fwd' : List X' → Except Err (List Y')} (h : Pool.CfgHom a a' f g)
    (hf : ∀ xs, fwd' (xs.map f) = (fwd xs).map (List.map g)) :
    Hom (mod ok a fwd) (mod ok a' fwd') (.stream f) (.stream g) (Pool.St.map g) := by
  have hl : LeafHom (leaf ok a) (leaf ok a') f g (Pool.St.map g) (Pool.St.map g) := by
    have h0 := Pool.leafHom h
    refine ⟨h0.init, h0.clean, h0.get, h0.set, ?_, h0.padding, h0.makePad⟩
    intro x s
    cases ok
    · rfl
    · exact h0.pstep x s
  exact ⟨rfl, fun _ => rfl, fun i xs => by simp only [hf]; cases fwd xs <;> rfl, hl.forwardStep, hl.forwardSteps⟩

variable {R β β' : Type} (ι : β' → β)

theorem Avg.hom [Field R] (c : Avg) :
    Hom (c.mod (R := R) (β := β)) (c.mod (R := R) (β := β')) (.stream (restrict ι)) (.stream (restrict ι))
      (Pool.St.map (restrict ι)) := by
  apply PoolNd.hom
  · refine ⟨rfl, rfl, rfl, rfl, fun _ => rfl, ?_, ?_, ?_⟩
    · intro ys
      funext b p
      simp [restrict, Function.comp_def]
    · intro x; exact Conv.fill_make_map rfl c.fill x
    · intro x; exact Conv.fill_make_map rfl c.fill x
  · intro xs
    unfold Avg.forward
    simp only [List.length_map, List.map_eq_nil_iff]
    split
    · rfl
    · simp only [Except.map, List.map_map]
      congr 1
      apply List.map_congr_left
      intro t _
      funext b p
      simp only [Function.comp_def, restrict, List.getElem?_map]
      congr 1
      apply Finset.sum_congr rfl; intro k _
      split
      · cases xs[t * c.refTime.s + k - c.refTime.p]? <;> rfl
      · rfl

theorem Max.hom [Zero R] [LinearOrder R] [OrderBot R] (c : Max) :
    Hom (c.mod (R := R) (β := β)) (c.mod (R := R) (β := β')) (.stream (restrict ι)) (.stream (restrict ι))
      (Pool.St.map (restrict ι)) := by
  apply PoolNd.hom
  · refine ⟨rfl, rfl, rfl, rfl, fun _ => rfl, ?_, ?_, ?_⟩
    · intro ys
      funext b p
      simp [restrict, Function.comp_def]
    · intro x; exact Pool.TFill.make_restrict ι c.fill x
    · intro x; exact Pool.TFill.make_restrict ι c.fill x
  · intro xs
    unfold Max.forward
    simp only [List.length_map, List.map_eq_nil_iff]
    split
    · rfl
    · simp only [Except.map, List.map_map]
      congr 1
      apply List.map_congr_left
      intro t _
      funext b p
      simp only [Function.comp_def, restrict, List.getElem?_map]
      apply Finset.sup_congr rfl; intro k _
      split
      · cases xs[t * c.shape.time.s + k * c.shape.time.d - c.shape.time.p]? <;> rfl
      · rfl

end PoolNd

/-! ### Attention -/

namespace Attn

/-- Corresponding attention modules. -/
structure BaseHom {X O X' O' : Type} (b : Base X O) (b' : Base X' O') (f : X → X') (g : O → O') (σ : b.S → b'.S) :
    Prop where
  N : b'.N = b.N
  dflt : b'.dflt = b.dflt.map σ
  sdpa : ∀ s x, b'.sdpa (σ s) (f x) = (b.sdpa s x).map fun p => (g p.1, σ p.2)
  fwd : ∀ xs, b'.fwd (xs.map f) = (b.fwd xs).map (List.map g)

section
variable {X O X' O' : Type} {b : Base X O} {b' : Base X' O'} {f : X → X'} {g : O → O'} {σ : b.S → b'.S}

theorem BaseHom.pstep (h : BaseHom b b' f g σ) (x : X) (s : Option (b.S × Int)) :
    Attn.pstep b' (f x) (s.map (Prod.map σ id)) =
      (Attn.pstep b x s).map fun p => (p.1.map g, p.2.map (Prod.map σ id)) := by
  have hs : start b' (s.map (Prod.map σ id)) = (start b s).map (Prod.map σ id) := by
    cases s with
    | some s => rfl
    | none => simp only [start, Option.map_none, h.dflt, h.N]; cases b.dflt <;> rfl
  unfold Attn.pstep
  rw [hs]
  cases start b s with
  | error e => rfl
  | ok p =>
    obtain ⟨st, idx⟩ := p
    simp only [Except.map, Prod.map, h.sdpa]
    cases b.sdpa st x with
    | error e => rfl
    | ok q =>
      simp only [id]
      generalize (if idx < 0 then idx + 1 else idx) = j
      split <;> rfl

theorem BaseHom.loop (h : BaseHom b b' f g σ) (xs : List X) : ∀ s : Option (b.S × Int),
    Attn.loop b' (s.map (Prod.map σ id)) (xs.map f) =
      (Attn.loop b s xs).map fun p => (p.1.map g, p.2.map (Prod.map σ id)) := by
  induction xs with
  | nil => intro s; rfl
  | cons x xs ih =>
    intro s
    simp only [List.map_cons, Attn.loop, h.pstep]
    cases Attn.pstep b x s with
    | error e => rfl
    | ok p =>
      simp only [Except.map, ih]
      cases Attn.loop b p.2 xs with
      | error e => rfl
      | ok q => cases p.1 <;> simp

theorem BaseHom.hom (h : BaseHom b b' f g σ) :
    Hom b.mod b'.mod (.stream f) (.stream g) (Option.map (Prod.map σ id)) where
  init := rfl
  clean := fun _ => rfl
  fwd := fun i xs => by simp only [h.fwd]; cases b.fwd xs <;> rfl
  step := fun i u x => by
    simp only [Attn.step, h.pstep]
    cases Attn.pstep b x i with
    | error e => rfl
    | ok p => cases u <;> cases i <;> rfl
  steps := fun i p u xs => by
    simp only [Attn.steps, h.loop]
    cases Attn.loop b i xs with
    | error e => rfl
    | ok q =>
      obtain ⟨os, s'⟩ := q
      simp only [Except.map]
      cases u <;> cases i <;> cases s' <;> cases xs <;> simp [optList_map]
end

theorem rollSet_map {α β : Type} (g : α → β) (l : List α) (a : α) :
    rollSet (l.map g) (g a) = (rollSet l a).map (List.map g) := by
  unfold rollSet
  rw [← List.map_drop, ← List.map_take, ← List.map_append, pySet_map]

section
variable {F X Y X' Y' B B' E : Type} [Field F] [Fintype E] {c : Cfg F X Y B E} {c' : Cfg F X' Y' B' E} {κ : B' → B}
  {f : X → X'} {g : Y → Y'}

/-- Corresponding projections. -/
structure CfgHom (c : Cfg F X Y B E) (c' : Cfg F X' Y' B' E) (κ : B' → B) (f : X → X') (g : Y → Y') : Prop where
  N : c'.N = c.N
  q : ∀ x, c'.q (f x) = restrict κ (c.q x)
  k : ∀ x, c'.k (f x) = restrict κ (c.k x)
  v : ∀ x, c'.v (f x) = restrict κ (c.v x)
  scale : c'.scale = c.scale
  ex : c'.ex = c.ex
  out : ∀ y, c'.out (restrict κ y) = g (c.out y)

theorem CfgHom.sq (h : CfgHom c c' κ f g) (x : X) : Attn.sq c' (f x) = restrict κ (Attn.sq c x) := by
  funext i e
  simp only [Attn.sq, h.q, h.scale]

theorem CfgHom.w (h : CfgHom c c' κ f g) (q k : B → E → F) :
    Attn.w c' (restrict κ q) (restrict κ k) = restrict κ (Attn.w c q k) := by
  funext i
  simp only [Attn.w, h.ex]
  rfl

theorem mix_restrict (κ : B' → B) (as : List (B → F)) (vs : List (B → E → F)) :
    mix (as.map (restrict κ)) (vs.map (restrict κ)) = restrict κ (mix as vs) := by
  have hs : ∀ l : List (B → E → F), (l.map (restrict κ)).sum = restrict κ l.sum := by
    intro l
    induction l with
    | nil => rfl
    | cons a l ih => rw [List.map_cons, List.sum_cons, List.sum_cons, ih]; rfl
  unfold mix
  rw [← hs]
  congr 1
  induction as generalizing vs with
  | nil => rfl
  | cons a as ih =>
    cases vs with
    | nil => rfl
    | cons v vs => simp only [List.map_cons, List.zipWith_cons_cons, ih]

theorem CfgHom.attnRow (h : CfgHom c c' κ f g) (q : B → E → F) (ks vs : List (B → E → F)) :
    Attn.attnRow c' (restrict κ q) (ks.map (restrict κ)) (vs.map (restrict κ)) = restrict κ (Attn.attnRow c q ks vs) := by
  unfold Attn.attnRow
  rw [← mix_restrict]
  congr 1
  simp only [softmax, List.map_map, h.ex]
  apply List.map_congr_left
  intro k _
  rfl

/-- Restrict all tensors of the state. -/
def RetroSt.restrict (κ : B' → B) (s : RetroSt F B E) : RetroSt F B' E :=
  ⟨s.d.map (CoInf.restrict κ), s.AV.map (CoInf.restrict κ), s.Q.map (CoInf.restrict κ), s.K.map (CoInf.restrict κ),
    s.V.map (CoInf.restrict κ)⟩

/-- Restrict all tensors of the state. -/
def SingleSt.restrict (κ : B' → B) (s : SingleSt F B E) : SingleSt F B' E :=
  ⟨s.Q.map (CoInf.restrict κ), s.K.map (CoInf.restrict κ), s.V.map (CoInf.restrict κ)⟩

theorem zipWith_map_map {α β γ α' β' γ' : Type} (op : α → β → γ) (op' : α' → β' → γ') (a : α → α') (b : β → β')
    (k : γ → γ') (h : ∀ x y, op' (a x) (b y) = k (op x y)) (l : List α) : ∀ m : List β,
    List.zipWith op' (l.map a) (m.map b) = (List.zipWith op l m).map k := by
  induction l with
  | nil => intro m; rfl
  | cons x l ih => intro m; cases m <;> simp_all

theorem CfgHom.retroCore (h : CfgHom c c' κ f g) (s : RetroSt F B E) (q k v k0 v0 : B → E → F)
    (Qn Kn Vn : List (B → E → F)) :
    Attn.retroCore c' (s.restrict κ) (restrict κ q) (restrict κ k) (restrict κ v) (restrict κ k0) (restrict κ v0)
      (Qn.map (restrict κ)) (Kn.map (restrict κ)) (Vn.map (restrict κ)) =
    ((Attn.retroCore c s q k v k0 v0 Qn Kn Vn).1.map (restrict κ),
      (Attn.retroCore c s q k v k0 v0 Qn Kn Vn).2.restrict κ) := by
  have hw : ∀ (l : List (B → E → F)) (k : B → E → F),
      ((l.map (restrict κ)).map fun r => Attn.w c' r (restrict κ k)) = (l.map fun r => Attn.w c r k).map (restrict κ) := by
    intro l k
    simp only [List.map_map]
    apply List.map_congr_left
    intro r _
    exact h.w r k
  have hw' : ∀ (l : List (B → E → F)) (k : B → E → F),
      ((l.map (restrict κ)).map fun r => Attn.w c' (restrict κ k) r) = (l.map fun r => Attn.w c k r).map (restrict κ) := by
    intro l k
    simp only [List.map_map]
    apply List.map_congr_left
    intro r _
    exact h.w k r
  have hs : ∀ l : List (B → F), (l.map (restrict κ)).sum = restrict κ l.sum := by
    intro l
    induction l with
    | nil => rfl
    | cons a l ih => rw [List.map_cons, List.sum_cons, List.sum_cons, ih]; rfl
  have hv : ∀ (l : List (B → F)) (v : B → E → F),
      ((l.map (restrict κ)).map fun a => fun i e => a i * restrict κ v i e) =
        (l.map fun a => fun i e => a i * v i e).map (restrict κ) := by
    intro l v
    simp only [List.map_map]
    rfl
  have e1 := fun l m => zipWith_map_map (· - ·) (· - ·) (restrict κ) (restrict κ) (restrict κ)
    (fun (_ _ : B → F) => rfl) l m
  have e2 := fun l m => zipWith_map_map (· + ·) (· + ·) (restrict κ) (restrict κ) (restrict κ)
    (fun (_ _ : B → F) => rfl) l m
  have e3 := fun l m => zipWith_map_map (· - ·) (· - ·) (restrict κ) (restrict κ) (restrict κ)
    (fun (_ _ : B → E → F) => rfl) l m
  have e4 := fun l m => zipWith_map_map (· + ·) (· + ·) (restrict κ) (restrict κ) (restrict κ)
    (fun (_ _ : B → E → F) => rfl) l m
  have e5 := fun l m => zipWith_map_map (fun (av : B → E → F) (dd : B → F) => fun i e => av i e / dd i)
    (fun (av : B' → E → F) (dd : B' → F) => fun i e => av i e / dd i) (restrict κ) (restrict κ) (restrict κ)
    (fun _ _ => rfl) l m
  have s1 : ∀ l : List (B → F), [restrict κ l.sum] = [l.sum].map (restrict κ) := fun _ => rfl
  have s2 : ∀ l : B → E → F, [restrict κ l] = [l].map (restrict κ) := fun _ => rfl
  simp only [Attn.retroCore, RetroSt.restrict, hw, hw', hs, hv, mix_restrict, e1, e2, e3, e4, s1, s2,
    ← List.map_append, e5, List.map_drop]

theorem CfgHom.retroSdpa (h : CfgHom c c' κ f g) (s : RetroSt F B E) (x : X) :
    Attn.retroSdpa c' (s.restrict κ) (f x) =
      (Attn.retroSdpa c s x).map fun p => (p.1.map g, p.2.restrict κ) := by
  have hk : (s.restrict κ).K = s.K.map (restrict κ) := rfl
  have hq : (s.restrict κ).Q = s.Q.map (restrict κ) := rfl
  have hv : (s.restrict κ).V = s.V.map (restrict κ) := rfl
  unfold Attn.retroSdpa
  rw [hk, hq, hv, h.sq, h.k, h.v, pyGet_map, rollSet_map, rollSet_map, pyGet_map, rollSet_map]
  cases pyGet s.K 0 with
  | error e => rfl
  | ok k0 =>
    cases rollSet s.Q (Attn.sq c x) with
    | error e => rfl
    | ok Qn =>
      cases rollSet s.K (c.k x) with
      | error e => rfl
      | ok Kn =>
        cases pyGet s.V 0 with
        | error e => rfl
        | ok v0 =>
          cases rollSet s.V (c.v x) with
          | error e => rfl
          | ok Vn =>
            simp only [Except.map, bind, Except.bind, pure, Except.pure, h.retroCore, List.map_map, Function.comp_def,
              h.out]

theorem CfgHom.retroDefault (h : CfgHom c c' κ f g) :
    Attn.retroDefault c' = (Attn.retroDefault c).map (RetroSt.restrict κ) := by
  unfold Attn.retroDefault
  rw [h.N]
  split
  · rfl
  · simp only [Except.map, RetroSt.restrict, List.map_replicate]
    rfl

theorem CfgHom.singleDefault (h : CfgHom c c' κ f g) (qi : Int) :
    Attn.singleDefault c' qi = (Attn.singleDefault c qi).map (SingleSt.restrict κ) := by
  unfold Attn.singleDefault
  rw [h.N]
  split
  · rfl
  · simp only [Except.map, SingleSt.restrict, List.map_replicate]
    rfl

theorem CfgHom.singleSdpa (h : CfgHom c c' κ f g) (s : SingleSt F B E) (x : X) :
    Attn.singleSdpa c' (s.restrict κ) (f x) = (Attn.singleSdpa c s x).map fun p => (g p.1, p.2.restrict κ) := by
  obtain ⟨Q, K, V⟩ := s
  have hq : ((Q.map (restrict κ)).headD (restrict κ (Attn.sq c x))) = restrict κ (Q.headD (Attn.sq c x)) := by
    cases Q <;> rfl
  simp only [Attn.singleSdpa, SingleSt.restrict, h.sq, h.k, h.v, rollSet_map, hq]
  cases rollSet K (c.k x) with
  | error e => rfl
  | ok Kn =>
    cases rollSet V (c.v x) with
    | error e => rfl
    | ok Vn =>
      simp only [Except.map, h.attnRow, h.out, List.isEmpty_map]
      split
      · rfl
      · cases rollSet Q (Attn.sq c x) <;> rfl

end

/-! ### The axes of multi-head attention -/

namespace Nd
variable {F : Type} [Field F] {n n' H D E kd vd : Nat}

/-- The same module for another batch size (the parameters do not depend on it). -/
def Params.rebatch (p : Params F n H D kd vd) : Params F n' H D kd vd :=
  ⟨p.N, p.proj, p.inBias, p.biasKV, p.zeroAttn, p.outW, p.outB, p.sqrt, p.ex⟩

/-- Some entries of the batch of a frame. -/
def Frame.restrict (ι : Fin n' → Fin n) (x : Frame F n E kd vd) : Frame F n' E kd vd :=
  ⟨CoInf.restrict ι x.query, CoInf.restrict ι x.key, CoInf.restrict ι x.value⟩

/-- The heads of the entries. -/
def headIdx (H : Nat) (ι : Fin n' → Fin n) (b : Fin (n' * H)) : Fin (n * H) :=
  have hH : 0 < H := Nat.pos_of_ne_zero fun h => by have := b.isLt; simp [h] at this
  ⟨ι ⟨b / H, Nat.div_lt_of_lt_mul (Nat.mul_comm n' H ▸ b.isLt)⟩ * H + b % H, by
    have h1 := (ι ⟨b / H, Nat.div_lt_of_lt_mul (Nat.mul_comm n' H ▸ b.isLt)⟩).isLt
    have h2 := Nat.mod_lt b.val hH
    have h3 := Nat.mul_le_mul_right H (Nat.succ_le_of_lt h1)
    rw [Nat.succ_mul] at h3
    omega⟩

theorem heads_restrict (ι : Fin n' → Fin n) (x : Mat F n (H * D)) :
    heads (restrict ι x) = restrict (headIdx H ι) (heads x) := by
  funext b d
  have hH : 0 < H := Nat.pos_of_ne_zero fun h => by have := b.isLt; simp [h] at this
  have hD : 0 < D := Nat.lt_of_le_of_lt (Nat.zero_le _) d.isLt
  have hd := d.isLt
  have hq : ∀ r : Nat, (r * D + d) / (H * D) = r / H := by
    intro r
    rw [Nat.mul_comm H D, ← Nat.div_div_eq_div_mul, Nat.mul_comm r D, Nat.mul_add_div hD, Nat.div_eq_of_lt hd,
      Nat.add_zero]
  have hm : ∀ r : Nat, (r * D + d) % (H * D) = r % H * D + d := by
    intro r
    rw [Nat.mul_comm H D, Nat.mod_mul, Nat.mul_comm r D, Nat.mul_add_mod, Nat.mod_eq_of_lt hd, Nat.mul_add_div hD,
      Nat.div_eq_of_lt hd, Nat.add_zero]
    rw [Nat.add_comm, Nat.mul_comm]
  simp only [heads, restrict, headIdx]
  congr 1
  · congr 1
    apply Fin.ext
    simp only [hq]
    generalize (ι ⟨b.val / H, _⟩).val = r
    have : (r * H + b.val % H) / H = r := by
      rw [Nat.mul_comm r H, Nat.mul_add_div hH, Nat.div_eq_of_lt (Nat.mod_lt _ hH), Nat.add_zero]
    exact this.symm
  · apply Fin.ext
    simp only [hm]
    generalize (ι ⟨b.val / H, _⟩).val = r
    have : (r * H + b.val % H) % H = b.val % H := by
      rw [Nat.mul_comm r H, Nat.mul_add_mod, Nat.mod_mod]
    rw [this]

theorem unheads_restrict (ι : Fin n' → Fin n) (y : Mat F (n * H) D) :
    unheads (restrict (headIdx H ι) y) = restrict ι (unheads y) := by
  funext b e
  have he := e.isLt
  have hD : 0 < D := Nat.pos_of_ne_zero fun h => by simp [h] at he
  have hH : 0 < H := Nat.pos_of_ne_zero fun h => by simp [h] at he
  have heD : e.val / D < H := Nat.div_lt_of_lt_mul (Nat.mul_comm H D ▸ he)
  have hq : ∀ r : Nat, (r * (H * D) + e) / D = r * H + e / D := by
    intro r
    rw [← Nat.mul_assoc, Nat.mul_comm _ D, Nat.mul_add_div hD]
  have hm : ∀ r : Nat, (r * (H * D) + e) % D = e % D := by
    intro r
    rw [← Nat.mul_assoc, Nat.mul_comm _ D, Nat.mul_add_mod]
  simp only [unheads, restrict, headIdx]
  congr 1
  · congr 1
    simp only [hq]
    have h1 : (b.val * H + e.val / D) / H = b.val := by
      rw [Nat.mul_comm _ H, Nat.mul_add_div hH, Nat.div_eq_of_lt heD, Nat.add_zero]
    have h2 : (b.val * H + e.val / D) % H = e.val / D := by
      rw [Nat.mul_comm _ H, Nat.mul_add_mod, Nat.mod_eq_of_lt heD]
    simp only [h1, h2]
  · apply Fin.ext
    simp only [hm]

theorem linear_restrict {o i : Nat} (w : Mat F o i) (b : Option (Fin o → F)) (ι : Fin n' → Fin n) (x : Mat F n i) :
    linear w b (restrict ι x) = restrict ι (linear w b x) := rfl

theorem qkv_restrict (p : Proj F E kd vd) (b : Option (Fin (3 * E) → F)) (ι : Fin n' → Fin n)
    (x : Frame F n E kd vd) :
    qkv p b (x.restrict ι) = (restrict ι (qkv p b x).1, restrict ι (qkv p b x).2.1, restrict ι (qkv p b x).2.2) := by
  cases p <;> rfl

variable (p : Params F n H D kd vd) (ι : Fin n' → Fin n)

theorem cfg_hom : CfgHom (cfg p) (cfg (p.rebatch (n' := n'))) (headIdx H ι) (Frame.restrict ι) (restrict ι) where
  N := rfl
  q := fun x => by simp only [cfg, Params.rebatch, qkv_restrict, heads_restrict]
  k := fun x => by simp only [cfg, Params.rebatch, qkv_restrict, heads_restrict]
  v := fun x => by simp only [cfg, Params.rebatch, qkv_restrict, heads_restrict]
  scale := rfl
  ex := rfl
  out := fun y => by simp only [cfg, Params.rebatch, unheads_restrict, linear_restrict]

theorem keys_restrict (xs : List (Frame F n (H * D) kd vd)) :
    keys (p.rebatch (n' := n')) (xs.map (Frame.restrict ι)) = (keys p xs).map (restrict (headIdx H ι)) := by
  unfold keys
  have h1 : (xs.map (Frame.restrict ι)).map (cfg (p.rebatch (n' := n'))).k =
      (xs.map (cfg p).k).map (restrict (headIdx H ι)) := by
    simp only [List.map_map]
    exact List.map_congr_left fun x _ => (cfg_hom p ι).k x
  rw [h1, List.map_append, List.map_append]
  congr 1
  · congr 1
    simp only [Params.rebatch]
    cases p.biasKV with
    | none => rfl
    | some b => simp only [Option.map_some, Option.toList_some, List.map_cons, List.map_nil, ← heads_restrict]
  · have hz : (p.rebatch (n' := n')).zeroAttn = p.zeroAttn := rfl
    rw [hz]
    by_cases h : p.zeroAttn = true
    · rw [if_pos h, if_pos h]; rfl
    · rw [if_neg h, if_neg h]; rfl

theorem values_restrict (xs : List (Frame F n (H * D) kd vd)) :
    values (p.rebatch (n' := n')) (xs.map (Frame.restrict ι)) = (values p xs).map (restrict (headIdx H ι)) := by
  unfold values
  have h1 : (xs.map (Frame.restrict ι)).map (cfg (p.rebatch (n' := n'))).v =
      (xs.map (cfg p).v).map (restrict (headIdx H ι)) := by
    simp only [List.map_map]
    exact List.map_congr_left fun x _ => (cfg_hom p ι).v x
  rw [h1, List.map_append, List.map_append]
  congr 1
  · congr 1
    simp only [Params.rebatch]
    cases p.biasKV with
    | none => rfl
    | some b => simp only [Option.map_some, Option.toList_some, List.map_cons, List.map_nil, ← heads_restrict]
  · have hz : (p.rebatch (n' := n')).zeroAttn = p.zeroAttn := rfl
    rw [hz]
    by_cases h : p.zeroAttn = true
    · rw [if_pos h, if_pos h]; rfl
    · rw [if_neg h, if_neg h]; rfl

theorem row_restrict (x : Frame F n (H * D) kd vd) (xs : List (Frame F n (H * D) kd vd)) :
    row (p.rebatch (n' := n')) (x.restrict ι) (xs.map (Frame.restrict ι)) = restrict ι (row p x xs) := by
  unfold row
  rw [keys_restrict, values_restrict, (cfg_hom p ι).sq, (cfg_hom p ι).attnRow, (cfg_hom p ι).out]

theorem check_rebatch : check (p.rebatch (n' := n')) = check p := rfl

theorem retro_hom : BaseHom (retroBase p) (retroBase (p.rebatch (n' := n'))) (Frame.restrict ι) (List.map (restrict ι))
    (RetroSt.restrict (headIdx H ι)) where
  N := rfl
  dflt := (cfg_hom p ι).retroDefault
  sdpa := fun s x => by
    simp only [check_rebatch]
    cases check p with
    | error e => rfl
    | ok _ => exact (cfg_hom p ι).retroSdpa s x
  fwd := fun xs => by
    simp only [Except.map, List.map_map, List.map_cons, List.map_nil]
    congr 2
    exact List.map_congr_left fun x _ => row_restrict p ι x xs

theorem single_hom (qi : Int) (sf : Bool) :
    BaseHom (singleBase p qi sf) (singleBase (p.rebatch (n' := n')) qi sf) (Frame.restrict ι) (restrict ι)
      (SingleSt.restrict (headIdx H ι)) where
  N := rfl
  dflt := (cfg_hom p ι).singleDefault qi
  sdpa := fun s x => by
    simp only [check_rebatch]
    cases check p with
    | error e => rfl
    | ok _ => exact (cfg_hom p ι).singleSdpa s x
  fwd := fun xs => by
    cases sf
    · simp only [Bool.false_eq_true, if_false, Except.map, List.map_map]
      congr 1
      exact List.map_congr_left fun x _ => row_restrict p ι x xs
    · simp only [if_true, pyGet_map]
      cases pyGet xs qi with
      | error e => rfl
      | ok x => simp only [Except.map, row_restrict, List.map_cons, List.map_nil]

end Nd

end Attn

end CoInf
