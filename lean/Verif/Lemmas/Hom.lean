/-
Translations between modules: a map of the attributes that commutes with all methods.
-/
import Verif.Spec.Batch
import Verif.Model.Pool
import Verif.Model.Closure
import Verif.Model.Broadcast
import Verif.Model.Rnn

set_option autoImplicit false

namespace CoInf

open Spec (SigMap)

/-- `π` translates the objects of `M` to those of `M'`, along the translations `a`, `b` of inputs and outputs. -/
structure Hom {I I' O O' : Sig} (M : CoMod I O) (M' : CoMod I' O') (a : SigMap I I') (b : SigMap O O')
    (π : M.Inst → M'.Inst) : Prop where
  init : M'.init = π M.init
  clean : ∀ i, M'.clean (π i) = π (M.clean i)
  fwd : ∀ i xs, M'.fwd (π i) (a.clip xs) = (M.fwd i xs).map fun p => (b.clip p.1, π p.2)
  step : ∀ i u x, M'.step (π i) u (a.step x) = (M.step i u x).map fun p => (p.1.map b.step, π p.2)
  steps : ∀ i p u xs, M'.steps (π i) p u (a.clip xs) = (M.steps i p u xs).map fun p => (p.1.map b.clip, π p.2)

theorem Hom.call {I I' O O' : Sig} {M : CoMod I O} {M' : CoMod I' O'} {a : SigMap I I'} {b : SigMap O O'}
    {π : M.Inst → M'.Inst} (h : Hom M M' a b π) (i : M.Inst) (c : Spec.Call I) :
    Spec.call M' (π i) (c.map a) = (Spec.call M i c).map fun p => (p.1.map b, π p.2) := by
  cases c with
  | step u x =>
    simp only [Spec.Call.map, Spec.call, h.step]
    cases M.step i u x <;> rfl
  | steps p u xs =>
    simp only [Spec.Call.map, Spec.call, h.steps]
    cases M.steps i p u xs <;> rfl
  | clean => simp only [Spec.Call.map, Spec.call, h.clean]; rfl
  | fwd xs =>
    simp only [Spec.Call.map, Spec.call, h.fwd]
    cases M.fwd i xs <;> rfl

theorem Hom.calls {I I' O O' : Sig} {M : CoMod I O} {M' : CoMod I' O'} {a : SigMap I I'} {b : SigMap O O'}
    {π : M.Inst → M'.Inst} (h : Hom M M' a b π) (cs : List (Spec.Call I)) : ∀ i : M.Inst,
    (Spec.calls M' (π i) (cs.map (Spec.Call.map a))).1 = (Spec.calls M i cs).1.map (Spec.CallRes.map b) := by
  induction cs with
  | nil => intro i; rfl
  | cons c cs ih =>
    intro i
    simp only [List.map_cons, Spec.calls, h.call]
    cases Spec.call M i c with
    | error e => rfl
    | ok p => simp only [Except.map, List.map_cons, ih]

theorem Hom.follows {I I' O O' : Sig} {M : CoMod I O} {M' : CoMod I' O'} {a : SigMap I I'} {b : SigMap O O'}
    {π : M.Inst → M'.Inst} (h : Hom M M' a b π) : Spec.Follows M M' a b := by
  intro cs
  rw [h.init]
  exact h.calls cs _

/-! ### Python lists -/

theorem pyGet_map {α β : Type} (f : α → β) (l : List α) (i : Int) : pyGet (l.map f) i = (pyGet l i).map f := by
  unfold pyGet
  simp only [List.length_map, List.getElem?_map]
  generalize (if i < 0 then i + (l.length : Int) else i) = j
  by_cases hj : j < 0
  · simp [hj, Except.map]
  · simp only [if_neg hj]
    cases l[j.toNat]? <;> rfl

theorem pySet_map {α β : Type} (f : α → β) (l : List α) (i : Int) (a : α) :
    pySet (l.map f) i (f a) = (pySet l i a).map (List.map f) := by
  unfold pySet
  simp only [List.length_map]
  generalize (if i < 0 then i + (l.length : Int) else i) = j
  split
  · rfl
  · split
    · simp [Except.map, List.map_set]
    · rfl

theorem optList_map {α β : Type} (f : α → β) (l : List α) : optList (l.map f) = (optList l).map (List.map f) := by
  cases l <;> rfl

/-! ### Base class -/

/-- Translation of a leaf. -/
structure LeafHom {X Y X' Y' : Type} (L : Leaf X Y) (L' : Leaf X' Y') (f : X → X') (g : Y → Y')
    (πI : L.Inst → L'.Inst) (πS : L.St → L'.St) : Prop where
  init : L'.init = πI L.init
  clean : ∀ i, L'.clean (πI i) = πI (L.clean i)
  get : ∀ i, L'.get (πI i) = (L.get i).map πS
  set : ∀ s i, L'.set (πS s) (πI i) = πI (L.set s i)
  pstep : ∀ x s, L'.pstep (f x) (s.map πS) = (L.pstep x s).map fun p => (p.1.map g, p.2.map πS)
  padding : L'.padding = L.padding
  makePad : ∀ x, L'.makePad (f x) = f (L.makePad x)

section
variable {X Y X' Y' : Type} {L : Leaf X Y} {L' : Leaf X' Y'} {f : X → X'} {g : Y → Y'}
  {πI : L.Inst → L'.Inst} {πS : L.St → L'.St} (h : LeafHom L L' f g πI πS)
include h

theorem LeafHom.save (u : Bool) (s : Option L.St) (i : L.Inst) :
    L'.save u (s.map πS) (πI i) = πI (L.save u s i) := by
  unfold Leaf.save
  cases u
  · rfl
  · cases s with
    | none => rfl
    | some s => exact h.set s i

theorem LeafHom.forwardStep (i : L.Inst) (u : Bool) (x : X) :
    L'.forwardStep (πI i) u (f x) = (L.forwardStep i u x).map fun p => (p.1.map g, πI p.2) := by
  simp only [Leaf.forwardStep, h.get, h.pstep]
  cases L.pstep x (L.get i) with
  | error e => rfl
  | ok p => simp only [Except.map, bind, Except.bind, pure, Except.pure, h.save]

theorem LeafHom.loop (xs : List X) : ∀ s : Option L.St,
    L'.loop (s.map πS) (xs.map f) = (L.loop s xs).map fun p => (p.1.map g, p.2.map πS) := by
  induction xs with
  | nil => intro s; rfl
  | cons x xs ih =>
    intro s
    simp only [List.map_cons, Leaf.loop, h.pstep]
    cases L.pstep x s with
    | error e => rfl
    | ok p =>
      simp only [Except.map, bind, Except.bind, pure, Except.pure, ih]
      cases L.loop p.2 xs with
      | error e => rfl
      | ok q =>
        simp only [List.map_append]
        cases p.1 <;> rfl

theorem LeafHom.endPads (xs : List X) : L'.endPads (xs.map f) = (L.endPads xs).map (List.map f) := by
  unfold Leaf.endPads
  rw [h.padding, List.getLast?_map]
  cases L.padding with
  | zero => rfl
  | succ n =>
    cases xs.getLast? with
    | none => rfl
    | some x => simp [Except.map, h.makePad]

theorem LeafHom.padState (i : L.Inst) (s : Option L.St) :
    L'.padState (πI i) (s.map πS) = (L.padState i s).map πS := by
  unfold Leaf.padState
  rw [h.get]
  cases L.get i <;> rfl

theorem LeafHom.forwardSteps (i : L.Inst) (p u : Bool) (xs : List X) :
    L'.forwardSteps (πI i) p u (xs.map f) = (L.forwardSteps i p u xs).map fun p => (p.1.map (List.map g), πI p.2) := by
  simp only [Leaf.forwardSteps, h.get, h.loop, h.endPads]
  cases hl : L.loop (L.get i) xs with
  | error e => rfl
  | ok q =>
    cases p
    · simp only [Except.map, bind, Except.bind, pure, Except.pure, h.save, optList_map, Bool.false_eq_true, if_false]
    · simp only [Except.map, bind, Except.bind, pure, Except.pure, h.save, h.padState, if_true]
      cases L.endPads xs with
      | error e => rfl
      | ok pads =>
        simp only [h.loop]
        cases L.loop (L.padState (L.save u q.2 i) q.2) pads with
        | error e => rfl
        | ok r => simp only [Except.map, ← List.map_append, optList_map]

end

/-! ### Frame-wise modules, delay -/

theorem Pointwise.hom {X Y X' Y' : Type} {f : X → X'} {g : Y → Y'} {h : X → Y} {h' : X' → Y'}
    (hh : ∀ x, h' (f x) = g (h x)) : Hom (Pointwise.mod h) (Pointwise.mod h') (.stream f) (.stream g) id where
  init := rfl
  clean := fun _ => rfl
  fwd := fun i xs => by simp [Except.map, hh]
  step := fun i u x => by simp [Except.map, hh]
  steps := fun i p u xs => by simp [Except.map, hh]

theorem Stepping.hom {X Y X' Y' : Type} {f : X → X'} {g : Y → Y'} {h : List X → Except Err (List Y)}
    {h' : List X' → Except Err (List Y')} {s p : Nat} (hh : ∀ xs, h' (xs.map f) = (h xs).map (List.map g)) :
    Hom (Stepping.mod h s p) (Stepping.mod h' s p) (.stream f) (.stream g) id where
  init := rfl
  clean := fun _ => rfl
  fwd := fun i xs => by simp only [hh]; cases h xs <;> rfl
  step := fun i u x => by
    have := hh [x]
    simp only [List.map_cons, List.map_nil] at this
    simp only [this]
    rcases h [x] with e | (_ | ⟨y, _ | ⟨z, zs⟩⟩) <;> rfl
  steps := fun i p u xs => by simp only [hh]; cases h xs <;> rfl

namespace Delay
variable {X X' : Type} {f : X → X'} {c : Cfg X} {c' : Cfg X'}

/-- The state with all frames translated. -/
def St.map (f : X → X') (s : St X) : St X' := (s.1.map f, s.2)

theorem pstep_map (hd : c'.d = c.d) (hs : c'.shrink = c.shrink) (hf : ∀ x, c'.fill (f x) = f (c.fill x)) (x : X)
    (s : Option (St X)) :
    pstep c' (f x) (s.map (St.map f)) = (pstep c x s).map fun p => (p.1.map f, p.2.map (St.map f)) := by
  by_cases h0 : c.d = 0
  · simp [pstep, hd, h0, Except.map]
  · have key : ∀ st : St X,
        pstep c' (f x) (some (St.map f st)) = (pstep c x (some st)).map fun p => (p.1.map f, p.2.map (St.map f)) := by
      rintro ⟨b, i⟩
      simp only [pstep, hd, h0, if_false]
      simp only [St.map, pyGet_map, pySet_map, bind, Except.bind, pure, Except.pure]
      by_cases hi : i ≥ 0
      · simp only [if_pos hi]
        cases pyGet b i with
        | error e => rfl
        | ok o =>
          simp only [Except.map]
          cases pySet b (i % c.d) x <;> rfl
      · simp only [if_neg hi]
        cases pySet b (i % c.d) x <;> rfl
    cases s with
    | some st => exact key st
    | none =>
      have h1 : pstep c x none = pstep c x (some (initState c x)) := by simp [pstep, h0]
      have h2 : pstep c' (f x) none = pstep c' (f x) (some (St.map f (initState c x))) := by
        have : initState c' (f x) = St.map f (initState c x) := by simp [initState, St.map, hd, hs, hf]
        simp [pstep, hd, h0, this]
      rw [h1, Option.map_none, h2]
      exact key _

theorem leafHom (hd : c'.d = c.d) (hs : c'.shrink = c.shrink) (hf : ∀ x, c'.fill (f x) = f (c.fill x)) :
    LeafHom (leaf c) (leaf c') f f (St.map f) (St.map f) where
  init := rfl
  clean := fun _ => rfl
  get := fun i => by
    simp only [St.map, List.length_map]
    split <;> rfl
  set := fun _ _ => rfl
  pstep := pstep_map hd hs hf
  padding := hd
  makePad := hf

theorem forward_map (hd : c'.d = c.d) (hs : c'.shrink = c.shrink) (xs : List X) :
    forward c' (xs.map f) = (forward c xs).map f := by
  simp only [forward, hd, hs, List.length_map]
  split
  · rfl
  · split <;> simp

theorem hom (hd : c'.d = c.d) (hs : c'.shrink = c.shrink) (hf : ∀ x, c'.fill (f x) = f (c.fill x)) :
    Hom (mod c) (mod c') (.stream f) (.stream f) (St.map f) where
  init := rfl
  clean := fun _ => rfl
  fwd := fun i xs => by simp only [forward_map hd hs]; rfl
  step := fun i u x => by
    simp only [hd]
    split
    · rfl
    · exact (leafHom hd hs hf).forwardStep i u x
  steps := fun i p u xs => by
    simp only [hd]
    split
    · rfl
    · exact (leafHom hd hs hf).forwardSteps i p u xs

end Delay

/-! ### Pooling -/

namespace Pool
variable {X Y X' Y' : Type} {f : X → X'} {g : Y → Y'} {c : Cfg X Y} {c' : Cfg X' Y'}

/-- The state with all frames translated. -/
def St.map (g : Y → Y') (s : St Y) : St Y' := ⟨s.buffer.map g, s.index, s.strideIndex⟩

/-- Corresponding pooling modules. -/
structure CfgHom (c : Cfg X Y) (c' : Cfg X' Y') (f : X → X') (g : Y → Y') : Prop where
  K : c'.K = c.K
  S : c'.S = c.S
  P : c'.P = c.P
  dil : c'.dil = c.dil
  spatial : ∀ x, c'.spatial (f x) = g (c.spatial x)
  pool : ∀ ys, c'.pool (ys.map g) = g (c.pool ys)
  fillIn : ∀ x, c'.fillIn (f x) = f (c.fillIn x)
  fillOut : ∀ y, c'.fillOut (g y) = g (c.fillOut y)

theorem mapM_map {α β γ : Type} (h : α → Except Err β) (g : β → γ) (l : List α) :
    (l.mapM fun a => (h a).map g) = (l.mapM h).map (List.map g) := by
  induction l with
  | nil => rfl
  | cons a l ih =>
    simp only [List.mapM_cons, ih]
    cases h a with
    | error e => rfl
    | ok b => cases l.mapM h <;> rfl

theorem pstep_map (h : CfgHom c c' f g) (x : X) (s : Option (St Y)) :
    pstep c' (f x) (s.map (St.map g)) = (pstep c x s).map fun p => (p.1.map g, p.2.map (St.map g)) := by
  have hsel : ∀ (b : List Y) (n : Int), select c' (b.map g) n = (select c b n).map (List.map g) := by
    intro b n
    simp only [select, h.dil, h.K, List.length_map, pyGet_map]
    split
    · rfl
    · exact mapM_map _ _ _
  have key : ∀ st : St Y,
      pstep c' (f x) (some (St.map g st)) = (pstep c x (some st)).map fun p => (p.1.map g, p.2.map (St.map g)) := by
    rintro ⟨b, i, k⟩
    simp only [pstep, St.map, h.spatial, pySet_map, bind, Except.bind, pure, Except.pure, h.K, h.S]
    cases pySet b i (c.spatial x) with
    | error e => rfl
    | ok b' =>
      simp only [Except.map, hsel]
      by_cases hk : k = (c.S : Int) - 1
      · simp only [if_pos hk]
        cases select c b' ((i + 1) % (c.K : Int)) with
        | error e => rfl
        | ok sel => simp only [Except.map, h.pool]; rfl
      · simp only [if_neg hk]; rfl
  cases s with
  | some st => exact key st
  | none =>
    have h1 : pstep c x none = pstep c x (some (initState c (c.spatial x))) := rfl
    have h2 : pstep c' (f x) none = pstep c' (f x) (some (St.map g (initState c (c.spatial x)))) := by
      have : initState c' (c'.spatial (f x)) = St.map g (initState c (c.spatial x)) := by
        simp [initState, St.map, bufLen, h.K, h.S, h.P, h.dil, h.spatial, h.fillOut]
      rw [← this]; rfl
    rw [h1, Option.map_none, h2]
    exact key _

theorem leafHom (h : CfgHom c c' f g) : LeafHom (leaf c) (leaf c') f g (St.map g) (St.map g) where
  init := rfl
  clean := fun _ => rfl
  get := fun i => by
    simp only [St.map, List.length_map]
    split <;> rfl
  set := fun _ _ => rfl
  pstep := pstep_map h
  padding := h.P
  makePad := h.fillIn

end Pool

/-! ### Convolution -/

namespace Conv
variable {X Y X' Y' : Type} [Zero X] [Zero Y] [Add Y] [Zero X'] [Zero Y'] [Add Y'] {f : X → X'} {g : Y → Y'}
  {c : Cfg X Y} {c' : Cfg X' Y'}

/-- The state with all partial results translated. -/
def St.map (g : Y → Y') (s : St Y) : St Y' := ⟨s.buffer.map (List.map g), s.index, s.strideIndex⟩

/-- Corresponding temporal machinery; `w` is not mentioned. -/
structure CfgHom (c : Cfg X Y) (c' : Cfg X' Y') (f : X → X') (g : Y → Y') : Prop where
  K : c'.K = c.K
  S : c'.S = c.S
  P : c'.P = c.P
  fill : c'.fill = c.fill
  padMode : c'.padMode = c.padMode
  bias : c'.bias = c.bias.map g
  zeroX : f 0 = 0
  zeroY : g 0 = 0
  add : ∀ a b, g (a + b) = g a + g b

theorem CfgHom.stateless (h : CfgHom c c' f g) : Conv.stateless c' = Conv.stateless c := by
  simp only [Conv.stateless, h.K, h.P, h.S]

theorem CfgHom.addBias (h : CfgHom c c' f g) (y : Y) : Conv.addBias c' (g y) = g (Conv.addBias c y) := by
  simp only [Conv.addBias, h.bias]
  cases c.bias with
  | none => rfl
  | some b => simp [h.add]

theorem CfgHom.sum (h : CfgHom c c' f g) (l : List Y) : (l.map g).sum = g l.sum := by
  induction l with
  | nil => simp [h.zeroY]
  | cons a l ih => simp [h.add, ih]

theorem CfgHom.initState (h : CfgHom c c' f g) (rest : List Y) :
    Conv.initState c' (rest.map g) = St.map g (Conv.initState c rest) := by
  simp only [Conv.initState, St.map, h.K, h.S, h.P, padRest, h.fill]
  cases c.fill <;> simp [h.zeroY, Function.comp_def]

theorem CfgHom.output (h : CfgHom c c' f g) (st : St Y) (y : Y) :
    Conv.output c' (St.map g st) (g y) = (Conv.output c st y).map (Option.map g) := by
  have hp : pick (St.map g st) (c.K - 1) = (pick st (c.K - 1)).map (List.map g) := by
    unfold pick
    rw [← Pool.mapM_map]
    congr 1
    funext i
    simp only [St.map, pyGet_map, bind, Except.bind]
    cases pyGet st.buffer (((i : Int) + st.index) % (c.K - 1 : Nat)) with
    | error e => rfl
    | ok row => simp only [Except.map, pyGet_map]
  unfold Conv.output
  simp only [h.S, h.K, hp]
  have : (St.map g st).strideIndex = st.strideIndex := rfl
  rw [this]
  split
  · cases pick st (c.K - 1) with
    | error e => rfl
    | ok ps => simp only [bind, Except.bind, pure, Except.pure, Except.map, h.sum, ← h.add, h.addBias, Option.map]
  · rfl

theorem CfgHom.writeBack (h : CfgHom c c' f g) (st : St Y) (rest : List Y) :
    Conv.writeBack c' (St.map g st) (rest.map g) =
      (Conv.writeBack c st rest).map fun p => (p.1.map (List.map g), p.2) := by
  unfold Conv.writeBack
  simp only [h.K, St.map]
  split
  · rw [pySet_map (List.map g)]
    cases pySet st.buffer st.index rest <;> rfl
  · rfl

theorem fill_make_map {X X' : Type} [Zero X] [Zero X'] {f : X → X'} (hz : f 0 = 0) (m : Fill) (x : X) :
    m.make 0 (f x) = f (m.make 0 x) := by cases m <;> simp [Fill.make, hz]

end Conv

/-! ### Recurrent modules -/

namespace Rnn
variable {V S V' S' : Type} {f : V → V'} {σ : S → S'} {c : Cfg V S} {c' : Cfg V' S'}

/-- Corresponding layers. -/
structure CfgHom (c : Cfg V S) (c' : Cfg V' S') (f : V → V') (σ : S → S') : Prop where
  layers : List.Forall₂ (fun l l' => ∀ x s, l' (f x) (σ s) = (f (l x s).1, σ (l x s).2)) c.layers c'.layers
  zero : c'.zero = σ c.zero

theorem layer_map {l : Cell V S} {l' : Cell V' S'} (h : ∀ x s, l' (f x) (σ s) = (f (l x s).1, σ (l x s).2))
    (xs : List V) : ∀ s, layer l' (σ s) (xs.map f) = ((layer l s xs).1.map f, σ (layer l s xs).2) := by
  induction xs with
  | nil => intro s; rfl
  | cons x xs ih => intro s; simp [layer, h, ih]

theorem stack_map {ls : List (Cell V S)} {ls' : List (Cell V' S')}
    (h : List.Forall₂ (fun l l' => ∀ x s, l' (f x) (σ s) = (f (l x s).1, σ (l x s).2)) ls ls') :
    ∀ ss xs, stack ls' (ss.map σ) (xs.map f) = ((stack ls ss xs).1.map f, (stack ls ss xs).2.map σ) := by
  induction h with
  | nil => intro ss xs; rfl
  | cons h _ ih =>
    intro ss xs
    cases ss with
    | nil => rfl
    | cons s ss => simp [stack, layer_map h, ih]

theorem torchForward_map (h : CfgHom c c' f σ) (xs : List V) (hx : Option (List S)) :
    torchForward c' (xs.map f) (hx.map (List.map σ)) = (torchForward c xs hx).map fun p => (p.1.map f, p.2.map σ) := by
  have hl := h.layers.length_eq
  have hd : (hx.map (List.map σ)).getD (c'.layers.map fun _ => c'.zero) =
      (hx.getD (c.layers.map fun _ => c.zero)).map σ := by
    cases hx with
    | some s => rfl
    | none =>
      simp only [Option.map_none, Option.getD_none, List.map_map, List.map_const', h.zero, ← hl, Function.comp_def, List.map_replicate]
  unfold torchForward
  rw [hd]
  simp only [List.map_eq_nil_iff, List.length_map, ← hl]
  split
  · rfl
  · split
    · rfl
    · rw [stack_map h.layers]; rfl

theorem hom (h : CfgHom c c' f σ) :
    Hom (mod c) (mod c') (.stream f) (.stream f) (Option.map (List.map σ)) where
  init := rfl
  clean := fun _ => rfl
  fwd := fun i xs => by
    have := torchForward_map h xs none
    simp only [forward]
    rw [Option.map_none] at this
    rw [this]
    cases torchForward c xs none <;> rfl
  step := fun i u x => by
    have := torchForward_map h [x] i
    simp only [forwardStep, pstep]
    rw [List.map_singleton] at this
    rw [this]
    cases torchForward c [x] i with
    | error e => rfl
    | ok p => simp only [Except.map, List.head?_map]; cases u <;> rfl
  steps := fun i p u xs => by
    simp only [forwardSteps, forward, torchForward_map h xs i]
    cases torchForward c xs i with
    | error e => rfl
    | ok p => cases u <;> rfl

end Rnn

/-! ### Containers -/

/-- Corresponding members of a `Sequential`. -/
inductive ChainHom : {I I' O O' : Sig} → (c : Chain I O) → (c' : Chain I' O') → SigMap I I' → SigMap O O' →
    (c.Inst → c'.Inst) → Prop
  | single {I I' O O' : Sig} {M : CoMod I O} {M' : CoMod I' O'} {a : SigMap I I'} {b : SigMap O O'}
      {π : M.Inst → M'.Inst} (h : Hom M M' a b π) : ChainHom (.single M) (.single M') a b π
  | cons {I I' J J' O O' : Sig} {M : CoMod I J} {M' : CoMod I' J'} {c : Chain J O} {c' : Chain J' O'}
      {a : SigMap I I'} {b : SigMap J J'} {d : SigMap O O'} {π : M.Inst → M'.Inst} {ρ : c.Inst → c'.Inst}
      (h : Hom M M' a b π) (t : ChainHom c c' b d ρ) :
      ChainHom (.cons M c) (.cons M' c') a d fun i => (π i.1, ρ i.2)

theorem ChainHom.hom {I I' O O' : Sig} {c : Chain I O} {c' : Chain I' O'} {a : SigMap I I'} {b : SigMap O O'}
    {π : c.Inst → c'.Inst} (h : ChainHom c c' a b π) : Hom (Sequential.mod c) (Sequential.mod c') a b π := by
  induction h with
  | single h => exact ⟨h.init, h.clean, h.fwd, h.step, h.steps⟩
  | cons h t ih =>
    refine ⟨?_, ?_, ?_, ?_, ?_⟩
    · exact Prod.ext h.init ih.init
    · intro i
      exact Prod.ext (h.clean i.1) (ih.clean i.2)
    · intro i xs
      simp only [Chain.fwd, h.fwd]
      rename_i M M' c c' _ _ _ _ _
      cases M.fwd i.1 xs with
      | error e => rfl
      | ok p =>
        simp only [Except.map, bind, Except.bind, pure, Except.pure]
        have := ih.fwd i.2 p.1
        simp only at this
        rw [this]
        cases c.fwd i.2 p.1 <;> rfl
    · intro i u x
      simp only [Chain.step, h.step]
      rename_i M M' c c' _ _ _ _ _
      cases M.step i.1 u x with
      | error e => rfl
      | ok p =>
        obtain ⟨o, i1⟩ := p
        cases o with
        | none => rfl
        | some y =>
          simp only [Except.map, bind, Except.bind, pure, Except.pure, Option.map]
          have := ih.step i.2 u y
          simp only at this
          rw [this]
          cases c.step i.2 u y <;> rfl
    · intro i p u xs
      simp only [Chain.steps, h.steps]
      rename_i M M' c c' _ _ _ _ _
      cases M.steps i.1 p u xs with
      | error e => rfl
      | ok q =>
        obtain ⟨o, i1⟩ := q
        cases o with
        | none => rfl
        | some y =>
          simp only [Except.map, bind, Except.bind, pure, Except.pure, Option.map]
          have := ih.steps i.2 p u y
          simp only at this
          rw [this]
          cases c.steps i.2 p u y <;> rfl

/-- Corresponding reductions. -/
structure ReducerHom {Y Z Y' Z' : Type} (r : Reducer Y Z) (r' : Reducer Y' Z') (g : Y → Y') (k : Z → Z') : Prop where
  frame : ∀ ys, r'.frame (ys.map g) = (r.frame ys).map k
  clip : ∀ cs, r'.clip (cs.map (List.map g)) = (r.clip cs).map (List.map k)

theorem bcast2_map {Y Y' : Type} {op : Y → Y → Y} {op' : Y' → Y' → Y'} {g : Y → Y'}
    (h : ∀ a b, op' (g a) (g b) = g (op a b)) (a b : List Y) :
    bcast2 op' (a.map g) (b.map g) = (bcast2 op a b).map (List.map g) := by
  have hz : ∀ a b : List Y, List.zipWith op' (a.map g) (b.map g) = (List.zipWith op a b).map g := by
    intro a
    induction a with
    | nil => intro b; rfl
    | cons x a ih => intro b; cases b <;> simp_all
  unfold bcast2
  simp only [List.length_map, hz]
  split
  · rfl
  · rcases a with _ | ⟨x, _ | ⟨x', a⟩⟩ <;> rcases b with _ | ⟨y, _ | ⟨y', b⟩⟩ <;>
      simp_all [Except.map, Function.comp_def]

theorem foldReducer_hom {Y Y' : Type} {op : Y → Y → Y} {op' : Y' → Y' → Y'} {g : Y → Y'}
    (h : ∀ a b, op' (g a) (g b) = g (op a b)) : ReducerHom (foldReducer op) (foldReducer op') g g where
  frame := fun ys => by
    rcases ys with _ | ⟨y, _ | ⟨y', rest⟩⟩
    · rfl
    · rfl
    · simp only [foldReducer, List.map_cons, Except.map]
      have : ∀ (l : List Y) y, (l.map g).foldl op' (g y) = g (l.foldl op y) := by
        intro l
        induction l with
        | nil => intro y; rfl
        | cons a l ih => intro y; simp only [List.map_cons, List.foldl_cons, h, ih]
      exact congrArg _ (this (y' :: rest) y)
  clip := fun cs => by
    rcases cs with _ | ⟨y, _ | ⟨y', rest⟩⟩
    · rfl
    · rfl
    · simp only [foldReducer, List.map_cons]
      have : ∀ (l : List (List Y)) y,
          (l.map (List.map g)).foldlM (bcast2 op') (y.map g) = (l.foldlM (bcast2 op) y).map (List.map g) := by
        intro l
        induction l with
        | nil => intro y; rfl
        | cons a l ih =>
          intro y
          simp only [List.map_cons, List.foldlM_cons, bcast2_map h]
          cases bcast2 op y a with
          | error e => rfl
          | ok z => exact ih z
      exact this (y' :: rest) y

theorem catReducer_hom {Y Z Y' Z' : Type} {cat : List Y → Z} {cat' : List Y' → Z'} {g : Y → Y'} {k : Z → Z'}
    (h : ∀ ys, cat' (ys.map g) = k (cat ys)) : ReducerHom (catReducer cat) (catReducer cat') g k where
  frame := fun ys => by
    cases ys with
    | nil => rfl
    | cons y ys => simpa [catReducer, Except.map] using h (y :: ys)
  clip := fun cs => by
    rcases cs with _ | ⟨c, rest⟩
    · rfl
    · simp only [catReducer, List.map_cons, List.length_map]
      have hall : ((rest.map (List.map g)).all fun c' => decide (c'.length = c.length)) =
          rest.all fun c' => decide (c'.length = c.length) := by
        rw [List.all_map]; congr 1; funext l; simp
      rw [hall]
      split
      · have hc : ∀ t, column (c.map g :: rest.map (List.map g)) t = (column (c :: rest) t).map g := by
          intro t
          rw [← List.map_cons]
          generalize c :: rest = l
          induction l with
          | nil => rfl
          | cons a l ih =>
            unfold column at *
            rw [List.map_cons, List.filterMap_cons, List.filterMap_cons, List.getElem?_map]
            cases a[t]? <;> simp [ih]
        simp [Except.map, hc, h]
      · rfl

/-- Corresponding branches. -/
inductive BranchHom {X Y X' Y' : Type} (f : X → X') (g : Y → Y') :
    (ms : List (CoMod (.stream X) (.stream Y))) → (ms' : List (CoMod (.stream X') (.stream Y'))) →
    (BroadcastReduce.Inst ms → BroadcastReduce.Inst ms') → Prop
  | nil : BranchHom f g [] [] fun _ => ()
  | cons {M : CoMod (.stream X) (.stream Y)} {M' : CoMod (.stream X') (.stream Y')}
      {ms : List (CoMod (.stream X) (.stream Y))} {ms' : List (CoMod (.stream X') (.stream Y'))}
      {π : M.Inst → M'.Inst} {ρ : BroadcastReduce.Inst ms → BroadcastReduce.Inst ms'}
      (h : Hom M M' (.stream f) (.stream g) π) (t : BranchHom f g ms ms' ρ) :
      BranchHom f g (M :: ms) (M' :: ms') fun i => (π i.1, ρ i.2)

section
variable {X Y X' Y' : Type} {f : X → X'} {g : Y → Y'} {ms : List (CoMod (.stream X) (.stream Y))}
  {ms' : List (CoMod (.stream X') (.stream Y'))} {π : BroadcastReduce.Inst ms → BroadcastReduce.Inst ms'}

theorem allSome_map (l : List (Option Y)) (g : Y → Y') :
    allSome (l.map (Option.map g)) = (allSome l).map (List.map g) := by
  induction l with
  | nil => rfl
  | cons o l ih =>
    cases o with
    | none => rfl
    | some a => simp only [List.map_cons, Option.map_some, allSome, ih]; cases allSome l <;> rfl

theorem nonempty_map {A A' B B' : Type} {h : List A → Except Err B} {h' : List A' → Except Err B'} {g : A → A'}
    {k : B → B'} (hh : ∀ l, h' (l.map g) = (h l).map k) (l : List (Option A)) :
    nonempty h' (l.map (Option.map g)) = (nonempty h l).map (Option.map k) := by
  unfold nonempty
  rw [allSome_map]
  cases allSome l with
  | none => rfl
  | some l => simp only [Option.map_some, hh]; cases h l <;> rfl

theorem BranchHom.all (h : BranchHom f g ms ms' π) :
    (BroadcastReduce.init ms' = π (BroadcastReduce.init ms)) ∧
    (∀ i, BroadcastReduce.clean ms' (π i) = π (BroadcastReduce.clean ms i)) ∧
    (∀ i xs, BroadcastReduce.fwdAll ms' (π i) (xs.map f) =
      (BroadcastReduce.fwdAll ms i xs).map fun p => (p.1.map (List.map g), π p.2)) ∧
    (∀ i u x, BroadcastReduce.stepAll ms' (π i) u (f x) =
      (BroadcastReduce.stepAll ms i u x).map fun p => (p.1.map (Option.map g), π p.2)) ∧
    (∀ i p u xs, BroadcastReduce.stepsAll ms' (π i) p u (xs.map f) =
      (BroadcastReduce.stepsAll ms i p u xs).map fun p => (p.1.map (Option.map (List.map g)), π p.2)) := by
  induction h with
  | nil => exact ⟨rfl, fun _ => rfl, fun _ _ => rfl, fun _ _ _ => rfl, fun _ _ _ _ => rfl⟩
  | cons h t ih =>
    rename_i M M' ms ms' π ρ
    obtain ⟨h1, h2, h3, h4, h5⟩ := ih
    refine ⟨?_, ?_, ?_, ?_, ?_⟩
    · exact Prod.ext h.init h1
    · intro i
      exact Prod.ext (h.clean i.1) (h2 i.2)
    · intro i xs
      have := h.fwd i.1 xs
      simp only at this
      simp only [BroadcastReduce.fwdAll, this]
      cases M.fwd i.1 xs with
      | error e => rfl
      | ok p =>
        simp only [Except.map, bind, Except.bind, pure, Except.pure, h3]
        cases BroadcastReduce.fwdAll ms i.2 xs <;> rfl
    · intro i u x
      have := h.step i.1 u x
      simp only at this
      simp only [BroadcastReduce.stepAll, this]
      cases M.step i.1 u x with
      | error e => rfl
      | ok p =>
        simp only [Except.map, bind, Except.bind, pure, Except.pure, h4]
        cases BroadcastReduce.stepAll ms i.2 u x <;> rfl
    · intro i p u xs
      have := h.steps i.1 p u xs
      simp only at this
      simp only [BroadcastReduce.stepsAll, this]
      cases M.steps i.1 p u xs with
      | error e => rfl
      | ok p =>
        simp only [Except.map, bind, Except.bind, pure, Except.pure, h5]
        cases BroadcastReduce.stepsAll ms i.2 _ u xs <;> rfl

theorem BranchHom.hom {Z Z' : Type} {k : Z → Z'} {r : Reducer Y Z} {r' : Reducer Y' Z'} (h : BranchHom f g ms ms' π)
    (hr : ReducerHom r r' g k) :
    Hom (BroadcastReduce.mod r ms) (BroadcastReduce.mod r' ms') (.stream f) (.stream k) π := by
  obtain ⟨h1, h2, h3, h4, h5⟩ := h.all
  refine ⟨h1, h2, ?_, ?_, ?_⟩
  · intro i xs
    simp only [BroadcastReduce.fwd, h3]
    cases BroadcastReduce.fwdAll ms i xs with
    | error e => rfl
    | ok p =>
      simp only [Except.map, bind, Except.bind, pure, Except.pure, hr.clip]
      cases r.clip p.1 <;> rfl
  · intro i u x
    simp only [BroadcastReduce.step, h4]
    cases BroadcastReduce.stepAll ms i u x with
    | error e => rfl
    | ok p =>
      simp only [Except.map, bind, Except.bind, pure, Except.pure, nonempty_map hr.frame]
      cases nonempty r.frame p.1 <;> rfl
  · intro i p u xs
    simp only [BroadcastReduce.steps, h5]
    cases BroadcastReduce.stepsAll ms i p u xs with
    | error e => rfl
    | ok p =>
      simp only [Except.map, bind, Except.bind, pure, Except.pure, nonempty_map hr.clip]
      cases nonempty r.clip p.1 <;> rfl

end

end CoInf
