/-
Behavioural equivalence of modules as a bisimulation, and flattening of nested `Sequential`s.
-/
import Verif.Model.Nest
import Verif.Spec.Equiv
import Mathlib.Tactic.Ring

set_option autoImplicit false

namespace CoInf
open Spec

/-- Equal exceptions or related results. -/
def ERel {α β : Type} (R : α → β → Prop) : Except Err α → Except Err β → Prop
  | .error e, .error e' => e = e'
  | .ok a, .ok b => R a b
  | _, _ => False

/-- Equal outputs, related objects. -/
def OutRel {γ α β : Type} (R : α → β → Prop) (a : γ × α) (b : γ × β) : Prop := a.1 = b.1 ∧ R a.2 b.2

theorem ERel.bind {α β γ δ : Type} {R : α → β → Prop} {Q : γ → δ → Prop}
    {a : Except Err α} {b : Except Err β} {f : α → Except Err γ} {g : β → Except Err δ}
    (h : ERel R a b) (hf : ∀ x y, R x y → ERel Q (f x) (g y)) : ERel Q (a >>= f) (b >>= g) := by
  cases a <;> cases b
  · exact h
  · exact h.elim
  · exact h.elim
  · exact hf _ _ h

theorem ERel.refl {α : Type} (a : Except Err α) : ERel (· = ·) a a := by
  cases a <;> rfl

theorem ERel.mono {α β : Type} {R Q : α → β → Prop} {a : Except Err α} {b : Except Err β}
    (h : ERel R a b) (hq : ∀ x y, R x y → Q x y) : ERel Q a b := by
  cases a <;> cases b
  · exact h
  · exact h.elim
  · exact h.elim
  · exact hq _ _ h

theorem ERel.trans {α β γ : Type} {R : α → β → Prop} {Q : β → γ → Prop}
    {a : Except Err α} {b : Except Err β} {c : Except Err γ}
    (h : ERel R a b) (k : ERel Q b c) : ERel (fun x z => ∃ y, R x y ∧ Q y z) a c := by
  cases a <;> cases b <;> cases c <;> first | exact h.elim | exact k.elim | exact Eq.trans h k |
    exact ⟨_, h, k⟩

theorem OutRel.refl {γ α : Type} (a : Except Err (γ × α)) : ERel (OutRel (· = ·)) a a := by
  cases a
  · rfl
  · exact ⟨rfl, rfl⟩

theorem OutRel.trans {γ α β δ : Type} {R : α → β → Prop} {Q : β → δ → Prop}
    {a : Except Err (γ × α)} {b : Except Err (γ × β)} {c : Except Err (γ × δ)}
    (h : ERel (OutRel R) a b) (k : ERel (OutRel Q) b c) :
    ERel (OutRel (fun x z => ∃ y, R x y ∧ Q y z)) a c :=
  (h.trans k).mono fun _ _ ⟨_, h1, h2⟩ => ⟨h1.1.trans h2.1, _, h1.2, h2.2⟩

/-- A bisimulation between two modules. -/
structure Bisim {I O : Sig} (M N : CoMod I O) where
  R : M.Inst → N.Inst → Prop
  init : R M.init N.init
  clean : ∀ i j, R i j → R (M.clean i) (N.clean j)
  fwd : ∀ i j x, R i j → ERel (OutRel R) (M.fwd i x) (N.fwd j x)
  step : ∀ i j u x, R i j → ERel (OutRel R) (M.step i u x) (N.step j u x)
  steps : ∀ i j p u x, R i j → ERel (OutRel R) (M.steps i p u x) (N.steps j p u x)
  T : Option M.St → Option N.St → Prop
  tnone : T none none
  pstep : ∀ x s t, T s t → ERel (OutRel T) (M.pstep x s) (N.pstep x t)

/-- A bisimulation between the member lists of two `Sequential`s. -/
structure CBisim {I O : Sig} (c d : Chain I O) where
  R : c.Inst → d.Inst → Prop
  init : R c.init d.init
  clean : ∀ i j, R i j → R (c.clean i) (d.clean j)
  fwd : ∀ i j x, R i j → ERel (OutRel R) (c.fwd i x) (d.fwd j x)
  step : ∀ i j u x, R i j → ERel (OutRel R) (c.step i u x) (d.step j u x)
  steps : ∀ i j p u x, R i j → ERel (OutRel R) (c.steps i p u x) (d.steps j p u x)
  T : c.St → d.St → Prop
  tnone : T c.noneSt d.noneSt
  pstep : ∀ x s t, T s t → ERel (OutRel T) (c.pstepAll x s) (d.pstepAll x t)

namespace Bisim
variable {I O : Sig}

def refl (M : CoMod I O) : Bisim M M where
  R := (· = ·)
  init := rfl
  clean := fun _ _ h => by rw [h]
  fwd := fun _ _ _ h => by rw [h]; exact OutRel.refl _
  step := fun _ _ _ _ h => by rw [h]; exact OutRel.refl _
  steps := fun _ _ _ _ _ h => by rw [h]; exact OutRel.refl _
  T := (· = ·)
  tnone := rfl
  pstep := fun _ _ _ h => by rw [h]; exact OutRel.refl _


theorem call {M N : CoMod I O} (b : Bisim M N) (c : Call I) (i j) (h : b.R i j) :
    ERel (OutRel b.R) (Spec.call M i c) (Spec.call N j c) := by
  have key : ∀ {α : Type} (w : α → CallRes O) (f : Except Err (α × M.Inst))
      (g : Except Err (α × N.Inst)), ERel (OutRel b.R) f g →
      ERel (OutRel b.R) (f.map fun p => (w p.1, p.2)) (g.map fun p => (w p.1, p.2)) := by
    intro α w f g hfg
    cases f <;> cases g
    · exact hfg
    · exact hfg.elim
    · exact hfg.elim
    · exact ⟨congrArg w hfg.1, hfg.2⟩
  cases c with
  | step u x => exact key _ _ _ (b.step i j u x h)
  | steps p u xs => exact key _ _ _ (b.steps i j p u xs h)
  | clean => exact ⟨rfl, b.clean i j h⟩
  | fwd xs => exact key _ _ _ (b.fwd i j xs h)

theorem calls {M N : CoMod I O} (b : Bisim M N) : ∀ (cs : List (Call I)) i j, b.R i j →
    (Spec.calls M i cs).1 = (Spec.calls N j cs).1
  | [], _, _, _ => rfl
  | c :: cs, i, j, h => by
    have h1 := b.call c i j h
    rw [Spec.calls, Spec.calls]
    revert h1
    cases Spec.call M i c <;> cases Spec.call N j c <;> intro h1
    · have h1 : _ = _ := h1
      rw [h1]
    · exact h1.elim
    · exact h1.elim
    · rename_i a b'
      have := calls b cs _ _ h1.2
      show a.1 :: _ = b'.1 :: _
      rw [h1.1, this]

theorem thread {M N : CoMod I O} (b : Bisim M N) : ∀ (xs : List I.Step) s t, b.T s t →
    threadOuts M s xs = threadOuts N t xs
  | [], _, _, _ => rfl
  | x :: xs, s, t, h => by
    have h1 := b.pstep x s t h
    rw [threadOuts, threadOuts]
    revert h1
    cases M.pstep x s <;> cases N.pstep x t <;> intro h1
    · have h1 : _ = _ := h1
      rw [h1]; rfl
    · exact h1.elim
    · exact h1.elim
    · rename_i a b'
      have := thread b xs _ _ h1.2
      show (threadOuts M a.2 xs >>= fun os => pure (a.1 :: os)) =
        (threadOuts N b'.2 xs >>= fun os => pure (b'.1 :: os))
      rw [h1.1, this]

/-- Bisimilar modules cannot be told apart. -/
theorem alike {M N : CoMod I O} (b : Bisim M N) : Alike M N :=
  ⟨fun cs => b.calls cs _ _ b.init, fun xs => b.thread xs _ _ b.tnone⟩

end Bisim

namespace CBisim
variable {I J O : Sig}

def refl (c : Chain I O) : CBisim c c where
  R := (· = ·)
  init := rfl
  clean := fun _ _ h => by rw [h]
  fwd := fun _ _ _ h => by rw [h]; exact OutRel.refl _
  step := fun _ _ _ _ h => by rw [h]; exact OutRel.refl _
  steps := fun _ _ _ _ _ h => by rw [h]; exact OutRel.refl _
  T := (· = ·)
  tnone := rfl
  pstep := fun _ _ _ h => by rw [h]; exact OutRel.refl _

def trans {c d e : Chain I O} (a : CBisim c d) (b : CBisim d e) : CBisim c e where
  R := fun x z => ∃ y, a.R x y ∧ b.R y z
  init := ⟨_, a.init, b.init⟩
  clean := fun _ _ ⟨_, h, k⟩ => ⟨_, a.clean _ _ h, b.clean _ _ k⟩
  fwd := fun _ _ x ⟨_, h, k⟩ => (a.fwd _ _ x h).trans (b.fwd _ _ x k) |>.mono
    fun _ _ ⟨_, h1, h2⟩ => ⟨h1.1.trans h2.1, _, h1.2, h2.2⟩
  step := fun _ _ u x ⟨_, h, k⟩ => OutRel.trans (a.step _ _ u x h) (b.step _ _ u x k)
  steps := fun _ _ p u x ⟨_, h, k⟩ => OutRel.trans (a.steps _ _ p u x h) (b.steps _ _ p u x k)
  T := fun x z => ∃ y, a.T x y ∧ b.T y z
  tnone := ⟨_, a.tnone, b.tnone⟩
  pstep := fun x _ _ ⟨_, h, k⟩ => OutRel.trans (a.pstep x _ _ h) (b.pstep x _ _ k)

/-- The `Sequential`s of bisimilar members. -/
def seq {c d : Chain I O} (b : CBisim c d) : Bisim (Sequential.mod c) (Sequential.mod d) where
  R := b.R
  init := b.init
  clean := b.clean
  fwd := b.fwd
  step := b.step
  steps := b.steps
  T := fun s t => b.T (s.getD c.noneSt) (t.getD d.noneSt)
  tnone := b.tnone
  pstep := fun x s t h => by
    show ERel _ (c.pstep x s) (d.pstep x t)
    unfold Chain.pstep
    exact (b.pstep x _ _ h).bind fun _ _ h => ⟨h.1, h.2⟩

def single {m n : CoMod I O} (b : Bisim m n) : CBisim (.single m) (.single n) where
  R := b.R
  init := b.init
  clean := b.clean
  fwd := b.fwd
  step := b.step
  steps := b.steps
  T := b.T
  tnone := b.tnone
  pstep := b.pstep

/-- A `Sequential` of one `Sequential`. -/
def unwrap (c : Chain I O) : CBisim (.single (Sequential.mod c)) c where
  R := (· = ·)
  init := rfl
  clean := fun _ _ h => by rw [h]; rfl
  fwd := fun _ _ _ h => by rw [h]; exact OutRel.refl _
  step := fun _ _ _ _ h => by rw [h]; exact OutRel.refl _
  steps := fun _ _ _ _ _ h => by rw [h]; exact OutRel.refl _
  T := fun s t => (s : Option c.St).getD c.noneSt = t
  tnone := rfl
  pstep := fun x s t h => by
    show ERel _ (c.pstep x s) (c.pstepAll x t)
    unfold Chain.pstep
    rw [h]
    cases c.pstepAll x t
    · rfl
    · exact ⟨rfl, rfl⟩

/-- Members can be exchanged for bisimilar ones. -/
def cons {m n : CoMod I J} {c d : Chain J O} (a : Bisim m n) (b : CBisim c d) :
    CBisim (.cons m c) (.cons n d) where
  R := fun (i : m.Inst × c.Inst) (j : n.Inst × d.Inst) => a.R i.1 j.1 ∧ b.R i.2 j.2
  init := ⟨a.init, b.init⟩
  clean := fun _ _ h => ⟨a.clean _ _ h.1, b.clean _ _ h.2⟩
  fwd := fun i j x h => by
    show ERel _ (Chain.fwd _ _ _) (Chain.fwd _ _ _)
    unfold Chain.fwd
    refine (a.fwd _ _ x h.1).bind ?_
    rintro ⟨y, i1⟩ ⟨y', j1⟩ ⟨hy, h1⟩
    dsimp only at hy h1; subst hy
    refine (b.fwd _ _ y h.2).bind ?_
    rintro ⟨z, i2⟩ ⟨z', j2⟩ ⟨hz, h2⟩
    exact ⟨hz, h1, h2⟩
  step := fun i j u x h => by
    show ERel _ (Chain.step _ _ _ _) (Chain.step _ _ _ _)
    unfold Chain.step
    refine (a.step _ _ u x h.1).bind ?_
    rintro ⟨y, i1⟩ ⟨y', j1⟩ ⟨hy, h1⟩
    dsimp only at hy h1; subst hy
    cases y with
    | none => exact ⟨rfl, h1, h.2⟩
    | some y =>
      refine (b.step _ _ u y h.2).bind ?_
      rintro ⟨z, i2⟩ ⟨z', j2⟩ ⟨hz, h2⟩
      exact ⟨hz, h1, h2⟩
  steps := fun i j p u x h => by
    show ERel _ (Chain.steps _ _ _ _ _) (Chain.steps _ _ _ _ _)
    unfold Chain.steps
    refine (a.steps _ _ p u x h.1).bind ?_
    rintro ⟨y, i1⟩ ⟨y', j1⟩ ⟨hy, h1⟩
    dsimp only at hy h1; subst hy
    cases y with
    | none => exact ⟨rfl, h1, h.2⟩
    | some y =>
      refine (b.steps _ _ p u y h.2).bind ?_
      rintro ⟨z, i2⟩ ⟨z', j2⟩ ⟨hz, h2⟩
      exact ⟨hz, h1, h2⟩
  T := fun (i : Option m.St × c.St) (j : Option n.St × d.St) => a.T i.1 j.1 ∧ b.T i.2 j.2
  tnone := ⟨a.tnone, b.tnone⟩
  pstep := fun x i j h => by
    show ERel _ (Chain.pstepAll _ _ _) (Chain.pstepAll _ _ _)
    unfold Chain.pstepAll
    refine (a.pstep x _ _ h.1).bind ?_
    rintro ⟨y, i1⟩ ⟨y', j1⟩ ⟨hy, h1⟩
    dsimp only at hy h1; subst hy
    cases y with
    | none => exact ⟨rfl, h1, h.2⟩
    | some y =>
      refine (b.pstep y _ _ h.2).bind ?_
      rintro ⟨z, i2⟩ ⟨z', j2⟩ ⟨hz, h2⟩
      exact ⟨hz, h1, h2⟩

/-- The first member of an inner `Sequential` can be taken out. -/
def assoc {I J K O : Sig} (m : CoMod I J) (c : Chain J K) (d : Chain K O) :
    CBisim (.cons (Sequential.mod (.cons m c)) d) (.cons m (.cons (Sequential.mod c) d)) where
  R := fun (i : (m.Inst × c.Inst) × d.Inst) (j : m.Inst × (c.Inst × d.Inst)) =>
    j = (i.1.1, (i.1.2, i.2))
  init := rfl
  clean := fun i j h => by rw [h]; rfl
  fwd := fun i j x h => by
    rw [h]
    obtain ⟨⟨i1, i2⟩, i3⟩ := i
    simp only [Chain.fwd]
    cases m.fwd i1 x with
    | error e => rfl
    | ok r =>
      obtain ⟨y, k1⟩ := r
      simp only [bind, Except.bind]
      cases c.fwd i2 y with
      | error e => rfl
      | ok r =>
        obtain ⟨z, k2⟩ := r
        simp only [pure, Except.pure]
        cases d.fwd i3 z with
        | error e => rfl
        | ok r => exact ⟨rfl, rfl⟩
  step := fun i j u x h => by
    rw [h]
    obtain ⟨⟨i1, i2⟩, i3⟩ := i
    simp only [Chain.step]
    cases m.step i1 u x with
    | error e => rfl
    | ok r =>
      obtain ⟨_ | y, k1⟩ := r
      · exact ⟨rfl, rfl⟩
      simp only [bind, Except.bind]
      cases c.step i2 u y with
      | error e => rfl
      | ok r =>
        obtain ⟨_ | z, k2⟩ := r
        · exact ⟨rfl, rfl⟩
        simp only [pure, Except.pure]
        cases d.step i3 u z with
        | error e => rfl
        | ok r => exact ⟨rfl, rfl⟩
  steps := fun i j p u x h => by
    rw [h]
    obtain ⟨⟨i1, i2⟩, i3⟩ := i
    simp only [Chain.steps]
    cases m.steps i1 p u x with
    | error e => rfl
    | ok r =>
      obtain ⟨_ | y, k1⟩ := r
      · exact ⟨rfl, rfl⟩
      simp only [bind, Except.bind]
      cases c.steps i2 p u y with
      | error e => rfl
      | ok r =>
        obtain ⟨_ | z, k2⟩ := r
        · exact ⟨rfl, rfl⟩
        simp only [pure, Except.pure]
        cases d.steps i3 p u z with
        | error e => rfl
        | ok r => exact ⟨rfl, rfl⟩
  T := fun (i : Option (Option m.St × c.St) × d.St) (j : Option m.St × (Option c.St × d.St)) =>
    ∃ a, j = ((i.1.getD (none, c.noneSt)).1, (a, i.2)) ∧
      a.getD c.noneSt = (i.1.getD (none, c.noneSt)).2
  tnone := ⟨none, rfl, rfl⟩
  pstep := fun x i j h => by
    obtain ⟨i1, i3⟩ := i
    obtain ⟨a, rfl, ha⟩ := h
    dsimp only at ha
    simp only [Chain.pstepAll, Chain.pstep, Chain.noneSt]
    cases m.pstep x (i1.getD (none, c.noneSt)).1 with
    | error e => rfl
    | ok r =>
      obtain ⟨_ | y, k1⟩ := r
      · exact ⟨rfl, a, rfl, ha⟩
      simp only [bind, Except.bind, ha]
      cases c.pstepAll y (i1.getD (none, c.noneSt)).2 with
      | error e => rfl
      | ok r =>
        obtain ⟨_ | z, k2⟩ := r
        · exact ⟨rfl, _, rfl, rfl⟩
        simp only [pure, Except.pure]
        cases d.pstepAll z i3 with
        | error e => rfl
        | ok r => exact ⟨rfl, _, rfl, rfl⟩

/-- An inner `Sequential` in first position can be dissolved. -/
def dissolve : {I J O : Sig} → (c : Chain I J) → (d : Chain J O) →
    CBisim (.cons (Sequential.mod c) d) (c.append d)
  | _, _, _, .single m, d => cons (m := Sequential.mod (.single m)) (n := m)
      { R := (· = ·)
        init := rfl
        clean := fun _ _ h => by rw [h]; rfl
        fwd := fun _ _ _ h => by rw [h]; exact OutRel.refl _
        step := fun _ _ _ _ h => by rw [h]; exact OutRel.refl _
        steps := fun _ _ _ _ _ h => by rw [h]; exact OutRel.refl _
        T := fun s t => (s : Option (Option m.St)).getD none = t
        tnone := rfl
        pstep := fun x s t h => by
          show ERel _ (Chain.pstep _ x s) (m.pstep x t)
          unfold Chain.pstep
          simp only [Chain.pstepAll, Chain.noneSt]
          rw [h]
          cases m.pstep x t
          · rfl
          · exact ⟨rfl, rfl⟩ } (refl d)
  | _, _, _, .cons m c, d => (assoc m c d).trans (cons (Bisim.refl m) (dissolve c d))

/-- A module that amounts to a list of members. -/
def wrap {m : CoMod I O} {c : Chain I O} (b : CBisim (.single m) c) : Bisim m (Sequential.mod c) :=
    { R := b.R
      init := b.init
      clean := b.clean
      fwd := b.fwd
      step := b.step
      steps := b.steps
      T := fun s t => b.T s (t.getD c.noneSt)
      tnone := b.tnone
      pstep := fun x s t h => by
        show ERel _ (Chain.pstepAll (.single m) x s) (Chain.pstep c x t)
        unfold Chain.pstep
        have h1 := b.pstep x _ _ h
        revert h1
        cases Chain.pstepAll (.single m) x s <;> cases c.pstepAll x (t.getD c.noneSt) <;> intro h1
        · exact h1
        · exact h1.elim
        · exact h1.elim
        · exact ⟨h1.1, h1.2⟩ }

/-- A first member that amounts to a list of members. -/
def dissolve' {m : CoMod I J} {c : Chain I J} (b : CBisim (.single m) c) (d : Chain J O) :
    CBisim (.cons m d) (c.append d) :=
  trans (cons b.wrap (refl d)) (dissolve c d)

/-- Appending bisimilar members. -/
def append : {I J O : Sig} → (c : Chain I J) → {d e : Chain J O} → CBisim d e →
    CBisim (c.append d) (c.append e)
  | _, _, _, .single m, _, _, b => cons (Bisim.refl m) b
  | _, _, _, .cons m c, _, _, b => cons (Bisim.refl m) (append c b)

end CBisim

mutual
/-- A nest against its innermost members. -/
def Nest.bisim : {I O : Sig} → (n : Nest I O) → CBisim (.single n.build) n.leaves
  | _, _, .mod m => by
    simp only [Nest.build, Nest.leaves]
    exact CBisim.refl _
  | _, _, .seq c => by
    simp only [Nest.build, Nest.leaves]
    exact (CBisim.unwrap c.build).trans c.bisim
/-- The members of a nest against its innermost members. -/
def NestChain.bisim : {I O : Sig} → (c : NestChain I O) → CBisim c.build c.leaves
  | _, _, .single n => by
    simp only [NestChain.build, NestChain.leaves]
    exact n.bisim
  | _, _, .cons n c => by
    simp only [NestChain.build, NestChain.leaves]
    exact (CBisim.dissolve' n.bisim c.build).trans (CBisim.append n.leaves c.bisim)
end

end CoInf
