/-
C74: a batch is processed like its entries on their own.

The model of a script has frames of one type, so the batch size is that of the first frame throughout; a batch has at
least one entry (containers stop at a tensor of length zero, container.py:669).
-/
import Verif.Lemmas.HomNd
import Verif.Props.ConvNd
import Verif.Props.AttnNd

set_option autoImplicit false

namespace CoInf

open Spec

/-- A recurrent layer applied to every entry of a batch. -/
def Rnn.batched {V S : Type} (n : Nat) (ls : List (Rnn.Cell V S)) (zero : S) : Rnn.Cfg (Fin n → V) (Fin n → S) where
  layers := ls.map fun l x s => (fun b => (l (x b) (s b)).1, fun b => (l (x b) (s b)).2)
  zero := fun _ => zero

/-- The same network for a batch of `n` entries and for the entries `ι b'` only: convolutions, pooling, delays,
frame-wise modules and wrapped torch modules that treat the entries separately, recurrent modules, attention, and
containers thereof.  `f` and `g` pick the entries from inputs and outputs. -/
inductive Batched {n n' : Nat} (ι : Fin n' → Fin n) : {X Y X' Y' : Type} → CoMod (.stream X) (.stream Y) →
    CoMod (.stream X') (.stream Y') → (X → X') → (Y → Y') → Prop
  | conv {R : Type} [NonUnitalNonAssocSemiring R] (c : ConvNd.Cfg R) :
      Batched ι (ConvNd.mod (β := Fin n) c) (ConvNd.mod (β := Fin n') c) (restrict ι) (restrict ι)
  | avgPool {R : Type} [Field R] (c : PoolNd.Avg) (Ch : Type) :
      Batched ι (c.mod (R := R) (β := Fin n × Ch)) (c.mod (R := R) (β := Fin n' × Ch))
        (restrict (Prod.map ι id)) (restrict (Prod.map ι id))
  | maxPool {R : Type} [Zero R] [LinearOrder R] [OrderBot R] (c : PoolNd.Max) (Ch : Type) :
      Batched ι (c.mod (R := R) (β := Fin n × Ch)) (c.mod (R := R) (β := Fin n' × Ch))
        (restrict (Prod.map ι id)) (restrict (Prod.map ι id))
  | delay {X X' : Type} [Zero X] [Zero X'] {f : X → X'} (hf : f 0 = 0) (d : Nat) (m : Fill) (s : Shrink) :
      Batched ι (Delay.mod (X := X) { d := d, fill := m.make 0, shrink := s })
        (Delay.mod (X := X') { d := d, fill := m.make 0, shrink := s }) f f
  | entrywise {A B : Type} (h : A → B) :
      Batched ι (Pointwise.mod fun (x : Fin n → A) b => h (x b)) (Pointwise.mod fun (x : Fin n' → A) b => h (x b))
        (restrict ι) (restrict ι)
  | framewise {X Y X' Y' : Type} {f : X → X'} {g : Y → Y'} {h : X → Y} {h' : X' → Y'} (hh : ∀ x, h' (f x) = g (h x)) :
      Batched ι (Pointwise.mod h) (Pointwise.mod h') f g
  | wrapped {X Y X' Y' : Type} {f : X → X'} {g : Y → Y'} {h : List X → Except Err (List Y)}
      {h' : List X' → Except Err (List Y')} (s p : Nat) (hh : ∀ xs, h' (xs.map f) = (h xs).map (List.map g)) :
      Batched ι (Stepping.mod h s p) (Stepping.mod h' s p) f g
  | recurrent {V S : Type} (ls : List (Rnn.Cell V S)) (zero : S) :
      Batched ι (Rnn.mod (Rnn.batched n ls zero)) (Rnn.mod (Rnn.batched n' ls zero)) (restrict ι) (restrict ι)
  | retroactive {F : Type} [Field F] {H D kd vd : Nat} (p : Attn.Nd.Params F n H D kd vd) :
      Batched ι (Attn.Nd.retro p) (Attn.Nd.retro (p.rebatch (n' := n'))) (Attn.Nd.Frame.restrict ι)
        (List.map (restrict ι))
  | singleOutput {F : Type} [Field F] {H D kd vd : Nat} (p : Attn.Nd.Params F n H D kd vd) (qi : Int) (sf : Bool) :
      Batched ι (Attn.Nd.single p qi sf) (Attn.Nd.single (p.rebatch (n' := n')) qi sf) (Attn.Nd.Frame.restrict ι)
        (restrict ι)
  | last {X Y X' Y' : Type} {M : CoMod (.stream X) (.stream Y)} {M' : CoMod (.stream X') (.stream Y')} {f : X → X'}
      {g : Y → Y'} (h : Batched ι M M' f g) :
      Batched ι (Sequential.mod (.single M)) (Sequential.mod (.single M')) f g
  | cons {X Y Z X' Y' Z' : Type} {M : CoMod (.stream X) (.stream Y)} {M' : CoMod (.stream X') (.stream Y')}
      {c : Chain (.stream Y) (.stream Z)} {c' : Chain (.stream Y') (.stream Z')} {f : X → X'} {g : Y → Y'} {k : Z → Z'}
      (h : Batched ι M M' f g) (t : Batched ι (Sequential.mod c) (Sequential.mod c') g k) :
      Batched ι (Sequential.mod (.cons M c)) (Sequential.mod (.cons M' c')) f k
  | branches {X Y Z X' Y' Z' : Type} {f : X → X'} {g : Y → Y'} {k : Z → Z'} {r : Reducer Y Z} {r' : Reducer Y' Z'}
      {ms : List (CoMod (.stream X) (.stream Y))} {ms' : List (CoMod (.stream X') (.stream Y'))}
      (hr : ReducerHom r r' g k) (hl : ms.length = ms'.length)
      (h : ∀ (j : Nat) (h1 : j < ms.length) (h2 : j < ms'.length), Batched ι ms[j] ms'[j] f g) :
      Batched ι (BroadcastReduce.mod r ms) (BroadcastReduce.mod r' ms') f k

theorem Hom.cons {I I' J J' O O' : Sig} {M : CoMod I J} {M' : CoMod I' J'} {c : Chain J O} {c' : Chain J' O'}
    {a : SigMap I I'} {b : SigMap J J'} {d : SigMap O O'} {π : M.Inst → M'.Inst} {ρ : c.Inst → c'.Inst}
    (h : Hom M M' a b π) (t : Hom (Sequential.mod c) (Sequential.mod c') b d ρ) :
    Hom (Sequential.mod (.cons M c)) (Sequential.mod (.cons M' c')) a d fun i => (π i.1, ρ i.2) := by
  refine ⟨Prod.ext h.init t.init, fun i => Prod.ext (h.clean i.1) (t.clean i.2), ?_, ?_, ?_⟩
  · intro i xs
    simp only [Chain.fwd, h.fwd]
    cases M.fwd i.1 xs with
    | error e => rfl
    | ok p =>
      simp only [Except.map, bind, Except.bind, pure, Except.pure]
      have := t.fwd i.2 p.1
      simp only at this
      rw [this]
      cases c.fwd i.2 p.1 <;> rfl
  · intro i u x
    simp only [Chain.step, h.step]
    cases M.step i.1 u x with
    | error e => rfl
    | ok p =>
      obtain ⟨o, i1⟩ := p
      cases o with
      | none => rfl
      | some y =>
        simp only [Except.map, bind, Except.bind, pure, Except.pure, Option.map]
        have := t.step i.2 u y
        simp only at this
        rw [this]
        cases c.step i.2 u y <;> rfl
  · intro i p u xs
    simp only [Chain.steps, h.steps]
    cases M.steps i.1 p u xs with
    | error e => rfl
    | ok q =>
      obtain ⟨o, i1⟩ := q
      cases o with
      | none => rfl
      | some y =>
        simp only [Except.map, bind, Except.bind, pure, Except.pure, Option.map]
        have := t.steps i.2 p u y
        simp only at this
        rw [this]
        cases c.steps i.2 p u y <;> rfl

theorem BranchHom.ofAll {X Y X' Y' : Type} {f : X → X'} {g : Y → Y'} : ∀ (ms : List (CoMod (.stream X) (.stream Y)))
    (ms' : List (CoMod (.stream X') (.stream Y'))), ms.length = ms'.length →
    (∀ (j : Nat) (h1 : j < ms.length) (h2 : j < ms'.length), ∃ π : ms[j].Inst → ms'[j].Inst, Hom ms[j] ms'[j] (.stream f) (.stream g) π) →
    ∃ π, BranchHom f g ms ms' π
  | [], [], _, _ => ⟨_, .nil⟩
  | [], _ :: _, hl, _ => by simp at hl
  | _ :: _, [], hl, _ => by simp at hl
  | M :: ms, M' :: ms', hl, h => by
    obtain ⟨π, hπ⟩ := h 0 (by simp) (by simp)
    obtain ⟨ρ, hρ⟩ := BranchHom.ofAll ms ms' (by simpa using hl) fun j h1 h2 => by
      have := h (j + 1) (by simpa using h1) (by simpa using h2)
      simpa using this
    exact ⟨_, .cons hπ hρ⟩

theorem Batched.hom {n n' : Nat} {ι : Fin n' → Fin n} {X Y X' Y' : Type} {M : CoMod (.stream X) (.stream Y)}
    {M' : CoMod (.stream X') (.stream Y')} {f : X → X'} {g : Y → Y'} (h : Batched ι M M' f g) :
    ∃ π, Hom M M' (.stream f) (.stream g) π := by
  induction h with
  | conv c => exact ⟨_, ConvNd.hom c ι⟩
  | avgPool c Ch => exact ⟨_, PoolNd.Avg.hom _ c⟩
  | maxPool c Ch => exact ⟨_, PoolNd.Max.hom _ c⟩
  | delay hf d m s => exact ⟨_, Delay.hom rfl rfl fun x => Conv.fill_make_map hf m x⟩
  | entrywise h => exact ⟨_, Pointwise.hom fun _ => rfl⟩
  | framewise hh => exact ⟨_, Pointwise.hom hh⟩
  | wrapped s p hh => exact ⟨_, Stepping.hom hh⟩
  | recurrent ls zero =>
    refine ⟨_, Rnn.hom (σ := restrict ι) ⟨?_, rfl⟩⟩
    simp only [Rnn.batched]
    induction ls with
    | nil => exact .nil
    | cons l ls ih => exact .cons (fun _ _ => rfl) ih
  | retroactive p => exact ⟨_, (Attn.Nd.retro_hom p ι).hom⟩
  | singleOutput p qi sf => exact ⟨_, (Attn.Nd.single_hom p ι qi sf).hom⟩
  | last h ih =>
    obtain ⟨π, h⟩ := ih
    exact ⟨_, (ChainHom.single h).hom⟩
  | cons h t ih iht =>
    obtain ⟨π, h⟩ := ih
    obtain ⟨ρ, t⟩ := iht
    exact ⟨_, h.cons t⟩
  | branches hr hl h ih =>
    obtain ⟨π, hb⟩ := BranchHom.ofAll _ _ hl ih
    exact ⟨_, hb.hom hr⟩

/-- The entries `ι b'` of the results for a batch are the results for the entries `ι b'`, for every script of calls and
including exceptions.  With `ι` a permutation: entries may be reordered.  With `ι` constant: an entry may be processed
on its own. -/
theorem C74_network {n n' : Nat} (_ : 0 < n') {ι : Fin n' → Fin n} {X Y X' Y' : Type} {M : CoMod (.stream X) (.stream Y)}
    {M' : CoMod (.stream X') (.stream Y')} {f : X → X'} {g : Y → Y'} (h : Batched ι M M' f g) :
    Follows M M' (.stream f) (.stream g) := h.hom.choose_spec.follows

/-- What the other entries contain has no influence on entry `b`: two scripts that agree on entry `b` give results that
agree on entry `b`. -/
theorem C74_other_entries {n : Nat} {b : Fin n} {X Y X' Y' : Type} {M : CoMod (.stream X) (.stream Y)}
    {M' : CoMod (.stream X') (.stream Y')} {f : X → X'} {g : Y → Y'} (h : Batched (fun _ : Fin 1 => b) M M' f g)
    (cs cs' : List (Call (.stream X))) (hcs : cs.map (Call.map (.stream f)) = cs'.map (Call.map (.stream f))) :
    (calls M M.init cs).1.map (CallRes.map (O' := .stream Y') (.stream g)) =
      (calls M M.init cs').1.map (CallRes.map (.stream g)) := by
  have hf := C74_network (by decide) h
  rw [← hf cs, ← hf cs', hcs]

/-- The convolutions, and likewise for every module without further hypotheses. -/
theorem C74_conv {R : Type} [NonUnitalNonAssocSemiring R] {n n' : Nat} (hn : 0 < n') (ι : Fin n' → Fin n)
    (c : ConvNd.Cfg R) : Follows (ConvNd.mod (β := Fin n) c) (ConvNd.mod (β := Fin n') c) (.stream (restrict ι))
      (.stream (restrict ι)) := C74_network hn (.conv c)

/-- Multi-head attention. -/
theorem C74_attention {F : Type} [Field F] {n n' H D kd vd : Nat} (hn : 0 < n') (ι : Fin n' → Fin n)
    (p : Attn.Nd.Params F n H D kd vd) (qi : Int) (sf : Bool) :
    Follows (Attn.Nd.retro p) (Attn.Nd.retro (p.rebatch (n' := n'))) (.stream (Attn.Nd.Frame.restrict ι))
      (.stream (List.map (restrict ι))) ∧
    Follows (Attn.Nd.single p qi sf) (Attn.Nd.single (p.rebatch (n' := n')) qi sf)
      (.stream (Attn.Nd.Frame.restrict ι)) (.stream (restrict ι)) :=
  ⟨C74_network hn (.retroactive p), C74_network hn (.singleOutput p qi sf)⟩

/-- A frame-wise module that mixes the entries of a batch (batch normalisation in training mode, here the mean over the
batch) does not have the property: the hypothesis of `framewise` cannot be dropped. -/
theorem C74_mixing : ¬ Follows (Pointwise.mod fun (x : Fin 2 → ℚ) (_ : Fin 2) => (x 0 + x 1) / 2)
    (Pointwise.mod fun (x : Fin 1 → ℚ) (_ : Fin 1) => x 0) (.stream (restrict fun _ : Fin 1 => (0 : Fin 2)))
    (.stream (restrict fun _ : Fin 1 => (0 : Fin 2))) := by
  intro h
  have := h [.step true fun b => b.val]
  simp only [List.map_cons, List.map_nil, Call.map, calls, call, Except.map, CallRes.map, Option.map_some, List.cons.injEq,
    CallRes.frame.injEq, Option.some.injEq, and_true] at this
  have := congrFun this 0
  simp [restrict] at this

/-! ### Examples -/

/-- A residual block on two entries, followed by a recurrent layer: the network on entry 1 alone. -/
example (φ : Int → Int) (cell : Rnn.Cell (Fin (exNd.groups * exNd.coutG) → ((j : Fin exNd.n) → Fin (exNd.hout j)) → Int) Int) :
    Follows
      (Sequential.mod (.cons (BroadcastReduce.mod (foldReducer (· + ·))
          [ConvNd.mod (β := Fin 2) exNd,
           Sequential.mod (.cons (ConvNd.mod (β := Fin 2) exNd) (.single (Delay.mod { d := 3, fill := Fill.zeros.make 0 })))])
        (.cons (Pointwise.mod fun x b o p => φ (x b o p)) (.single (Rnn.mod (Rnn.batched 2 [cell] 0))))))
      (Sequential.mod (.cons (BroadcastReduce.mod (foldReducer (· + ·))
          [ConvNd.mod (β := Fin 1) exNd,
           Sequential.mod (.cons (ConvNd.mod (β := Fin 1) exNd) (.single (Delay.mod { d := 3, fill := Fill.zeros.make 0 })))])
        (.cons (Pointwise.mod fun x b o p => φ (x b o p)) (.single (Rnn.mod (Rnn.batched 1 [cell] 0))))))
      (.stream (restrict fun _ : Fin 1 => (1 : Fin 2))) (.stream (restrict fun _ : Fin 1 => (1 : Fin 2))) := by
  refine C74_network (n := 2) (ι := fun _ => 1) (by decide) (.cons (g := restrict fun _ : Fin 1 => (1 : Fin 2))
    (.branches (foldReducer_hom fun _ _ => rfl) rfl ?_)
    (.cons (g := restrict fun _ : Fin 1 => (1 : Fin 2)) (.framewise fun _ => rfl) (.last (.recurrent [cell] 0))))
  intro j h1 h2
  match j, h1 with
  | 0, _ => exact .conv exNd
  | 1, _ => exact .cons (.conv exNd) (.last (.delay rfl 3 .zeros .off))

/-- Attention on two entries, and on entry 1 alone: two steps. -/
example : (calls (Attn.Nd.retro (exMha.rebatch (n' := 1))) none
      [.step true ((exQkv 1).restrict fun _ => 1), .step true ((exQkv (-2)).restrict fun _ => 1)]).1 =
    ((calls (Attn.Nd.retro exMha) none [.step true (exQkv 1), .step true (exQkv (-2))]).1.map
      (CallRes.map (.stream (List.map (restrict fun _ : Fin 1 => (1 : Fin 2)))))) :=
  (C74_attention (by decide) (fun _ : Fin 1 => (1 : Fin 2)) exMha 0 false).1 [.step true (exQkv 1), .step true (exQkv (-2))]

end CoInf
