/-
C124: networks of linear layers combine streams linearly.
-/
import Verif.Lemmas.HomMix
import Verif.Props.Batch
import Mathlib.Tactic.NormNum

set_option autoImplicit false

namespace CoInf

open Spec

variable {R : Type} [Field R]

/-- The same network for a batch of `n` entries and for `n'` linear combinations of them, with the coefficients `A b' b`:
convolutions, average pooling, delays, modules that act linearly on frames (`co.Linear` without bias, reshaping,
rearrangements of channels) or on clips (wrapped torch modules), and containers thereof with sums or concatenations as
reduction.  Where there is a bias, the coefficients of each combination sum to one.  `f` and `g` combine inputs and outputs. -/
inductive Spec.Combined {n n' : Nat} (A : Fin n' → Fin n → R) : {X Y X' Y' : Type} → CoMod (.stream X) (.stream Y) →
    CoMod (.stream X') (.stream Y') → (X → X') → (Y → Y') → Prop
  | conv (c : ConvNd.Cfg R) (hb : c.bias.isSome → ∀ b', ∑ b, A b' b = 1) :
      Combined A (ConvNd.mod (β := Fin n) c) (ConvNd.mod (β := Fin n') c) (mix A) (mix A)
  | avgPool (c : PoolNd.Avg) (Ch : Type) :
      Combined A (c.mod (R := R) (β := Fin n × Ch)) (c.mod (R := R) (β := Fin n' × Ch)) (mixCh A) (mixCh A)
  | delay {X X' : Type} [Zero X] [Zero X'] {f : X → X'} (hf : f 0 = 0) (d : Nat) (m : Fill) (s : Shrink) :
      Combined A (Delay.mod (X := X) { d := d, fill := m.make 0, shrink := s })
        (Delay.mod (X := X') { d := d, fill := m.make 0, shrink := s }) f f
  | framewise {X Y X' Y' : Type} {f : X → X'} {g : Y → Y'} {h : X → Y} {h' : X' → Y'} (hh : ∀ x, h' (f x) = g (h x)) :
      Combined A (Pointwise.mod h) (Pointwise.mod h') f g
  | wrapped {X Y X' Y' : Type} {f : X → X'} {g : Y → Y'} {h : List X → Except Err (List Y)}
      {h' : List X' → Except Err (List Y')} (s p : Nat) (hh : ∀ xs, h' (xs.map f) = (h xs).map (List.map g)) :
      Combined A (Stepping.mod h s p) (Stepping.mod h' s p) f g
  | last {X Y X' Y' : Type} {M : CoMod (.stream X) (.stream Y)} {M' : CoMod (.stream X') (.stream Y')} {f : X → X'}
      {g : Y → Y'} (h : Combined A M M' f g) :
      Combined A (Sequential.mod (.single M)) (Sequential.mod (.single M')) f g
  | cons {X Y Z X' Y' Z' : Type} {M : CoMod (.stream X) (.stream Y)} {M' : CoMod (.stream X') (.stream Y')}
      {c : Chain (.stream Y) (.stream Z)} {c' : Chain (.stream Y') (.stream Z')} {f : X → X'} {g : Y → Y'} {k : Z → Z'}
      (h : Combined A M M' f g) (t : Combined A (Sequential.mod c) (Sequential.mod c') g k) :
      Combined A (Sequential.mod (.cons M c)) (Sequential.mod (.cons M' c')) f k
  | sum {X Y X' Y' : Type} [Add Y] [Add Y'] {f : X → X'} {g : Y → Y'} (hg : ∀ a b, g a + g b = g (a + b))
      {ms : List (CoMod (.stream X) (.stream Y))} {ms' : List (CoMod (.stream X') (.stream Y'))} (hl : ms.length = ms'.length)
      (h : ∀ (j : Nat) (h1 : j < ms.length) (h2 : j < ms'.length), Combined A ms[j] ms'[j] f g) :
      Combined A (BroadcastReduce.mod (foldReducer (· + ·)) ms) (BroadcastReduce.mod (foldReducer (· + ·)) ms') f g
  | concat {X Y Z X' Y' Z' : Type} {f : X → X'} {g : Y → Y'} {k : Z → Z'} {cat : List Y → Z} {cat' : List Y' → Z'}
      (hk : ∀ ys, cat' (ys.map g) = k (cat ys))
      {ms : List (CoMod (.stream X) (.stream Y))} {ms' : List (CoMod (.stream X') (.stream Y'))} (hl : ms.length = ms'.length)
      (h : ∀ (j : Nat) (h1 : j < ms.length) (h2 : j < ms'.length), Combined A ms[j] ms'[j] f g) :
      Combined A (BroadcastReduce.mod (catReducer cat) ms) (BroadcastReduce.mod (catReducer cat') ms') f k

theorem Spec.Combined.hom {n n' : Nat} {A : Fin n' → Fin n → R} {X Y X' Y' : Type} {M : CoMod (.stream X) (.stream Y)}
    {M' : CoMod (.stream X') (.stream Y')} {f : X → X'} {g : Y → Y'} (h : Combined A M M' f g) :
    ∃ π, Hom M M' (.stream f) (.stream g) π := by
  induction h with
  | conv c hb => exact ⟨_, ConvNd.mix_hom c A hb⟩
  | avgPool c Ch => exact ⟨_, PoolNd.Avg.mix_hom A c⟩
  | delay hf d m s => exact ⟨_, Delay.hom rfl rfl fun x => Conv.fill_make_map hf m x⟩
  | framewise hh => exact ⟨_, Pointwise.hom hh⟩
  | wrapped s p hh => exact ⟨_, Stepping.hom hh⟩
  | last h ih =>
    obtain ⟨π, h⟩ := ih
    exact ⟨_, (ChainHom.single h).hom⟩
  | cons h t ih iht =>
    obtain ⟨π, h⟩ := ih
    obtain ⟨ρ, t⟩ := iht
    exact ⟨_, h.cons t⟩
  | sum hg hl h ih =>
    obtain ⟨π, hb⟩ := BranchHom.ofAll _ _ hl ih
    exact ⟨_, hb.hom (foldReducer_hom hg)⟩
  | concat hk hl h ih =>
    obtain ⟨π, hb⟩ := BranchHom.ofAll _ _ hl ih
    exact ⟨_, hb.hom (catReducer_hom hk)⟩

/-- **C124.** Combining the entries of a batch linearly and then calling the methods of a linear network, in any order, gives the
combinations of the results, the same `None`s and the same exceptions. -/
theorem C124_network {n n' : Nat} {A : Fin n' → Fin n → R} {X Y X' Y' : Type} {M : CoMod (.stream X) (.stream Y)}
    {M' : CoMod (.stream X') (.stream Y')} {f : X → X'} {g : Y → Y'} (h : Combined A M M' f g) :
    Follows M M' (.stream f) (.stream g) := h.hom.choose_spec.follows

/-- What the network returns for one stream (a batch of one) in a script of calls. -/
def Spec.answers {V W : Type} (M : CoMod (.stream (Fin 1 → V)) (.stream (Fin 1 → W))) (cs : List (Call (.stream V))) :
    List (CallRes (.stream (Fin 1 → W))) :=
  (calls M M.init (cs.map (Call.map (.stream fun v _ => v)))).1

/-- A network, given for each size of the batch, all of whose members are linear; `biased` tells whether there are biases. -/
def Spec.Linear (R : Type) [Field R] {V W : Type} [AddCommGroup V] [Module R V] [AddCommGroup W] [Module R W] (biased : Prop)
    (M : (n : Nat) → CoMod (.stream (Fin n → V)) (.stream (Fin n → W))) : Prop :=
  ∀ (n n' : Nat) (A : Fin n' → Fin n → R), (biased → ∀ b', ∑ b, A b' b = 1) → Combined A (M n) (M n') (mix A) (mix A)

/-- **C124**, superposition: let `n` streams be fed to copies of a linear network by the same script of calls.  There are results
`rs` for all of them, and feeding the combination of the streams with the coefficients `α` gives the combination of `rs`. -/
theorem C124_superposition {V W : Type} [AddCommGroup V] [Module R V] [AddCommGroup W] [Module R W] {biased : Prop}
    {M : (n : Nat) → CoMod (.stream (Fin n → V)) (.stream (Fin n → W))} (hM : Linear R biased M) {n : Nat}
    (cs : List (Call (.stream (Fin n → V)))) :
    ∃ rs : List (CallRes (.stream (Fin n → W))),
      (∀ j, answers (M 1) (cs.map (Call.map (.stream fun x => x j))) =
        rs.map (CallRes.map (.stream fun y _ => y j))) ∧
      ∀ α : Fin n → R, (biased → ∑ j, α j = 1) →
        answers (M 1) (cs.map (Call.map (.stream fun x => ∑ j, α j • x j))) =
          rs.map (CallRes.map (.stream fun y _ => ∑ j, α j • y j)) := by
  have e : ∀ {I I' I'' : Type} (a : I → I') (b : I' → I'') (c : Call (.stream I)),
      Call.map (.stream b) (Call.map (.stream a) c) = Call.map (.stream (b ∘ a)) c := by
    intro I I' I'' a b c
    cases c <;> simp [Call.map]
  have key : ∀ α : Fin n → R, (biased → ∑ j, α j = 1) →
      answers (M 1) (cs.map (Call.map (.stream fun x => ∑ j, α j • x j))) =
        (calls (M n) (M n).init cs).1.map (CallRes.map (.stream fun y _ => ∑ j, α j • y j)) := by
    intro α hα
    have h := C124_network (hM n 1 (fun _ => α) fun hb _ => hα hb) cs
    rw [answers, List.map_map, ← h]
    congr 2
    exact List.map_congr_left fun c _ => e _ _ c
  refine ⟨_, fun j => ?_, key⟩
  have h := key (Pi.single j 1) fun _ => by simp
  have e2 : ∀ {V : Type} [AddCommGroup V] [Module R V] (x : Fin n → V), ∑ i, (Pi.single j (1 : R) : Fin n → R) i • x i = x j := by
    intro V _ _ x
    rw [Finset.sum_eq_single j] <;> simp +contextual
  simpa only [e2] using h

/-- **C124**, networks without biases: streams of zeros give zeros, whenever there is a result. -/
theorem C124_zero {V W : Type} [AddCommGroup V] [Module R V] [AddCommGroup W] [Module R W]
    {M : (n : Nat) → CoMod (.stream (Fin n → V)) (.stream (Fin n → W))} (hM : Linear R False M) (cs : List (Call (.stream V))) :
    ∀ r ∈ answers (M 1) (cs.map (Call.map (.stream fun _ => 0))), CallRes.map (.stream fun _ => 0) r = r := by
  obtain ⟨rs, -, h⟩ := C124_superposition hM (n := 0) (cs.map (Call.map (.stream fun _ => 0)))
  have h := h (fun _ => 0) (fun h => h.elim)
  have e : (cs.map (Call.map (.stream fun _ => (0 : Fin 0 → V)))).map
      (Call.map (.stream fun x => ∑ j, (0 : R) • x j)) = cs.map (Call.map (.stream fun _ => (0 : V))) := by
    rw [List.map_map]
    refine List.map_congr_left fun c _ => ?_
    cases c <;> simp [Call.map]
  rw [e] at h
  rw [h]
  intro r hr
  obtain ⟨q, -, rfl⟩ := List.mem_map.1 hr
  have z : (fun (y : Fin 0 → W) (_ : Fin 1) => ∑ j, (0 : R) • y j) = fun _ => 0 := by
    funext y
    simp
    rfl
  rw [z]
  cases q with
  | clip o => cases o <;> simp [CallRes.map]
  | _ => simp [CallRes.map, Function.comp_def]

/-- **C124**: with a bias, coefficients that do not sum to one do not do. -/
theorem C124_bias_needed : ¬ Follows (Pointwise.mod fun (x : Fin 2 → ℚ) (b : Fin 2) => x b + 1)
    (Pointwise.mod fun (x : Fin 1 → ℚ) (b : Fin 1) => x b + 1) (.stream (mix fun _ _ => (1 : ℚ)))
    (.stream (mix fun _ _ => (1 : ℚ))) := by
  intro h
  have := h [.step true fun _ => 0]
  simp only [List.map_cons, List.map_nil, Call.map, calls, call, Except.map, CallRes.map, Option.map_some, List.cons.injEq,
    CallRes.frame.injEq, Option.some.injEq, and_true] at this
  have := congrFun this 0
  norm_num [mix] at this

/-! ### Examples -/

/-- A convolution of frames with one channel and no spatial axes, over three frames, with or without bias. -/
def exTaps (v : Option ℚ) : ConvNd.Cfg ℚ where
  n := 0
  groups := 1
  cinG := 1
  coutG := 1
  K := 3
  S := 1
  P := 1
  kern := fun _ => 1
  str := fun _ => 1
  dil := fun _ => 1
  pad := fun _ => 0
  h := fun _ => 1
  fill := .zeros
  padMode := .zeros
  weight := fun _ _ k _ => k + 1
  bias := v.map fun q _ => q

/-- A residual block: the convolution and a delay of one frame, added. -/
def exBlock (v : Option ℚ) (n : Nat) : CoMod (.stream (ConvNd.Frame (Fin n) (exTaps v))) (.stream (ConvNd.OutFrame (Fin n) (exTaps v))) :=
  BroadcastReduce.mod (foldReducer (· + ·))
    [ConvNd.mod (β := Fin n) (exTaps v),
     Sequential.mod (.cons (Delay.mod { d := 1, fill := Fill.zeros.make 0 }) (.single (Pointwise.mod fun x b o _ => x b o fun i => i.elim0)))]

/-- The block is linear, up to its bias. -/
theorem exBlock_linear (v : Option ℚ) : Linear ℚ (v.isSome = true) (exBlock v) := by
  intro n n' A hA
  refine .sum (fun a b => ?_) rfl ?_
  · funext b' o p
    simp [mix, Finset.sum_add_distrib]
  · intro j h1 h2
    match j, h1 with
    | 0, _ => exact .conv _ fun h => hA (by cases v <;> simp_all [exTaps])
    | 1, _ =>
      refine .cons (.delay (by funext b'; simp [mix]) 1 .zeros .off) (.last (.framewise fun x => ?_))
      funext b' o p
      simp only [mix]
      erw [Finset.sum_apply, Finset.sum_apply, Finset.sum_apply, Finset.sum_apply]
      rfl

/-- The number in a result of the block. -/
def exBlockOut {v : Option ℚ} : CallRes (.stream (ConvNd.OutFrame (Fin 1) (exTaps v))) → Option ℚ
  | .frame (some y) => some (y 0 ⟨0, Nat.one_pos⟩ fun i => i.elim0)
  | _ => none

/-- The block with the bias 5 on the streams `1, 2, 3` and `1, 0, 5` and on their mean `1, 1, 4`. -/
example :
    (answers (exBlock (some 5) 1) ([1, 2, 3].map fun q => .step true fun _ _ => q)).map exBlockOut = [none, some 14, some 21] ∧
    (answers (exBlock (some 5) 1) ([1, 0, 5].map fun q => .step true fun _ _ => q)).map exBlockOut = [none, some 8, some 21] ∧
    (answers (exBlock (some 5) 1) ([1, 1, 4].map fun q => .step true fun _ _ => q)).map exBlockOut = [none, some 11, some 21] := by
  decide +kernel

end CoInf
