/-
C49: which exception is raised; several bidirectional layers.
-/
import Verif.Props.Convert

set_option autoImplicit false

namespace CoInf
open Convert
variable {X Y : Type}

mutual
/-- Why a module is not converted: assertions of the constructors, unknown padding modes, missing arguments; in
`nn.Sequential` the first reason. -/
def Spec.refusal : {X Y : Type} → Src X Y → Option Err
  | _, _, .instanceNorm affine track _ => if affine && track then none else some .assertion
  | _, _, @Src.conv _ _ _ _ c => if c.dil ≠ 1 then some .assertion else
      if c.mode = .reflect ∨ c.mode = .circular then some .value else none
  | _, _, @Src.pool _ _ _ _ c => if c.K = 0 then some .assertion else none
  | _, _, .adaptivePool _ => some .type
  | _, _, .transformer _ => some .type
  | _, _, .sequential ms => Spec.firstRefusal ms
  | _, _, .other _ => some .assertion
  | _, _, _ => none
def Spec.firstRefusal : {X Y : Type} → Members X Y → Option Err
  | _, _, .single m => Spec.refusal m
  | _, _, .cons m ms => (Spec.refusal m).or (Spec.firstRefusal ms)
end

/-- The exception of a computation. -/
def Spec.raised {R : Type 1} : Except Err R → Option Err
  | .ok _ => none
  | .error e => some e

open Spec

theorem raised_map {R R' : Type 1} (x : Except Err R) (f : R → R') : raised (x.map f) = raised x := by
  cases x <;> rfl

mutual
theorem continual_raised : ∀ {X Y : Type} (s : Src X Y), raised (continual s) = refusal s
  | _, _, .co m => by simp [continual, refusal, raised]
  | _, _, .naive g => by simp [continual, refusal, raised]
  | _, _, .instanceNorm a t g => by cases a <;> cases t <;> simp [continual, refusal, raised]
  | _, _, @Src.conv _ _ zx ay c => by
    unfold continual refusal convFrom
    by_cases hd : c.dil = 1
    · cases hm : c.mode <;> simp [hd, paddingMode, Except.map, raised]
    · simp [hd, Except.map, raised]
  | _, _, @Src.pool _ _ zx zy c => by
    unfold continual refusal poolFrom
    by_cases hk : c.K = 0
    · simp [hk, Except.map, raised]
    · rw [if_pos (Nat.pos_of_ne_zero hk), if_neg hk]; rfl
  | _, _, .linear f => by simp [continual, refusal, raised]
  | _, _, .function f => by simp [continual, refusal, raised]
  | _, _, .rnn c => by simp [continual, refusal, raised]
  | _, _, .adaptivePool g => by simp [continual, refusal, raised]
  | _, _, .transformer g => by simp [continual, refusal, raised]
  | _, _, .sequential ms => by
    have := members_raised ms
    unfold continual refusal
    rw [raised_map, this]
  | _, _, .other g => by simp [continual, refusal, raised]

theorem members_raised : ∀ {X Y : Type} (ms : Members X Y), raised (members ms) = firstRefusal ms
  | _, _, .single m => by
    have := continual_raised m
    unfold members firstRefusal
    rw [raised_map, this]
  | _, _, .cons m ms => by
    have h1 := continual_raised m
    have h2 := members_raised ms
    unfold members firstRefusal
    rw [← h1, ← h2]
    cases continual m with
    | error e => rfl
    | ok a => cases members ms <;> rfl
end

/-- **C49**, refused modules: the exception is the one of the first member, in the order of nested `nn.Sequential`s, that cannot
be converted. -/
theorem C49_exceptions (s : Src X Y) (e : Err) : continual s = .error e ↔ refusal s = some e := by
  rw [← continual_raised]
  cases continual s <;> simp [raised]

example : continual (.sequential (.cons (.linear (X := Int) id) (.cons
    (.conv { K := 3, S := 1, P := 1, dil := 1, mode := .circular, w := fun _ x => x, bias := some (1 : Int) })
    (.single (.other (Y := Int) .ok))))) = .error .value := by
  rw [C49_exceptions]
  simp [refusal, firstRefusal]

/-- **C49 fails** for bidirectional recurrent modules with several layers: the second layer gets the weights of the reverse
direction of the first layer; the cells of the torch module's own second layer are not used at all. -/
theorem C49_bidirectional_layers_refuted {V S : Type} (a b c e : Rnn.Cell V S) (z : S) (cat : V → V → V) :
    continual (.rnn ⟨[(a, some b), (c, some e)], z, cat⟩) = .ok (Rnn.mod ⟨[a, b], z⟩) := by
  unfold continual; rfl

end CoInf
