/-
C118: the arguments of `Reshape`.
-/
import Verif.Model.ReshapeArgs

set_option autoImplicit false

namespace CoInf
open ReshapeArgs
variable {F : Type} [Zero F]

namespace Spec

/-- A shape: natural numbers, or `-1` for "what is left". -/
def sizeVal : Option Nat → Val
  | some n => .int n
  | none => .int (-1)

/-- The calls that the documentation allows: sizes one by one or in a sequence; `contiguous` by name, or, behind a sequence, by position. -/
inductive Documented : List (Option Nat) → Bool → List Val → Bool → Prop where
  | unpacked (s : List (Option Nat)) (c : Bool) : Documented s c (s.map sizeVal) c
  | sequence (s : List (Option Nat)) (c : Bool) : Documented s c [.seq (s.map sizeVal)] c
  | position (s : List (Option Nat)) (c : Bool) : Documented s c [.seq (s.map sizeVal), .bool c] false

end Spec

open Spec

theorem ReshapeArgs.size_sizeVal (n : Option Nat) : size (sizeVal n) = .ok n := by
  cases n <;> simp [size, sizeVal]

theorem ReshapeArgs.sizes_sizeVal (s : List (Option Nat)) : sizes (s.map sizeVal) = .ok s := by
  have h : (s.map sizeVal).any Val.odd = false := by
    induction s with
    | nil => rfl
    | cons a s ih => cases a <;> simpa [sizeVal, Val.odd] using ih
  unfold sizes
  rw [h]
  simp only [Bool.false_eq_true, if_false]
  clear h
  induction s with
  | nil => rfl
  | cons a s ih => simp [size_sizeVal, ih, bind, Except.bind, pure, Except.pure]

theorem ReshapeArgs.init_unpacked (s : List (Option Nat)) (hs : s ≠ []) (c : Bool) :
    init (s.map sizeVal) c = .ok ⟨s.map sizeVal, c⟩ := by
  cases s with
  | nil => exact absurd rfl hs
  | cons a s => cases a <;> rfl

theorem ReshapeArgs.init_sequence (s : List (Option Nat)) (hs : s ≠ []) (vs : List Val) (c : Bool) :
    init (.seq (s.map sizeVal) :: vs) c = .ok ⟨s.map sizeVal, c⟩ := by
  cases s with
  | nil => exact absurd rfl hs
  | cons a s => cases a <;> rfl

/-- C118: all the documented ways of writing the shape make modules that do the same to clips and to frames: they reshape to that shape. -/
theorem C118_shape (s : List (Option Nat)) (hs : s ≠ []) {c k : Bool} {args : List Val} (h : Documented s c args k) :
    ∃ o, init args k = .ok o ∧ (∀ x : Tensor F, o.forward x = ReshapeNd.forward s x) ∧
      ∀ x : Tensor F, o.forwardStep x = ReshapeNd.forwardStep s x := by
  have key : ∀ o : Obj, o.shape = s.map sizeVal → (∀ x : Tensor F, o.forward x = ReshapeNd.forward s x) ∧
      ∀ x : Tensor F, o.forwardStep x = ReshapeNd.forwardStep s x := by
    intro o ho
    constructor
    · intro x
      unfold Obj.forward
      rw [ho, sizes_sizeVal]
      cases hx : x.shape[2]? with
      | none => simp [ReshapeNd.forward, hx]
      | some T => rfl
    · intro x
      unfold Obj.forwardStep
      rw [ho, sizes_sizeVal]
  cases h with
  | unpacked => exact ⟨_, init_unpacked s hs _, key _ rfl⟩
  | sequence => exact ⟨_, init_sequence s hs [] _, key _ rfl⟩
  | position => exact ⟨_, init_sequence s hs [.bool c] _, key _ rfl⟩

/-- C118: `contiguous` is kept if it is given by name. -/
theorem C118_contiguous_partial (s : List (Option Nat)) (hs : s ≠ []) (c : Bool) (args : List Val)
    (h : args = s.map sizeVal ∨ args = [.seq (s.map sizeVal)]) : (init args c).map Obj.contiguous = .ok c := by
  rcases h with rfl | rfl
  · rw [init_unpacked s hs]; rfl
  · rw [init_sequence s hs]; rfl

/-- C118, the full claim fails: `Reshape(shape, True)`, as the first overload has it, is not contiguous. -/
theorem C118_position_refuted (s : List (Option Nat)) (hs : s ≠ []) :
    Documented s true [.seq (s.map sizeVal), .bool true] false ∧
      (init [.seq (s.map sizeVal), .bool true] false).map Obj.contiguous = .ok false := by
  refine ⟨.position s true, ?_⟩
  rw [init_sequence s hs]; rfl

/-- C118: whatever follows a sequence is ignored. -/
theorem C118_rest_ignored (l vs : List Val) (c : Bool) : init (.seq l :: vs) c = init [.seq l] c := by
  cases l <;> rfl

/-- C118: what the constructor refuses: no argument at all; an empty sequence; a first size that is no integer.  Other sizes are not
looked at before the module is used: then all clips that have a time axis and all frames raise `TypeError`. -/
theorem C118_accepts (args : List Val) (c : Bool) :
    ((∃ o, init args c = .ok o) ↔
      ∃ v vs, (args = v :: vs ∧ v.isInt = true) ∨ ∃ ws, args = .seq (v :: vs) :: ws ∧ v.isInt = true) ∧
    ∀ o, init args c = .ok o → (∃ v ∈ o.shape, ∀ i, v ≠ .int i) →
      (∀ x : Tensor F, 3 ≤ x.shape.length → o.forward x = .error .type) ∧ ∀ x : Tensor F, o.forwardStep x = .error .type := by
  constructor
  · constructor
    · rintro ⟨o, h⟩
      unfold init at h
      split at h
      · cases h
      · rename_i v vs
        split at h
        · rename_i hv
          exact ⟨v, vs, .inl ⟨rfl, hv⟩⟩
        · split at h
          · cases h
          · rename_i u us _
            split at h
            · rename_i hu
              exact ⟨u, us, .inr ⟨vs, rfl, hu⟩⟩
            · cases h
          · cases h
    · rintro ⟨v, vs, ⟨rfl, hv⟩ | ⟨ws, rfl, hv⟩⟩
      · exact ⟨_, if_pos hv⟩
      · exact ⟨⟨v :: vs, c⟩, if_pos hv⟩
  · rintro o _ ⟨v, hv, hn⟩
    have : sizes o.shape = .error .type := by
      unfold sizes
      rw [if_pos]
      rw [List.any_eq_true]
      refine ⟨v, hv, ?_⟩
      cases v with
      | int i => exact absurd rfl (hn i)
      | _ => rfl
    refine ⟨fun x hx => ?_, fun x => ?_⟩
    · unfold Obj.forward
      rw [List.getElem?_eq_getElem (by omega), this]
    · unfold Obj.forwardStep
      rw [this]

/-- An example: `Reshape(2, -1)`, `Reshape((2, -1))` and `Reshape((2, -1), True)` on a frame of six numbers. -/
example : ∀ args ∈ [[Val.int 2, .int (-1)], [.seq [.int 2, .int (-1)]], [.seq [.int 2, .int (-1)], .bool true]],
    ((init args false).toOption.bind fun o => (o.forwardStep (Tensor.of [6] fun i => (i.headD 0 : Int))).toOption).map (·.shape) =
      some [2, 3] := by decide +kernel

/-- An example of `C118_accepts`: `Reshape(2, None)` is made, and of no use. -/
example : ∃ o, init [.int 2, .other] false = .ok o ∧ ∃ v ∈ o.shape, ∀ i, v ≠ .int i :=
  ⟨_, rfl, .other, by simp, by simp⟩

end CoInf
