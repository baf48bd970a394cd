/-
What it means for a nested state to have a declared shape.
-/
import Verif.Model.Onnx

set_option autoImplicit false

namespace CoInf.Onnx.Spec

variable {T X : Type}

mutual
/-- `v` has the shape `s`: a tuple of `n` tensors, or a list of values of the listed shapes. -/
inductive Fits : Nested T → Shape → Prop where
  | num (l : List T) : Fits (.many (l.map .one)) (.num l.length)
  | list {l : List (Nested T)} {ss : List Shape} : FitsAll l ss → Fits (.many l) (.list ss)
inductive FitsAll : List (Nested T) → List Shape → Prop where
  | nil : FitsAll [] []
  | cons {v : Nested T} {s : Shape} {l : List (Nested T)} {ss : List Shape} :
      Fits v s → FitsAll l ss → FitsAll (v :: l) (s :: ss)
end

/-- A tensor at a path (indices from the outside in) of a nested value. -/
def at? : Nested T → List Nat → Option T
  | .one t, [] => some t
  | .many l, i :: p => match l[i]? with
    | some v => at? v p
    | none => none
  | _, _ => none

mutual
/-- The leaves declare one flag per state tensor and their steps return as many tensors as they were given. -/
inductive Declared : Mod X T → Prop where
  | leaf {n : Nat} {inds : List Bool} {f : X → Nested T → Except Err (Option X × Nested T)} :
      inds.length = n →
      (∀ (x : X) (l : List T) (o : Option X) (v : Nested T), l.length = n → f x (.many (l.map .one)) = .ok (o, v) →
        ∃ l' : List T, l'.length = n ∧ v = .many (l'.map .one)) →
      Declared (.leaf n inds f)
  | seq {ms : List (Mod X T)} : DeclaredAll ms → Declared (.seq ms)
  | reduce {r : List X → Except Err X} {ms : List (Mod X T)} : DeclaredAll ms → Declared (.reduce r ms)
  | par {get : X → Nat → Except Err X} {pack : List (Option X) → X} {ms : List (Mod X T)} :
      DeclaredAll ms → Declared (.par get pack ms)
inductive DeclaredAll : List (Mod X T) → Prop where
  | nil : DeclaredAll []
  | cons {m : Mod X T} {ms : List (Mod X T)} : Declared m → DeclaredAll ms → DeclaredAll (m :: ms)
end

/-- Frame after frame, feeding the returned state back in; the outputs and the last state. -/
def loop {S O : Type} (f : X → S → Except Err (O × S)) : List X → S → Except Err (List O × S)
  | [], s => .ok ([], s)
  | x :: xs, s =>
    match f x s with
    | .error e => .error e
    | .ok (o, s') =>
      match loop f xs s' with
      | .error e => .error e
      | .ok (os, s'') => .ok (o :: os, s'')

end CoInf.Onnx.Spec
