/-
C99: `forward_stepping` leaves a module's own `forward` alone.
-/
import Verif.Model.Enhance

set_option autoImplicit false

namespace CoInf.Spec
open Enhance

/-- A module of torch as it comes from its constructor: an attribute it does not have is not read by its `forward`. -/
structure Fresh {V Y : Type} (m : Mod V Y) : Prop where
  unmarked : m.marks = ⟨false, false, false⟩
  stride : m.stride = none → ∀ s p vs, m.body s p vs = m.body none p vs
  padding : m.padding = none → ∀ s p vs, m.body s p vs = m.body s none vs

/-- Sequences of numbers, or no attribute. -/
def Iterable : Option Attr → Prop
  | none => True
  | some (.seq _) => True
  | _ => False

end CoInf.Spec

namespace CoInf.Enhance
open Spec
variable {V Y : Type}

theorem tuple_iterable {a : Option Attr} {d : List Nat} (h : Iterable a) :
    ∃ l, (a.getD (.seq d)).tuple = .ok (.seq l) ∧ (a ≠ none → a = some (.seq l)) := by
  match a, h with
  | none, _ => exact ⟨d, rfl, fun h => absurd rfl h⟩
  | some (.seq l), _ => exact ⟨l, rfl, fun _ => rfl⟩

/-- **C99**, what holds: a module whose `stride` and `padding` are sequences (or missing) is accepted, is a valid member of
containers afterwards, and called with positional arguments it gives what it gave before, whatever arguments and exceptions. -/
theorem C99_positional_partial (name : String → V) (m : Mod V Y) (hm : Fresh m) (hs : Iterable m.stride)
    (hp : Iterable m.padding) : (forwardStepping m).2 = none ∧ isValid (forwardStepping m).1 = true ∧
      ∀ args, call name (forwardStepping m).1 args [] = call name m args [] := by
  obtain ⟨l, hl, hl'⟩ := tuple_iterable (d := [1]) hs
  obtain ⟨k, hk, hk'⟩ := tuple_iterable (d := [0]) hp
  have e : forwardStepping m =
      (⟨m.params, m.body, some (.seq l), some (.seq k), ⟨true, true, true⟩⟩, none) := by
    unfold forwardStepping
    simp only [hl, hk]
  rw [e]
  refine ⟨rfl, rfl, fun args => ?_⟩
  show own _ (args ++ []) [] = _
  rw [List.append_nil, call, hm.unmarked]
  show own _ args [] = own m args []
  unfold own
  refine congrArg (Except.bind (bind m.params args [])) (funext fun vs => ?_)
  show m.body (some (.seq l)) (some (.seq k)) vs = m.body m.stride m.padding vs
  by_cases h1 : m.stride = none
  · by_cases h2 : m.padding = none
    · rw [hm.stride h1, hm.padding h2, h1, h2]
    · rw [hm.stride h1, h1, hk' h2]
  · by_cases h2 : m.padding = none
    · rw [hm.padding h2, h2, hl' h1]
    · rw [hl' h1, hk' h2]

/-- **C99 fails** for keyword arguments: the names are passed on instead of the values.  So calls with the same names and any
values give the same. -/
theorem C99_keywords_refuted (name : String → V) (m : Mod V Y) (h : (forwardStepping m).2 = none) (args : List V)
    (kwargs kwargs' : List (String × V)) (hk : kwargs.map Prod.fst = kwargs'.map Prod.fst) :
    call name (forwardStepping m).1 args kwargs = call name (forwardStepping m).1 args kwargs' ∧
    call name (forwardStepping m).1 args kwargs =
      call name (forwardStepping m).1 (args ++ (kwargs.map Prod.fst).map name) [] := by
  have hw : (forwardStepping m).1.marks.wrapped = true := by
    revert h
    unfold forwardStepping
    simp only
    split
    · exact nofun
    · split
      · exact nofun
      · exact fun _ => rfl
  have e : ∀ ks : List (String × V), call name (forwardStepping m).1 args ks =
      own (forwardStepping m).1 (args ++ (ks.map Prod.fst).map name) [] := by
    intro ks
    rw [call, if_pos hw, List.map_map]
    rfl
  refine ⟨by rw [e, e, hk], ?_⟩
  rw [e, call, if_pos hw]
  simp

/-- **C99 fails** for modules with a number as `stride` (poolings of torch made with numbers): `forward_stepping` raises, and the
object is left with `forward_step` and `forward_steps` but is no valid member of a container; its `forward` is as before. -/
theorem C99_numbers_refuted (name : String → V) (m : Mod V Y) (hm : Fresh m) (n : Nat) (hn : m.stride = some (.num n)) :
    (forwardStepping m).2 = some .type ∧ (forwardStepping m).1.marks.steps = true ∧ isValid (forwardStepping m).1 = false ∧
    ∀ args kwargs, call name (forwardStepping m).1 args kwargs = call name m args kwargs := by
  have e : forwardStepping m = ({ m with marks := ⟨true, false, false⟩ }, some .type) := by
    unfold forwardStepping
    simp only [hn, Option.getD_some, Attr.tuple, hm.unmarked]
  rw [e]
  refine ⟨rfl, rfl, rfl, fun args kwargs => ?_⟩
  rw [call, call, hm.unmarked]
  rfl

/-- **C99 fails** for convolutions with `padding="same"` or `"valid"`: the string becomes a tuple of letters, which the
convolution of torch (that refuses letters) does not take; every call of the module raises afterwards. -/
theorem C99_string_padding_refuted (name : String → V) (m : Mod V Y) (hs : Iterable m.stride) (w : List Char)
    (hw : m.padding = some (.str w)) (hb : ∀ s l vs, m.body s (some (.letters l)) vs = .error .type) :
    (forwardStepping m).2 = none ∧ ∀ args, ∃ e, call name (forwardStepping m).1 args [] = .error e := by
  obtain ⟨l, hl, _⟩ := tuple_iterable (d := [1]) hs
  have e : forwardStepping m =
      (⟨m.params, m.body, some (.seq l), some (.letters w), ⟨true, true, true⟩⟩, none) := by
    unfold forwardStepping
    simp only [hl, hw, Option.getD_some]
    rfl
  rw [e]
  refine ⟨rfl, fun args => ?_⟩
  show ∃ e, own _ (args ++ []) [] = _
  unfold own
  cases h : bind m.params (args ++ []) ([] : List (String × V)) with
  | error er => exact ⟨er, by simp only [h]; rfl⟩
  | ok vs => exact ⟨.type, by simp only [h]; exact hb _ _ _⟩

/-! ### Examples -/

/-- Python values of the examples: numbers and strings. -/
abbrev ExVal := Int ⊕ String

/-- A module with `forward(self, x, scale=2)` that returns `x * scale`, if both are numbers. -/
def exScaled : Mod ExVal Int where
  params := [("x", none), ("scale", some (.inl 2))]
  body := fun _ _ vs => match vs with
    | [.inl x, .inl s] => .ok (x * s)
    | _ => .error .type
  stride := none
  padding := none
  marks := ⟨false, false, false⟩

theorem exScaled_fresh : Fresh exScaled := ⟨rfl, fun _ _ _ _ => rfl, fun _ _ _ _ => rfl⟩

example : Fresh exScaled ∧ Iterable exScaled.stride ∧ Iterable exScaled.padding ∧
    call .inr (forwardStepping exScaled).1 [.inl 7] [] = .ok 14 := ⟨exScaled_fresh, trivial, trivial, rfl⟩

/-- The keyword argument is lost: the name of the parameter is used as its value. -/
example : call .inr exScaled [.inl 7] [("scale", .inl 5)] = .ok 35 ∧
    call .inr (forwardStepping exScaled).1 [.inl 7] [("scale", .inl 5)] = .error .type := ⟨rfl, rfl⟩

/-- `nn.MaxPool2d(2)`, reduced to its attributes. -/
def exPool2 : Mod ExVal Int := { exScaled with stride := some (.num 2), padding := some (.num 0) }

example : Fresh exPool2 ∧ (forwardStepping exPool2).2 = some .type :=
  ⟨⟨rfl, fun _ _ _ _ => rfl, fun _ _ _ _ => rfl⟩, rfl⟩

/-- `nn.Conv1d(1, 1, 1, padding="same")`, reduced to its attributes. -/
def exSame : Mod ExVal Int where
  params := [("input", none)]
  body := fun _ p vs => match p, vs with
    | some (.letters _), _ => .error .type
    | _, [.inl x] => .ok x
    | _, _ => .error .type
  stride := some (.seq [1])
  padding := some (.str "same".toList)
  marks := ⟨false, false, false⟩

example : Iterable exSame.stride ∧ call .inr exSame [.inl 3] [] = .ok 3 ∧
    call .inr (forwardStepping exSame).1 [.inl 3] [] = .error .type := ⟨trivial, rfl, rfl⟩

end CoInf.Enhance
