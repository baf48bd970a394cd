/-
Texts of functions: C95.
-/
import Verif.Model.Repr

set_option autoImplicit false

namespace CoInf.Spec

/-- Text in which parentheses are balanced and, unless `comma`, commas occur inside of parentheses only. -/
inductive Text : Bool → List Char → Prop where
  | nil {b : Bool} : Text b []
  | char {b : Bool} {c : Char} {cs : List Char} : c ≠ '(' → c ≠ ')' → (c = ',' → b = true) → Text b cs → Text b (c :: cs)
  | paren {b : Bool} {xs ys : List Char} : Text true xs → Text b ys → Text b ('(' :: xs ++ ')' :: ys)

/-- The word occurs nowhere before this place. -/
def FirstAt (word pre rest : List Char) : Prop := ∀ i < pre.length, ¬ word <+: (pre ++ rest).drop i

end CoInf.Spec

namespace CoInf.Repr
open Spec

theorem find_pre (word : List Char) : ∀ (pre rest : List Char) (n : Nat), FirstAt word pre rest → word <+: rest → word ≠ [] →
    find word (pre ++ rest) n = (n + pre.length : Nat)
  | [], rest, n, _, hw, hne => by
    cases rest with
    | nil => exact absurd (List.prefix_nil.1 hw) hne
    | cons c cs => simp only [List.nil_append, find, if_pos hw]; simp
  | p :: pre, rest, n, hf, hw, hne => by
    have h0 : ¬ word <+: p :: (pre ++ rest) := by
      have := hf 0 (by simp)
      simpa using this
    have ht : FirstAt word pre rest := fun i hi => by
      have := hf (i + 1) (by simpa using hi)
      simpa using this
    rw [List.cons_append, find, if_neg h0, find_pre word pre rest (n + 1) ht hw hne]
    simp only [List.length_cons]
    congr 1
    omega

theorem from_nat (s : List Char) (n : Nat) : from' s n = s.drop n := by
  simp [from', show ¬ ((n : Int) < 0) by omega]

theorem upTo_nat (s : List Char) (n : Nat) : upTo s n = s.take n := by
  simp [upTo, show ¬ ((n : Int) < 0) by omega]

theorem scan_text {b : Bool} {a : List Char} (h : Text b a) : ∀ (i st : Int) (r : List Char), 0 ≤ st → (b = true → 1 ≤ st) →
    scan i st (a ++ r) = scan (i + a.length) st r := by
  induction h with
  | nil => intro i st r _ _; simp
  | @char b c cs h1 h2 h3 _ ih =>
    intro i st r hst hb
    rw [List.cons_append, scan]
    have hn : ¬ ((st = 0 ∧ c = ',') ∨ (st = -1 ∧ c = ')')) := by
      rintro (⟨e, e'⟩ | ⟨e, _⟩)
      · have := hb (h3 e'); omega
      · omega
    simp only [if_neg h1, if_neg h2, if_neg hn]
    rw [ih _ _ _ hst hb]
    congr 1
    simp only [List.length_cons]
    push_cast
    omega
  | @paren b xs ys _ _ ih1 ih2 =>
    intro i st r hst hb
    have e : '(' :: xs ++ ')' :: ys ++ r = '(' :: (xs ++ ')' :: (ys ++ r)) := by simp
    rw [e, scan]
    have hn : ¬ ((st + 1 = 0 ∧ '(' = ',') ∨ (st + 1 = -1 ∧ '(' = ')')) := by
      rintro (⟨_, e'⟩ | ⟨_, e'⟩) <;> exact absurd e' (by decide)
    simp only [if_true, hn, if_false]
    rw [ih1 _ _ _ (by omega) (fun _ => by omega), scan]
    have hn' : ¬ ((st + 1 - 1 = 0 ∧ ')' = ',') ∨ (st + 1 - 1 = -1 ∧ True)) := by
      rintro (⟨_, e'⟩ | ⟨e', _⟩)
      · exact absurd e' (by decide)
      · omega
    simp only [show ¬ ((')' : Char) = '(') by decide, if_false, if_true, hn']
    rw [show st + 1 - 1 = st by omega, ih2 _ _ _ hst hb]
    congr 1
    simp only [List.length_cons, List.length_append]
    push_cast
    omega

/-- The source of a lambda up to the text of its body. -/
theorem lambdaText_eq (pre args body rest : List Char) (hp : FirstAt "lambda".toList pre ("lambda".toList ++ args ++ ':' :: body ++ rest))
    (ha : ':' ∉ args) {i : Nat}
    (hs : scan ((6 + args.length : Nat) : Int) 0 (body ++ rest) = (7 + args.length + i : Nat)) :
    lambdaText (pre ++ ("lambda".toList ++ args ++ ':' :: body ++ rest)) =
      rstrip ("lambda".toList ++ args ++ ':' :: (body ++ rest).take i) := by
  have h1 := find_pre "lambda".toList pre ("lambda".toList ++ args ++ ':' :: body ++ rest) 0 hp
    ⟨args ++ ':' :: body ++ rest, by simp⟩ (by decide)
  simp only [lambdaText]
  rw [h1, from_nat, Nat.zero_add, List.drop_left]
  have h2 := find_pre [':'] ("lambda".toList ++ args) (':' :: (body ++ rest)) 0 (by
    intro j hj hc
    have hm : (("lambda".toList ++ args) ++ ':' :: (body ++ rest))[j]? = some ':' := by
      obtain ⟨t, ht⟩ := hc
      have := congrArg (fun l => l[0]?) ht
      simp only [List.singleton_append, List.getElem?_cons_zero, List.getElem?_drop, Nat.add_zero] at this
      exact this.symm
    rw [List.getElem?_append_left hj] at hm
    have hm' := List.mem_of_getElem? hm
    rw [List.mem_append] at hm'
    rcases hm' with h | h
    · exact absurd h (by decide)
    · exact ha h) ⟨body ++ rest, by simp⟩ (by decide)
  have e : "lambda".toList ++ args ++ ':' :: body ++ rest = ("lambda".toList ++ args) ++ ':' :: (body ++ rest) := by simp
  have hl : ("lambda".toList ++ args).length = 6 + args.length := by
    rw [List.length_append]; rfl
  rw [e, h2, Nat.zero_add, hl]
  have e3 : (((6 + args.length : Nat) : Int) + 1) = ((7 + args.length : Nat) : Int) := by push_cast; omega
  rw [e3, from_nat]
  have e4 : (("lambda".toList ++ args) ++ ':' :: (body ++ rest)).drop (7 + args.length) = body ++ rest := by
    have e5 : ("lambda".toList ++ args) ++ ':' :: (body ++ rest) = (("lambda".toList ++ args) ++ [':']) ++ (body ++ rest) := by simp
    rw [e5]
    refine List.drop_left' ?_
    rw [List.length_append, hl]
    simp; omega
  rw [e4, hs, upTo_nat]
  congr 1
  have e5 : ("lambda".toList ++ args) ++ ':' :: (body ++ rest) = (("lambda".toList ++ args) ++ [':']) ++ (body ++ rest) := by simp
  have hl5 : (("lambda".toList ++ args) ++ [':']).length = 7 + args.length := by
    rw [List.length_append, hl]; simp; omega
  rw [e5, ← hl5, List.take_length_add_append]
  simp

theorem scan_ends (i : Int) {rest : List Char} (h : ∃ c cs, rest = c :: cs ∧ (c = ',' ∨ c = ')')) : scan i 0 rest = i + 1 := by
  obtain ⟨c, cs, rfl, rfl | rfl⟩ := h
  · simp [scan]
  · simp [scan]

theorem rstrip_id (s : List Char) (h : ∀ c ∈ s.getLast?, blank c = false) : rstrip s = s := by
  unfold rstrip
  cases hs : s.reverse with
  | nil => simpa using hs.symm
  | cons c cs =>
    have : s.getLast? = some c := by rw [← List.head?_reverse, hs]; rfl
    rw [List.dropWhile_cons_of_neg (by simpa using h c (by simp [this])), ← hs, List.reverse_reverse]

/-- The text is that of the lambda when it is the first in its statement, its arguments have no colon, commas of its body are all
inside of parentheses, and it is followed by a comma or by the parenthesis of the call. -/
theorem C95_text_partial (pre args body rest : List Char)
    (hp : FirstAt "lambda".toList pre ("lambda".toList ++ args ++ ':' :: body ++ rest)) (ha : ':' ∉ args)
    (hb : Text false body) (hne : ∀ c ∈ (':' :: body).getLast?, blank c = false) (hr : ∃ c cs, rest = c :: cs ∧ (c = ',' ∨ c = ')')) :
    functionRepr (.lambda (pre ++ ("lambda".toList ++ args ++ ':' :: body ++ rest))) = .ok ("lambda".toList ++ args ++ ':' :: body) := by
  have hs : scan ((6 + args.length : Nat) : Int) 0 (body ++ rest) = (7 + args.length + body.length : Nat) := by
    rw [scan_text hb _ _ _ (by omega) (by simp), scan_ends _ hr]
    push_cast; omega
  rw [functionRepr, lambdaText_eq pre args body rest hp ha hs, List.take_left, rstrip_id]
  intro c hc
  refine hne c ?_
  rw [List.getLast?_append_of_ne_nil _ (by simp)] at hc
  exact hc

/-- The text of a lambda ends at a comma in brackets or braces: of `lambda x: x[:, 0]` is left `lambda x: x[:`. -/
theorem C95_brackets_refuted (pre args body more rest : List Char)
    (hp : FirstAt "lambda".toList pre ("lambda".toList ++ args ++ ':' :: body ++ (',' :: more ++ ']' :: rest))) (ha : ':' ∉ args)
    (hb : Text false body) (hne : ∀ c ∈ (':' :: body).getLast?, blank c = false) :
    functionRepr (.lambda (pre ++ ("lambda".toList ++ args ++ ':' :: body ++ (',' :: more ++ ']' :: rest)))) =
      .ok ("lambda".toList ++ args ++ ':' :: body) ∧
    "lambda".toList ++ args ++ ':' :: body ≠ "lambda".toList ++ args ++ ':' :: (body ++ ',' :: more ++ [']']) := by
  refine ⟨C95_text_partial pre args body _ hp ha hb hne ⟨',', _, rfl, Or.inl rfl⟩, fun h => ?_⟩
  have := congrArg List.length h
  simp at this

/-- Of two lambdas in one statement both show the text of the first, whatever the second is. -/
theorem C95_second_refuted (pre args body more args' body' rest : List Char)
    (hp : FirstAt "lambda".toList pre
      ("lambda".toList ++ args ++ ':' :: body ++ (',' :: more ++ "lambda".toList ++ args' ++ ':' :: body' ++ rest))) (ha : ':' ∉ args)
    (hb : Text false body) (hne : ∀ c ∈ (':' :: body).getLast?, blank c = false)
    (hd : args ++ ':' :: body ≠ args' ++ ':' :: body') :
    ∃ t, functionRepr (.lambda (pre ++ ("lambda".toList ++ args ++ ':' :: body ++
        (',' :: more ++ "lambda".toList ++ args' ++ ':' :: body' ++ rest)))) = .ok t ∧
      t = "lambda".toList ++ args ++ ':' :: body ∧ t ≠ "lambda".toList ++ args' ++ ':' :: body' := by
  refine ⟨_, C95_text_partial pre args body _ hp ha hb hne ⟨',', _, by simp only [List.cons_append]; rfl, Or.inl rfl⟩, rfl, fun h => hd ?_⟩
  simpa using h

/-- Functions, modules and partials of functions are shown by their names; other callables raise. -/
theorem C95_named (n r : List Char) :
    functionRepr (.named n) = .ok n ∧ functionRepr (.partialOf (.named n)) = .ok n ∧ functionRepr (.module r) = .ok r ∧
    functionRepr .none = .ok [] := ⟨rfl, rfl, rfl, rfl⟩

/-- `repr` of a Lambda, and with it of each network it is in, raises for callable objects without a name, though the Lambda itself
can be made and run. -/
theorem C95_object_refuted (fo fs fss : Option Fn) (t : Bool) :
    lambdaRepr (some .object) fo fs fss t = .error .attribute ∧ functionRepr (.partialOf .object) = .error .attribute := by
  exact ⟨rfl, rfl⟩

/-- The roles of the functions do not show: a Lambda with one function for all modes and one with a function for `forward` only. -/
theorem C95_roles_refuted (f : Fn) (t : Bool) : lambdaRepr (some f) none none none t = lambdaRepr none (some f) none none t := by
  unfold lambdaRepr
  simp only []
  cases h : functionRepr f <;> rfl

/-- `co.Lambda(lambda x: torch.cat((x, x), 1), takes_time=True)` and `co.Lambda(lambda x: x[:, 0])`. -/
example : functionRepr (.lambda "y = co.Lambda(lambda x: f((x, x), 1), takes_time=True)".toList) = .ok "lambda x: f((x, x), 1)".toList ∧
    functionRepr (.lambda "y = co.Lambda(lambda x: x[:, 0])".toList) = .ok "lambda x: x[:".toList ∧
    lambdaRepr (some (.lambda "y = co.Lambda(lambda x: x + 1)".toList)) none none none true =
      .ok "Lambda(lambda x: x + 1, takes_time=True)".toList := by
  refine ⟨?_, ?_, ?_⟩ <;> decide +kernel

/-- The hypotheses of `C95_text_partial` are met. -/
example : FirstAt "lambda".toList "f(".toList ("lambda".toList ++ " x".toList ++ ':' :: " g(x, 1)".toList ++ ")".toList) ∧
    Text false " g(x, 1)".toList := by
  refine ⟨by unfold FirstAt; decide, ?_⟩
  refine .char (by decide) (by decide) (by decide) (.char (by decide) (by decide) (by decide) ?_)
  exact .paren (xs := "x, 1".toList) (ys := []) (.char (by decide) (by decide) (by simp) (.char (by decide) (by decide) (by simp)
    (.char (by decide) (by decide) (by simp) (.char (by decide) (by decide) (by simp) .nil)))) .nil

end CoInf.Repr
