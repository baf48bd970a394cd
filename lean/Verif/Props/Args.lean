/-
C104: the forms in which sizes may be given.
-/
import Verif.Model.Args

set_option autoImplicit false

namespace CoInf.Spec
open Args

/-- The argument has a value for each of `n` axes: one number for all, or a sequence with one number for each. -/
inductive ForEach (n : Nat) : Size → List Nat → Prop
  | int (k : Nat) : ForEach n (.int k) (List.replicate n k)
  | seq (l : List Nat) : l.length = n → ForEach n (.seq l) l

/-- The values that torch gives to an argument: also a sequence of length one is one number for all axes, and the padding
`"valid"` is none at all. -/
inductive InTorch (n : Nat) : Size → List Nat → Prop
  | each (s : Size) (l : List Nat) : ForEach n s l → InTorch n s l
  | single (k : Nat) : InTorch n (.seq [k]) (List.replicate n k)
  | valid : InTorch n (.str "valid") (List.replicate n 0)

end CoInf.Spec

namespace CoInf.Args
open Spec

theorem nums_map (l : List Nat) : nums (l.map .num) = .ok l := by
  induction l with
  | nil => rfl
  | cons k l ih => simp only [List.map_cons, nums, ih]; rfl

theorem expand_map {n : Nat} {l : List Nat} (h : l.length = n) : expand n (l.map .num) = .ok l := by
  unfold expand
  rw [nums_map]
  match l, h with
  | [], h => subst h; rfl
  | [k], h => subst h; rfl
  | a :: b :: l, h =>
    show (if (a :: b :: l).length = n then _ else _) = _
    rw [if_pos h]
    rfl

theorem expand_single (n k : Nat) : expand n [.num k] = .ok (List.replicate n k) := rfl

theorem ntuple_each {n : Nat} {s : Size} {l : List Nat} (h : ForEach n s l) : ntuple n s = l.map .num ∧ l.length = n := by
  cases h with
  | int k => exact ⟨by simp [ntuple], by simp⟩
  | seq l h => exact ⟨rfl, h⟩

theorem first_map {l : List Nat} {k : Nat} (h : l.head? = some k) : first (l.map .num) = .ok k := by
  cases l with
  | nil => cases h
  | cons a l => cases h; rfl

/-- **C104.** If the sizes of a convolution are given as one number or as one number for each axis, then the module has the
attributes torch gives it: `forward` uses these values on all axes, `forward_step` on all axes but time, and the reported delay is that
of the temporal values. -/
theorem C104_conv_partial {n K P : Nat} {kernel stride padding dilation : Size} {k s p d : List Nat} (hk : ForEach n kernel k)
    (hs : ForEach n stride s) (hp : ForEach n padding p) (hd : ForEach n dilation d) (hK : k.head? = some K)
    (hP : p.head? = some P) (h1 : d.head? = some 1) :
    ∃ c, convInit n kernel stride padding dilation = .ok c ∧ c.forwardAxes n = .ok (s, p, d) ∧
      c.stepAxes n = .ok (1 :: s.tail, (K - 1) :: p.tail, d) ∧ c.delay = .ok ((K : Int) - 1 - P) := by
  obtain ⟨ek, lk⟩ := ntuple_each hk
  obtain ⟨es, ls⟩ := ntuple_each hs
  obtain ⟨ep, lp⟩ := ntuple_each hp
  obtain ⟨ed, ld⟩ := ntuple_each hd
  have hn : n ≠ 0 := by
    rintro rfl
    rw [List.length_eq_zero_iff.1 lk] at hK
    cases hK
  obtain ⟨s0, st, rfl⟩ : ∃ a l, s = a :: l := List.exists_cons_of_length_pos (by omega)
  obtain ⟨p0, pt, rfl⟩ : ∃ a l, p = a :: l := List.exists_cons_of_length_pos (by omega)
  obtain ⟨d0, dt, rfl⟩ : ∃ a l, d = a :: l := List.exists_cons_of_length_pos (by omega)
  cases h1
  obtain rfl : p0 = P := by simpa using hP
  refine ⟨⟨k.map .num, (s0 :: st).map .num, (p0 :: pt).map .num, (1 :: dt).map .num⟩, ?_, ?_, ?_, ?_⟩
  · unfold convInit
    rw [ek, es, ep, ed]
    simp only [first_map hK]
    rfl
  · unfold Conv.forwardAxes
    simp only [expand_map ls, expand_map lp, expand_map ld]
    rfl
  · unfold Conv.stepAxes
    have e1 : expand n (Elem.num 1 :: ((s0 :: st).map Elem.num).tail) = .ok (1 :: st) :=
      expand_map (l := 1 :: st) (by simpa using ls)
    have e2 : expand n (Elem.num (K - 1) :: ((p0 :: pt).map Elem.num).tail) = .ok ((K - 1) :: pt) :=
      expand_map (l := (K - 1) :: pt) (by simpa using lp)
    simp only [first_map hK, e1, expand_map ld]
    show (do let b ← expand n (Elem.num (K - 1) :: ((p0 :: pt).map Elem.num).tail); pure (1 :: st, b, 1 :: dt)) = _
    rw [e2]
    rfl
  · unfold Conv.delay
    simp only [first_map hK]
    have : K + (K - 1) * (1 - 1) = K := by simp
    show Except.ok (((K + (K - 1) * (1 - 1) : Nat) : Int) - 1 - p0) = _
    rw [this]

/-- **C104 fails** for sequences of length one, which torch repeats for all axes: `forward` uses the stride and the padding on all
axes, but `forward_step` uses stride 1 and padding `K - 1` on the axes of space. -/
theorem C104_conv_single_refuted {n K : Nat} (hn : 2 ≤ n) {kernel : Size} {k : List Nat} (hk : ForEach n kernel k)
    (hK : k.head? = some K) (s p : Nat) :
    ∃ c, convInit n kernel (.seq [s]) (.seq [p]) (.int 1) = .ok c ∧
      c.forwardAxes n = .ok (List.replicate n s, List.replicate n p, List.replicate n 1) ∧
      InTorch n (.seq [s]) (List.replicate n s) ∧ InTorch n (.seq [p]) (List.replicate n p) ∧
      c.stepAxes n = .ok (List.replicate n 1, List.replicate n (K - 1), List.replicate n 1) := by
  obtain ⟨ek, lk⟩ := ntuple_each hk
  have ed : expand n (List.replicate n (.num 1)) = .ok (List.replicate n 1) := by
    have := expand_map (n := n) (l := List.replicate n 1) (by simp)
    simpa using this
  refine ⟨⟨k.map .num, [.num s], [.num p], List.replicate n (.num 1)⟩, ?_, ?_, .single s, .single p, ?_⟩
  · unfold convInit
    obtain ⟨m, rfl⟩ : ∃ m, n = m + 1 := ⟨n - 1, by omega⟩
    rw [ek]
    simp only [first_map hK]
    rfl
  · unfold Conv.forwardAxes
    simp only [ed, expand_single]
    rfl
  · unfold Conv.stepAxes
    simp only [first_map hK, ed, List.tail_cons, expand_single]
    rfl

theorem nums_letter (c : Char) (es : List Elem) : nums (.letter c :: es) = .error .type := rfl

/-- **C104 fails** for padding that is given as a string (`"valid"` or `"same"` in torch): the constructor takes it for a sequence
of letters, and `delay` and `forward` raise. -/
theorem C104_string_refuted {n K : Nat} {kernel stride : Size} {k s : List Nat} (hk : ForEach n kernel k) (hs : ForEach n stride s)
    (hK : k.head? = some K) (text : String) (ht : text ≠ "") :
    ∃ c, convInit n kernel stride (.str text) (.int 1) = .ok c ∧ c.delay = .error .type ∧ c.forwardAxes n = .error .type := by
  obtain ⟨ek, lk⟩ := ntuple_each hk
  obtain ⟨es, ls⟩ := ntuple_each hs
  have hn : n ≠ 0 := by
    rintro rfl
    rw [List.length_eq_zero_iff.1 lk] at hK
    cases hK
  obtain ⟨m, rfl⟩ : ∃ m, n = m + 1 := ⟨n - 1, by omega⟩
  obtain ⟨s0, st, rfl⟩ : ∃ a l, s = a :: l := List.exists_cons_of_length_pos (by omega)
  obtain ⟨a, l, hl⟩ : ∃ a l, text.toList = a :: l := by
    cases h : text.toList with
    | nil => exact absurd (String.toList_eq_nil_iff.1 h) ht
    | cons a l => exact ⟨a, l, rfl⟩
  refine ⟨⟨k.map .num, (s0 :: st).map .num, .letter a :: l.map .letter, List.replicate (m + 1) (.num 1)⟩, ?_, ?_, ?_⟩
  · unfold convInit
    have et : ntuple (m + 1) (.str text) = .letter a :: l.map .letter := by simp only [ntuple, hl]; rfl
    rw [ek, es, et]
    simp only [first_map hK]
    rfl
  · unfold Conv.delay
    simp only [first_map hK]
    rfl
  · unfold Conv.forwardAxes
    simp only [expand_map ls]
    rfl

/-- **C104**, poolings: with one number or one number for each axis, `forward` uses these values on all axes and `forward_step` on
the axes of space; a stride that is left out is the kernel size. -/
theorem C104_pool_partial {n K : Nat} {kernel stride padding dilation : Size} {k s p d : List Nat} (hk : ForEach n kernel k)
    (hs : ForEach n stride s ∨ (stride = .none ∧ s = k)) (hp : ForEach n padding p) (hd : ForEach n dilation d)
    (hK : k.head? = some K) (hK0 : 0 < K) :
    ∃ c, poolInit n kernel stride padding dilation = .ok c ∧ c.forwardAxes n = .ok (k, s, p) ∧
      c.spatialAxes n = .ok (k.tail, s.tail, p.tail) := by
  obtain ⟨ek, lk⟩ := ntuple_each hk
  obtain ⟨ep, lp⟩ := ntuple_each hp
  obtain ⟨ed, ld⟩ := ntuple_each hd
  have hs' : ntuple n (if stride = .none then kernel else stride) = s.map .num ∧ s.length = n := by
    rcases hs with hs | ⟨rfl, rfl⟩
    · rw [if_neg (by rintro rfl; cases hs)]
      exact ntuple_each hs
    · exact ⟨ek, lk⟩
  obtain ⟨es, ls⟩ := hs'
  have strideOf : ∀ (m : Nat) (k s : List Nat), k.length = m → s.length = m →
      expandStride m (k.map .num) (s.map .num) = .ok s := by
    intro m k s hk hs
    unfold expandStride
    by_cases h : s = []
    · subst h
      have : k = [] := by
        have : m = 0 := by simpa using hs.symm
        exact List.length_eq_zero_iff.1 (hk.trans this)
      subst this
      rw [if_pos (by rfl)]
      exact expand_map hk
    · rw [if_neg (by simpa using h)]
      exact expand_map hs
  refine ⟨⟨k.map .num, s.map .num, p.map .num, d.map .num⟩, ?_, ?_, ?_⟩
  · unfold poolInit
    simp only [ek, es, ep, ed, first_map hK]
    show (if 0 < K then _ else _) = _
    rw [if_pos hK0]
    rfl
  · unfold Pool.forwardAxes
    simp only [expand_map lk, strideOf n k s lk ls, expand_map lp]
    rfl
  · unfold Pool.spatialAxes
    simp only [← List.map_tail]
    rw [expand_map (l := k.tail) (by simp [lk]), strideOf (n - 1) k.tail s.tail (by simp [lk]) (by simp [ls]),
      expand_map (l := p.tail) (by simp [lp])]
    rfl

/-- **C104 fails** for poolings and sequences of length one: with a kernel size for each axis and the stride `(s,)`, `forward` uses
`s` on all axes, but the spatial pooling of `forward_step` takes its kernel size as the stride; with the kernel size `(k,)` or the
padding `(p,)`, `forward` works and `forward_step` raises. -/
theorem C104_pool_single_refuted {n : Nat} (hn : 2 ≤ n) (k : List Nat) (hk : k.length = n) (h0 : 0 < k.headD 0) (s p K : Nat)
    (hK : 0 < K) :
    (∃ c, poolInit n (.seq k) (.seq [s]) (.int 0) (.int 1) = .ok c ∧
      c.forwardAxes n = .ok (k, List.replicate n s, List.replicate n 0) ∧
      c.spatialAxes n = .ok (k.tail, k.tail, List.replicate (n - 1) 0)) ∧
    (∃ c, poolInit n (.seq [K]) (.int s) (.int p) (.int 1) = .ok c ∧
      c.forwardAxes n = .ok (List.replicate n K, List.replicate n s, List.replicate n p) ∧ c.spatialAxes n = .error .runtime) ∧
    (∃ c, poolInit n (.seq k) (.int s) (.seq [p]) (.int 1) = .ok c ∧
      c.forwardAxes n = .ok (k, List.replicate n s, List.replicate n p) ∧ c.spatialAxes n = .error .runtime) := by
  have rep : ∀ m a, expand m (List.replicate m (.num a)) = .ok (List.replicate m a) := by
    intro m a
    have := expand_map (n := m) (l := List.replicate m a) (by simp)
    simpa using this
  have empty : expand (n - 1) [] = .error .runtime := by
    unfold expand
    show (if ([] : List Nat).length = n - 1 then _ else _) = _
    rw [if_neg (by simp; omega)]
    rfl
  obtain ⟨a, k, rfl⟩ : ∃ a l, k = a :: l := List.exists_cons_of_length_pos (by omega)
  have ht : expand (n - 1) (((a :: k).map Elem.num).tail) = .ok k := by
    rw [← List.map_tail]
    exact expand_map (by have : k.length + 1 = n := hk; simp only [List.tail_cons]; omega)
  have ne : ((n : Nat) - 1 ≠ 0) := by omega
  have rne : ∀ m b, m ≠ 0 → List.replicate m (Elem.num b) ≠ [] := by
    intro m b hm h
    exact hm (by simpa using congrArg List.length h)
  refine ⟨⟨⟨(a :: k).map .num, [.num s], List.replicate n (.num 0), List.replicate n (.num 1)⟩, ?_, ?_, ?_⟩,
    ⟨⟨[.num K], List.replicate n (.num s), List.replicate n (.num p), List.replicate n (.num 1)⟩, ?_, ?_, ?_⟩,
    ⟨⟨(a :: k).map .num, List.replicate n (.num s), [.num p], List.replicate n (.num 1)⟩, ?_, ?_, ?_⟩⟩
  · unfold poolInit
    show (if 0 < a then _ else _) = _
    rw [if_pos (show 0 < a from h0)]
    rfl
  · unfold Pool.forwardAxes
    have : expandStride n ((a :: k).map Elem.num) [.num s] = .ok (List.replicate n s) := rfl
    simp only [expand_map hk, this, rep]
    rfl
  · unfold Pool.spatialAxes
    have : expandStride (n - 1) (((a :: k).map Elem.num).tail) ([Elem.num s].tail) = .ok k := ht
    simp only [ht, this, List.tail_replicate, rep]
    rfl
  · unfold poolInit
    show (if 0 < K then _ else _) = _
    rw [if_pos hK]
    rfl
  · unfold Pool.forwardAxes
    have : expandStride n [Elem.num K] (List.replicate n (.num s)) = .ok (List.replicate n s) := by
      unfold expandStride
      rw [if_neg (rne n s (by omega)), rep]
    simp only [expand_single, this, rep]
    rfl
  · unfold Pool.spatialAxes
    show (do let x ← expand (n - 1) []; _) = _
    rw [empty]
    rfl
  · unfold poolInit
    show (if 0 < a then _ else _) = _
    rw [if_pos (show 0 < a from h0)]
    rfl
  · unfold Pool.forwardAxes
    have : expandStride n ((a :: k).map Elem.num) (List.replicate n (.num s)) = .ok (List.replicate n s) := by
      unfold expandStride
      rw [if_neg (rne n s (by omega)), rep]
    simp only [expand_map hk, this, expand_single]
    rfl
  · unfold Pool.spatialAxes
    have : expandStride (n - 1) (((a :: k).map Elem.num).tail) ((List.replicate n (.num s)).tail) =
        .ok (List.replicate (n - 1) s) := by
      unfold expandStride
      rw [List.tail_replicate, if_neg (rne _ s ne), rep]
    simp only [ht, this, List.tail_cons, empty]
    rfl

/-! ### Examples -/

example : ∃ c, convInit 3 (.int 3) (.seq [1, 2, 2]) (.int 1) (.int 1) = .ok c ∧
    c.forwardAxes 3 = .ok ([1, 2, 2], [1, 1, 1], [1, 1, 1]) ∧ c.stepAxes 3 = .ok ([1, 2, 2], [2, 1, 1], [1, 1, 1]) ∧
    c.delay = .ok 1 := by
  obtain ⟨c, h1, h2, h3, h4⟩ := C104_conv_partial (n := 3) (K := 3) (P := 1) (.int 3) (.seq [1, 2, 2] rfl) (.int 1) (.int 1)
    rfl rfl rfl
  exact ⟨c, h1, h2, h3, h4⟩

/-- `co.Conv2d(1, 1, 3, stride=(2,), padding=(1,))`: spatial stride 1 and padding 2 in steps. -/
example : ∃ c, convInit 2 (.int 3) (.seq [2]) (.seq [1]) (.int 1) = .ok c ∧
    c.forwardAxes 2 = .ok ([2, 2], [1, 1], [1, 1]) ∧ c.stepAxes 2 = .ok ([1, 1], [2, 2], [1, 1]) := by
  obtain ⟨c, h1, h2, _, _, h3⟩ := C104_conv_single_refuted (n := 2) (K := 3) (by decide) (.int 3) rfl 2 1
  exact ⟨c, h1, h2, h3⟩

example : "valid" ≠ "" ∧ "same" ≠ "" := by decide

example : ∃ c, poolInit 3 (.seq [2, 3, 3]) .none (.int 0) (.int 1) = .ok c ∧
    c.forwardAxes 3 = .ok ([2, 3, 3], [2, 3, 3], [0, 0, 0]) ∧ c.spatialAxes 3 = .ok ([3, 3], [3, 3], [0, 0]) := by
  obtain ⟨c, h1, h2, h3⟩ := C104_pool_partial (n := 3) (K := 2) (.seq [2, 3, 3] rfl) (.inr ⟨rfl, rfl⟩) (.int 0) (.int 1) rfl
    (by decide)
  exact ⟨c, h1, h2, h3⟩

end CoInf.Args
