import Verif.Lemmas.Ahead

set_option autoImplicit false

namespace CoInf
open Spec
variable {X Y Z : Type}

namespace BroadcastReduce

theorem delayTo_of_lt (fill : Y → Y) {d : Int} {m : CoMod (.stream X) (.stream Y)} (h : m.delay < d) :
    delayTo fill d m =
      Sequential.mod (.cons m (.single (Delay.mod { d := (d - m.delay).toNat, fill := fill }))) := by
  simp [delayTo, h]

theorem delayTo_of_not_lt (fill : Y → Y) {d : Int} {m : CoMod (.stream X) (.stream Y)} (h : ¬ m.delay < d) :
    delayTo fill d m = m := by
  simp [delayTo, h]

/-- `Sequential(module, Delay(n))`. -/
abbrev thenDelay (fill : Y → Y) (n : Nat) (m : CoMod (.stream X) (.stream Y)) : CoMod (.stream X) (.stream Y) :=
  Sequential.mod (.cons m (.single (Delay.mod { d := n, fill := fill })))

theorem thenDelay_impl (fill : Y → Y) (n : Nat) {m : CoMod (.stream X) (.stream Y)} {φ} (H : Implements m φ) :
    Implements (thenDelay fill n m) (delayed n 0 ∘ φ) := by
  obtain ⟨R, S⟩ := H
  obtain ⟨R', S'⟩ := Delay.implements ({ d := n, fill := fill } : Delay.Cfg Y)
  exact ⟨_, Sequential.simRel_cons S (Sequential.simRel_single S')⟩

theorem thenDelay_geom (fill : Y → Y) (n : Nat) {m : CoMod (.stream X) (.stream Y)} {φ} (H : Geom m φ) :
    Geom (thenDelay fill n m) (delayed n 0 ∘ φ) :=
  Sequential.geom_cons H (Sequential.geom_single (Delay.geom { d := n, fill := fill } rfl))

theorem thenDelay_delay (fill : Y → Y) (n : Nat) {m : CoMod (.stream X) (.stream Y)}
    (hd : m.delay = (m.rf : Int) - 1 - m.padding) (hrf : 1 ≤ m.rf) :
    (thenDelay fill n m).delay = m.delay + m.stride * n := by
  show (Chain.rfOf _ : Int) - 1 - Chain.paddingOf _ = _
  simp only [Chain.geos, Chain.rfOf_cons _ (List.cons_ne_nil _ _), Chain.paddingOf_cons _ (List.cons_ne_nil _ _)]
  have e1 : Chain.rfOf [⟨n + 1, 1, 0⟩] = n + 1 := rfl
  have e2 : Chain.paddingOf [⟨n + 1, 1, 0⟩] = 0 := rfl
  rw [e1, e2, hd, Nat.mul_add, Nat.mul_one]
  have : ((m.stride * n : Nat) : Int) = (m.stride : Int) * n := by simp
  omega

theorem thenDelay_stride (fill : Y → Y) (n : Nat) (m : CoMod (.stream X) (.stream Y)) :
    (thenDelay fill n m).stride = m.stride := by
  simp [Chain.geos, Chain.strideOf]

theorem thenDelay_padding (fill : Y → Y) (n : Nat) (m : CoMod (.stream X) (.stream Y)) :
    (thenDelay fill n m).padding = m.padding := by
  simp [Chain.geos, Chain.paddingOf]

theorem thenDelay_fwd (fill : Y → Y) (n : Nat) (m : CoMod (.stream X) (.stream Y)) (xs : List X) :
    ((thenDelay fill n m).fwd (thenDelay fill n m).init xs).map Prod.fst = (m.fwd m.init xs).map Prod.fst := by
  have e : ((thenDelay fill n m).fwd (thenDelay fill n m).init xs) =
      (m.fwd m.init xs).bind fun p => .ok (p.1, (p.2, (([], 0) : Delay.St Y))) := by
    simp only [Chain.fwd, Chain.init, bind, Except.bind, Delay.forward]
    cases m.fwd m.init xs with
    | error e => rfl
    | ok p => rfl
  rw [e]
  cases m.fwd m.init xs <;> rfl

theorem delayed_prefix (n : Nat) (ys : List Y) : delayed n 0 ys <+: ys := by
  simp only [delayed, List.drop_zero]
  exact List.take_prefix _ _

/-- What `auto_delay` does to one member of stride one. -/
structure Aligns (D : Int) (m m' : CoMod (.stream X) (.stream Y)) (φ ψ : List X → List Y) : Prop where
  impl : Implements m' ψ
  geom : Geom m' ψ
  delay : m'.delay = D
  stride : m'.stride = 1
  padding : m'.padding = m.padding
  pre : ∀ xs, ψ xs <+: φ xs
  fwd : ∀ xs, (m'.fwd m'.init xs).map Prod.fst = (m.fwd m.init xs).map Prod.fst

theorem delayTo_aligns (fill : Y → Y) {D : Int} {m : CoMod (.stream X) (.stream Y)} {φ : List X → List Y}
    (H : Implements m φ) (G : Geom m φ) (hs : m.stride = 1) (hD : m.delay ≤ D) :
    ∃ ψ, Aligns D m (delayTo fill D m) φ ψ := by
  have hrf : 1 ≤ m.rf := by have := G.geo.hP; omega
  by_cases h : m.delay < D
  · rw [delayTo_of_lt fill h]
    refine ⟨delayed (D - m.delay).toNat 0 ∘ φ, thenDelay_impl fill _ H, thenDelay_geom fill _ G, ?_, ?_,
      thenDelay_padding _ _ _, fun xs => delayed_prefix _ _, thenDelay_fwd _ _ _⟩
    · rw [thenDelay_delay fill _ G.delay hrf, hs]
      omega
    · rw [thenDelay_stride, hs]
  · rw [delayTo_of_not_lt fill h]
    exact ⟨φ, H, G, by omega, hs, rfl, fun xs => List.prefix_rfl, fun _ => rfl⟩

theorem maxDelay_mem : ∀ {ms : List (CoMod (.stream X) (.stream Y))}, ms ≠ [] → ∃ m ∈ ms, m.delay = maxDelay ms := by
  have key : ∀ (l : List (CoMod (.stream X) (.stream Y))) (a : Int),
      l.foldl (fun a m => max a m.delay) a = a ∨ ∃ m ∈ l, m.delay = l.foldl (fun a m => max a m.delay) a := by
    intro l
    induction l with
    | nil => intro a; exact .inl rfl
    | cons m l ih =>
      intro a
      rw [List.foldl_cons]
      rcases ih (max a m.delay) with h | ⟨m', hm', h⟩
      · rw [h]
        rcases Int.le_total a m.delay with h' | h'
        · right; exact ⟨m, by simp, by omega⟩
        · left; omega
      · right; exact ⟨m', by simp [hm'], h⟩
  intro ms hne
  cases ms with
  | nil => exact absurd rfl hne
  | cons m ms =>
    rcases key ms m.delay with h | ⟨m', hm', h⟩
    · exact ⟨m, by simp, h.symm⟩
    · exact ⟨m', by simp [hm'], h⟩

end BroadcastReduce
end CoInf
