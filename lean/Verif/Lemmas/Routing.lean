import Verif.Spec.Routing
import Verif.Lemmas.Broadcast
import Verif.Lemmas.Observe
import Verif.Lemmas.Parallel

set_option autoImplicit false

namespace CoInf
open Spec
variable {α β X Y : Type}

theorem pyGet_denotes (input : List α) (i : Int) :
    pyGet input i = match denotes input i with
      | some a => .ok a
      | none => .error .index := by
  by_cases h0 : 0 ≤ i
  · have h1 : ¬ i < 0 := by omega
    simp only [pyGet, denotes, h0, h1, if_true, if_false]
    rfl
  · have h1 : i < 0 := by omega
    by_cases h2 : -(input.length : Int) ≤ i
    · have h3 : ¬ i + (input.length : Int) < 0 := by omega
      simp only [pyGet, denotes, h0, h1, h2, h3, if_true, if_false]
      rw [Int.add_comm]
      rfl
    · have h3 : i + (input.length : Int) < 0 := by omega
      simp only [pyGet, denotes, h0, h1, h2, h3, if_true, if_false]

theorem isSome_get (l : List α) (k : Nat) : (l[k]?).isSome ↔ k < l.length := by
  by_cases h : k < l.length
  · simp [h]
  · simp [h]

theorem denotes_isSome (input : List α) (i : Int) :
    (denotes input i).isSome ↔ -(input.length : Int) ≤ i ∧ i < input.length := by
  unfold denotes
  split
  · rw [isSome_get]; omega
  · split
    · rw [isSome_get]; omega
    · simp; omega

theorem denotes_map (g : α → β) (input : List α) (i : Int) :
    denotes (input.map g) i = (denotes input i).map g := by
  unfold denotes
  simp only [List.length_map, List.getElem?_map]
  split
  · rfl
  · split <;> rfl

namespace Dispatch

mutual
theorem dispatch_spec (input : List α) : (m : Mapping) →
    (∀ {r}, dispatch input m = .ok r → ∀ p, streamAt r p = (idAt m p).bind (denotes input)) ∧
    ((∀ p i, idAt m p = some i → (denotes input i).isSome) → ∃ r, dispatch input m = .ok r) ∧
    (∀ {e}, dispatch input m = .error e → e = .index) ∧
    (∀ {r}, dispatch input m = .ok r → ∀ p i, idAt m p = some i → (denotes input i).isSome)
  | .id i => by
    have hp := pyGet_denotes input i
    refine ⟨?_, ?_, ?_, ?_⟩
    · intro r h p
      simp only [dispatch, hp] at h
      cases hd : denotes input i with
      | none => rw [hd] at h; cases h
      | some a =>
        rw [hd] at h; cases h
        cases p with
        | nil => simp [streamAt, idAt, hd]
        | cons k p => simp [streamAt, idAt]
    · intro h
      have := h [] i rfl
      cases hd : denotes input i with
      | none => rw [hd] at this; cases this
      | some a => exact ⟨.one a, by simp [dispatch, hp, hd, Except.map]⟩
    · intro e h
      simp only [dispatch, hp] at h
      cases hd : denotes input i with
      | none => rw [hd] at h; cases h; rfl
      | some a => rw [hd] at h; cases h
    · intro r h p j hj
      cases p with
      | cons k p => simp [idAt] at hj
      | nil =>
        cases hj
        simp only [dispatch, hp] at h
        cases hd : denotes input i with
        | none => rw [hd] at h; cases h
        | some a => rfl
  | .group ms => by
    obtain ⟨h1, h2, h3, h4⟩ := dispatchAll_spec input ms
    refine ⟨?_, ?_, ?_, ?_⟩
    · intro r h p
      simp only [dispatch] at h
      cases hd : dispatchAll input ms with
      | error e => rw [hd] at h; cases h
      | ok rs =>
        rw [hd] at h; cases h
        cases p with
        | nil => simp [streamAt, idAt]
        | cons k p =>
          simp only [streamAt, idAt]
          exact h1 hd k p
    · intro h
      obtain ⟨rs, hrs⟩ := h2 (fun k p i hi => h (k :: p) i (by simp only [idAt] at hi ⊢; exact hi))
      exact ⟨.many rs, by simp [dispatch, hrs, Except.map]⟩
    · intro e h
      simp only [dispatch] at h
      cases hd : dispatchAll input ms with
      | error e => rw [hd] at h; cases h; exact h3 hd
      | ok rs => rw [hd] at h; cases h
    · intro r h p i hi
      simp only [dispatch] at h
      cases hd : dispatchAll input ms with
      | error e => rw [hd] at h; cases h
      | ok rs =>
        cases p with
        | nil => simp [idAt] at hi
        | cons k p => exact h4 hd k p i (by simp only [idAt] at hi ⊢; exact hi)

theorem dispatchAll_spec (input : List α) : (ms : List Mapping) →
    (∀ {rs}, dispatchAll input ms = .ok rs → ∀ (k : Nat) (p : List Nat),
      (match rs[k]? with | some r => streamAt r p | none => none) =
        (match ms[k]? with | some m => idAt m p | none => none).bind (denotes input)) ∧
    ((∀ (k : Nat) (p : List Nat) (i : Int), (match ms[k]? with | some m => idAt m p | none => none) = some i → (denotes input i).isSome) →
      ∃ rs, dispatchAll input ms = .ok rs) ∧
    (∀ {e}, dispatchAll input ms = .error e → e = .index) ∧
    (∀ {rs}, dispatchAll input ms = .ok rs → ∀ (k : Nat) (p : List Nat) (i : Int),
      (match ms[k]? with | some m => idAt m p | none => none) = some i → (denotes input i).isSome)
  | [] => by
    refine ⟨?_, ?_, ?_, ?_⟩
    · intro rs h k p; cases h; simp
    · intro _; exact ⟨[], rfl⟩
    · intro e h; cases h
    · intro rs h k p i hi; simp at hi
  | m :: ms => by
    obtain ⟨a1, a2, a3, a4⟩ := dispatch_spec input m
    obtain ⟨h1, h2, h3, h4⟩ := dispatchAll_spec input ms
    have inv : ∀ {rs}, dispatchAll input (m :: ms) = .ok rs →
        ∃ r t, dispatch input m = .ok r ∧ dispatchAll input ms = .ok t ∧ rs = r :: t := by
      intro rs h
      simp only [dispatchAll] at h
      cases hm : dispatch input m with
      | error e => rw [hm, err_bind] at h; cases h
      | ok r =>
        rw [hm, ok_bind] at h
        cases ht : dispatchAll input ms with
        | error e => rw [ht, err_bind] at h; cases h
        | ok t => rw [ht, ok_bind] at h; cases h; exact ⟨r, t, rfl, rfl, rfl⟩
    refine ⟨?_, ?_, ?_, ?_⟩
    · intro rs h k p
      obtain ⟨r, t, k1, k2, rfl⟩ := inv h
      cases k with
      | zero => simpa using a1 k1 p
      | succ k => simpa using h1 k2 k p
    · intro h
      obtain ⟨r, hr⟩ := a2 (fun p i hi => h 0 p i (by simpa using hi))
      obtain ⟨t, ht⟩ := h2 (fun k p i hi => h (k + 1) p i (by simpa using hi))
      exact ⟨r :: t, by simp only [dispatchAll, hr, ok_bind, ht]; rfl⟩
    · intro e h
      simp only [dispatchAll] at h
      cases hm : dispatch input m with
      | error e' => rw [hm, err_bind] at h; cases h; exact a3 hm
      | ok r =>
        rw [hm, ok_bind] at h
        cases ht : dispatchAll input ms with
        | error e' => rw [ht, err_bind] at h; cases h; exact h3 ht
        | ok t => rw [ht, ok_bind] at h; cases h
    · intro rs h k p i hi
      obtain ⟨r, t, k1, k2, rfl⟩ := inv h
      cases k with
      | zero => exact a4 k1 p i (by simpa using hi)
      | succ k => exact h4 k2 k p i (by simpa using hi)
end

end Dispatch

namespace Parallel

/-- Every member is reachable with the history of its own stream. -/
def Rel : (ms : List (CoMod (.stream X) (.stream Y))) → List (List X) → BroadcastReduce.Inst ms → Prop
  | [], hs, _ => hs = []
  | m :: ms, hs, i => ∃ h t, hs = h :: t ∧ Reach m h i.1 ∧ Rel ms t i.2

theorem step_ok {ms : List (CoMod (.stream X) (.stream Y))} {φs : List (List X → List Y)}
    (H : List.Forall₂ Implements ms φs) : ∀ {hs : List (List X)} {i} (xs : List X), Rel ms hs i → xs.length = ms.length →
    ∃ os i', step ms i true (xs.map some) = .ok (os, i') ∧ os.length = ms.length ∧
      Rel ms (List.zipWith (fun h x => h ++ [x]) hs xs) i' ∧
      ∀ (k : Nat) (φ : List X → List Y) (h : List X) (x : X), φs[k]? = some φ → hs[k]? = some h → xs[k]? = some x →
        φ (h ++ [x]) = φ h ++ ((os[k]?).join).toList := by
  induction H with
  | nil =>
    intro hs i xs hr hx
    refine ⟨[], i, rfl, rfl, ?_, by simp⟩
    rw [hr]; rfl
  | @cons m φ ms φs hm _ ih =>
    intro hs i xs hr hx
    obtain ⟨h, t, rfl, r1, r2⟩ := hr
    cases xs with
    | nil => simp at hx
    | cons x xs =>
      obtain ⟨o, i1, a1, a2, a3⟩ := hm.reach.step true x r1
      obtain ⟨os, i2, b1, b2, b3, b4⟩ := ih xs r2 (by simpa using hx)
      refine ⟨o :: os, (i1, i2), ?_, by simp [b2], ⟨_, _, rfl, a3, b3⟩, ?_⟩
      · rw [List.map_cons, step, arg, ok_bind, a1, ok_bind]
        simp only [List.tail_cons, b1, ok_bind]; rfl
      · intro k ψ h' x' k1 k2 k3
        cases k with
        | zero =>
          simp only [List.getElem?_cons_zero, Option.some.injEq] at k1 k2 k3
          subst k1 k2 k3
          simpa using a2
        | succ k => exact b4 k ψ h' x' (by simpa using k1) (by simpa using k2) (by simpa using k3)

theorem init_rel (ms : List (CoMod (.stream X) (.stream Y))) :
    Rel ms (List.replicate ms.length []) (BroadcastReduce.init ms) := by
  induction ms with
  | nil => rfl
  | cons m ms ih => exact ⟨[], _, rfl, .init, ih⟩

end Parallel

end CoInf
