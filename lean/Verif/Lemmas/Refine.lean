import Verif.Spec.Stream
import Mathlib.Data.List.Induction

namespace CoInf
open Spec
variable {X Y : Type}

/-- Invariant of a leaf's pure state. -/
structure LeafRel (L : Leaf X Y) (φ : List X → List Y) (S : List X → Option L.St → Prop) : Prop where
  phi_nil : φ [] = []
  none : S [] none
  init : S [] (L.get L.init)
  clean : ∀ i, S [] (L.get (L.clean i))
  pstep : ∀ {h s} (x : X), S h s → ∃ o s', L.pstep x s = .ok (o, s') ∧
    φ (h ++ [x]) = φ h ++ o.toList ∧ S (h ++ [x]) s' ∧ (s' = .none → s = .none)
  getset : ∀ {h st} i, S h (some st) → L.get (L.set st i) = some st

namespace LeafRel
variable {L : Leaf X Y} {φ : List X → List Y} {S : List X → Option L.St → Prop}

theorem loop (H : LeafRel L φ S) (xs : List X) : ∀ {h s}, S h s → ∃ ys s', L.loop s xs = .ok (ys, s') ∧
    φ (h ++ xs) = φ h ++ ys ∧ S (h ++ xs) s' ∧ (s' = .none → s = .none) := by
  induction xs with
  | nil => intro h s hs; exact ⟨[], s, rfl, by simp, by simpa using hs, id⟩
  | cons x xs ih =>
    intro h s hs
    obtain ⟨o, s1, h1, h2, h3, h4⟩ := H.pstep x hs
    obtain ⟨ys, s2, k1, k2, k3, k4⟩ := ih h3
    refine ⟨o.toList ++ ys, s2, ?_, ?_, ?_, fun e => h4 (k4 e)⟩
    · simp [Leaf.loop, h1, k1, bind, Except.bind, pure, Except.pure]
    · rw [← List.append_assoc, ← h2, ← k2]; simp
    · simpa using k3

theorem save (H : LeafRel L φ S) {h h' : List X} {i : L.Inst} {s' : Option L.St} (upd : Bool)
    (hi : S h (L.get i)) (hs : S h' s') (hn : s' = .none → L.get i = .none) :
    S (if upd then h' else h) (L.get (L.save upd s' i)) := by
  cases upd with
  | false => simpa [Leaf.save] using hi
  | true =>
    cases s' with
    | none => simp only [Leaf.save, if_true]; rw [hn rfl]; exact hs
    | some st => simp only [Leaf.save, if_true]; rw [H.getset _ hs]; exact hs

theorem forwardStep (H : LeafRel L φ S) {h i} (upd : Bool) (x : X) (hi : S h (L.get i)) :
    ∃ o i', L.forwardStep i upd x = .ok (o, i') ∧ φ (h ++ [x]) = φ h ++ o.toList ∧
      S (if upd then h ++ [x] else h) (L.get i') := by
  obtain ⟨o, s', h1, h2, h3, h4⟩ := H.pstep x hi
  refine ⟨o, L.save upd s' i, ?_, h2, H.save upd hi h3 h4⟩
  simp [Leaf.forwardStep, h1, bind, Except.bind, pure, Except.pure]

theorem forwardSteps (H : LeafRel L φ S) {h i} (upd : Bool) (xs : List X) (hi : S h (L.get i)) :
    ∃ ys i', L.forwardSteps i false upd xs = .ok (optList ys, i') ∧ φ (h ++ xs) = φ h ++ ys ∧
      S (if upd then h ++ xs else h) (L.get i') := by
  obtain ⟨ys, s', h1, h2, h3, h4⟩ := H.loop xs hi
  refine ⟨ys, L.save upd s' i, ?_, h2, H.save upd hi h3 h4⟩
  simp [Leaf.forwardSteps, h1, bind, Except.bind, pure, Except.pure]

/-- End padding with a state that is written back (or with no stored state to start with). -/
theorem forwardSteps_pad (H : LeafRel L φ S) {h i} (upd : Bool) (xs : List X) (hx : xs ≠ [])
    (hi : S h (L.get i)) (hc : upd = true ∨ L.get i = .none ∨ L.padding = 0) :
    ∃ ys i', L.forwardSteps i true upd xs = .ok (optList ys, i') ∧
      φ (h ++ xs ++ List.replicate L.padding (L.makePad (xs.getLast hx))) = φ h ++ ys ∧
      S (if upd then h ++ xs else h) (L.get i') := by
  obtain ⟨ys, s', h1, h2, h3, h4⟩ := H.loop xs hi
  have hsave := H.save upd hi h3 h4
  have hp : L.endPads xs = .ok (List.replicate L.padding (L.makePad (xs.getLast hx))) := by
    unfold Leaf.endPads
    rw [List.getLast?_eq_some_getLast hx]
    cases L.padding <;> simp
  have hs2 : L.padding = 0 ∨ S (h ++ xs) (L.padState (L.save upd s' i) s') := by
    unfold Leaf.padState
    rcases hc with hc | hc | hc
    · subst hc
      simp only [if_true] at hsave
      cases hg : L.get (L.save true s' i) with
      | none => exact Or.inr h3
      | some st => rw [hg] at hsave; exact Or.inr hsave
    · cases upd with
      | false => simp [Leaf.save, hc]; exact Or.inr h3
      | true =>
        simp only [if_true] at hsave
        cases hg : L.get (L.save true s' i) with
        | none => exact Or.inr h3
        | some st => rw [hg] at hsave; exact Or.inr hsave
    · exact Or.inl hc
  rcases hs2 with h0 | hs2
  · refine ⟨ys, L.save upd s' i, ?_, ?_, hsave⟩
    · simp [Leaf.forwardSteps, h1, hp, h0, Leaf.loop, bind, Except.bind, pure, Except.pure]
    · simp [h0, h2]
  obtain ⟨zs, s2, k1, k2, k3, k4⟩ := H.loop (List.replicate L.padding (L.makePad (xs.getLast hx))) hs2
  refine ⟨ys ++ zs, L.save upd s' i, ?_, ?_, hsave⟩
  · simp [Leaf.forwardSteps, h1, hp, k1, bind, Except.bind, pure, Except.pure]
  · rw [k2, h2]; simp

end LeafRel

end CoInf
