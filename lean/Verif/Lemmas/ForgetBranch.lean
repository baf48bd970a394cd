/-
BroadcastReduce forgets.
-/
import Verif.Lemmas.Forget
import Verif.Model.Broadcast

set_option autoImplicit false

namespace CoInf.Forget
open Spec
variable {X Y Z : Type}

/-- Branches that forget within `n` frames and give an output for every frame, with the relation `D` on their objects. -/
inductive Branches (n : Nat) : (ms : List (CoMod (.stream X) (.stream Y))) →
    (Nat → BroadcastReduce.Inst ms → BroadcastReduce.Inst ms → Prop) → Prop where
  | nil : Branches n [] fun _ _ _ => True
  | cons {m : CoMod (.stream X) (.stream Y)} {ms : List (CoMod (.stream X) (.stream Y))} {n' : Nat} {R q R'} :
      Forgets m n' 1 R q → n' ≤ n → Branches n ms R' →
      Branches n (m :: ms) fun k i j => (∃ k' ≤ k, R k' i.1 j.1) ∧ R' k i.2 j.2

theorem Branches.stepAll {n : Nat} {ms : List (CoMod (.stream X) (.stream Y))} {R} (h : Branches n ms R) :
    ∀ {k i j}, R k i j → ∀ x x' : X, ∃ (ys ys' : List Y) (i' j' : BroadcastReduce.Inst ms), BroadcastReduce.stepAll ms i true x = .ok (ys.map some, i') ∧
      BroadcastReduce.stepAll ms j true x' = .ok (ys'.map some, j') ∧ ys.length = ms.length ∧ ys'.length = ms.length ∧
      R n i' j' ∧ (x = x' → R (k - 1) i' j' ∧ (k = 0 → ys = ys')) := by
  induction h with
  | nil => intro k i j _ x x'; exact ⟨[], [], i, j, rfl, rfl, rfl, rfl, trivial, fun _ => ⟨trivial, fun _ => rfl⟩⟩
  | @cons m ms n' R q R' h1 hn _ ih =>
    rintro k ⟨i1, i2⟩ ⟨j1, j2⟩ ⟨⟨k', hk, r1⟩, r2⟩ x x'
    obtain ⟨o, o', i1', j1', s1, s2, s3, s4, s5, s6⟩ := h1.step r1 x x'
    obtain ⟨ys, ys', i2', j2', t1, t2, t3, t4, t5, t6⟩ := ih r2 x x'
    have ho : o.isSome := by
      cases o with
      | some _ => rfl
      | none => exact absurd (s4 rfl) (by have := h1.quiet_lt r1; omega)
    obtain ⟨y, rfl⟩ := Option.isSome_iff_exists.1 ho
    obtain ⟨y', rfl⟩ := Option.isSome_iff_exists.1 (s3 ▸ ho)
    have s1' : m.step i1 true x = .ok (some y, i1') := s1
    have s2' : m.step j1 true x' = .ok (some y', j1') := s2
    refine ⟨y :: ys, y' :: ys', (i1', i2'), (j1', j2'), ?_, ?_, by simp [t3], by simp [t4], ⟨⟨n', hn, s5⟩, t5⟩, fun hx => ?_⟩
    · simp only [BroadcastReduce.stepAll, s1', t1, bind, Except.bind, pure, Except.pure, List.map_cons]
    · simp only [BroadcastReduce.stepAll, s2', t2, bind, Except.bind, pure, Except.pure, List.map_cons]
    · obtain ⟨u1, u2⟩ := s6 hx
      obtain ⟨v1, v2⟩ := t6 hx
      refine ⟨⟨⟨k' - 1, by omega, u1⟩, v1⟩, fun h0 => ?_⟩
      rw [v2 h0, Option.some.inj (u2 (by omega))]

theorem allSome_some {α : Type} : ∀ l : List α, allSome (l.map some) = some l
  | [] => rfl
  | a :: l => by simp [allSome, allSome_some l]

theorem branches_forgets {n : Nat} {ms : List (CoMod (.stream X) (.stream Y))} {R} (h : Branches n ms R) (r : Reducer Y Z)
    (hr : ∀ ys, ys.length = ms.length → ∃ z, r.frame ys = .ok z) :
    Forgets (BroadcastReduce.mod r ms) n 1 R (fun _ => 0) where
  quiet_lt := fun _ => Nat.zero_lt_one
  step := by
    intro k i j hrel x x'
    obtain ⟨ys, ys', i', j', t1, t2, t3, t4, t5, t6⟩ := h.stepAll hrel x x'
    obtain ⟨z, hz⟩ := hr ys t3
    obtain ⟨z', hz'⟩ := hr ys' t4
    refine ⟨some z, some z', i', j', ?_, ?_, rfl, (fun h => nomatch h), t5, fun hx => ⟨(t6 hx).1, fun hk => ?_⟩⟩
    · show BroadcastReduce.step r ms i true x = _
      simp only [BroadcastReduce.step, t1, nonempty, allSome_some, hz, bind, Except.bind, pure, Except.pure, Except.map]
    · show BroadcastReduce.step r ms j true x' = _
      simp only [BroadcastReduce.step, t2, nonempty, allSome_some, hz', bind, Except.bind, pure, Except.pure, Except.map]
    · have := (t6 hx).2 hk
      subst this
      rw [hz] at hz'
      rw [Except.ok.inj hz']

end CoInf.Forget
