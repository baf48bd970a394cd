import Verif.Lemmas.Tensor
import Verif.Spec.AttnLayout
import Mathlib.Data.List.Forall2

set_option autoImplicit false

namespace CoInf.Layout
open Tensor
variable {F S : Type} [Zero F] (l : Lay)

theorem ok_bind {α β : Type} (a : α) (f : α → Except Err β) : ((.ok a : Except Err α) >>= f) = f a := rfl

/-- Inputs are brought into the order `(T, N, E)`. -/
theorem stepsIn_ok (hl : l.batchFirst = true ∨ l.embedSecond = false) {N T E : Nat} (x : Tensor F)
    (hx : x.shape = l.clip N T E) : ∃ g, stepsIn l x = .ok (of3 T N E g) ∧
      ∀ t < T, x.select l.time t = .ok (of2 N E (g t)) := by
  obtain ⟨kind, bf, eds⟩ := l
  cases bf <;> cases eds
  · have e := eq_of3 x (fun i j k => x.get [i, j, k]) hx fun _ _ _ _ _ _ => rfl
    rw [e]
    exact ⟨_, rfl, fun t ht => select3_0 _ ht⟩
  · simp at hl
  · have e := eq_of3 x (fun i j k => x.get [i, j, k]) hx fun _ _ _ _ _ _ => rfl
    rw [e]
    exact ⟨_, transpose3_10 _, fun t ht => select3_1 _ ht⟩
  · have e := eq_of3 x (fun i j k => x.get [i, j, k]) hx fun _ _ _ _ _ _ => rfl
    rw [e]
    refine ⟨fun i j k => x.get [j, k, i], ?_, fun t ht => select3_2 _ ht⟩
    simp only [stepsIn, when, if_true, permute3_021, ok_bind, transpose3_10]

/-- Which layouts make `forward_steps` agree with `forward_step`. -/
def Lay.ok (l : Lay) : Prop := l.batchFirst = true ∨ (l.kind = .retro ∧ l.embedSecond = false)

/-- `R` for the two modules. -/
def Lay.rows (l : Lay) (R : Nat) : Prop := l.kind = .single → R = 1

theorem mapM_ok {α β : Type} (f : α → Except Err β) (g : α → β) (xs : List α) (h : ∀ x ∈ xs, f x = .ok (g x)) :
    xs.mapM f = .ok (xs.map g) := by
  induction xs with
  | nil => rfl
  | cons x xs ih =>
    rw [List.mapM_cons, h x (by simp), ok_bind, ih fun y hy => h y (by simp [hy])]
    rfl

theorem mapM_of3 {a b c a' b' c' : Nat} (f : Tensor F → Except Err (Tensor F))
    (φ : (Nat → Nat → Nat → F) → Nat → Nat → Nat → F) (gs : List (Nat → Nat → Nat → F))
    (h : ∀ g, f (of3 a b c g) = .ok (of3 a' b' c' (φ g))) :
    (gs.map (of3 a b c)).mapM f = .ok ((gs.map φ).map (of3 a' b' c')) := by
  induction gs with
  | nil => rfl
  | cons g gs ih =>
    rw [List.map_cons, List.mapM_cons, h, ok_bind, ih]
    rfl

theorem getD_map {φ : (Nat → Nat → Nat → F) → Nat → Nat → Nat → F} (gs : List (Nat → Nat → Nat → F)) (j : Nat)
    (hj : j < gs.length) : (gs.map φ).getD j (fun _ _ _ => 0) = φ gs[j] := by
  rw [List.getD_eq_getElem?_getD, List.getElem?_map, List.getElem?_eq_getElem hj]
  rfl

/-- The output of `forward_steps` at an output time is what `forward_step` makes of that output. -/
theorem stepsOut_ok (hl : l.ok) {R N E : Nat} (hR : l.rows R) (gs : List (Nat → Nat → Nat → F)) (hne : gs ≠ []) :
    ∃ y, stepsOut l (gs.map (of3 R N E)) = .ok y ∧ y.shape[l.time]? = some gs.length ∧
      ∀ (j : Nat) (hj : j < gs.length), ∃ z, stepOut l (of3 R N E gs[j]) = .ok z ∧ y.select l.time j = .ok z := by
  obtain ⟨kind, bf, eds⟩ := l
  have hswap : (gs.map fun g i j k => g j i k) ≠ [] := by simpa using hne
  have hlen : (gs.map fun (g : Nat → Nat → Nat → F) i j k => g j i k).length = gs.length := by simp
  cases bf
  · obtain ⟨rfl, rfl⟩ : kind = .retro ∧ eds = false := by rcases hl with h | h; cases h; exact h
    refine ⟨of4 gs.length R N E fun t i j k => (gs.getD t fun _ _ _ => 0) i j k, ?_, rfl, ?_⟩
    · have hm : (gs.map (of3 R N E)).mapM (when false (·.transpose 0 1)) = .ok (gs.map (of3 R N E)) :=
        (mapM_ok (when false (·.transpose 0 1)) id _ fun _ _ => rfl).trans (by rw [List.map_id])
      have hs := stack3_0 (a := R) (b := N) (c := E) gs hne
      simp only [stepsOut, hm, ok_bind]
      exact congrArg (· >>= _) hs
    · intro j hj
      refine ⟨of3 R N E gs[j], rfl, ?_⟩
      refine (select4_0 _ hj).trans ?_
      rw [List.getD_eq_getElem?_getD, List.getElem?_eq_getElem hj]
      rfl
  · have hm : (gs.map (of3 R N E)).mapM (when true (·.transpose 0 1)) =
        .ok ((gs.map fun g i j k => g j i k).map (of3 N R E)) := mapM_of3 _ _ _ fun g => transpose3_01 g
    have hs := stack3_1 (a := N) (b := R) (c := E) _ hswap
    rw [hlen] at hs
    cases kind <;> cases eds
    · refine ⟨of4 N gs.length R E fun i t j k => ((gs.map fun g i j k => g j i k).getD t fun _ _ _ => 0) i j k, ?_, ?_, ?_⟩
      · simp only [stepsOut, hm, ok_bind, if_true, hs]; rfl
      · rfl
      · intro j hj
        refine ⟨of3 N R E fun i j' k => gs[j] j' i k, ?_, ?_⟩
        · simp only [stepOut, when, if_true, transpose3_10, ok_bind]; rfl
        · refine (select4_1 _ hj).trans ?_
          rw [getD_map _ _ hj]
    · refine ⟨of4 N E gs.length R fun i k t j => ((gs.map fun g i j k => g j i k).getD t fun _ _ _ => 0) i j k, ?_, ?_, ?_⟩
      · simp only [stepsOut, hm, ok_bind, if_true, hs, when, permute4_0312]
      · rfl
      · intro j hj
        refine ⟨of3 N E R fun i k j' => gs[j] j' i k, ?_, ?_⟩
        · simp only [stepOut, when, if_true, transpose3_10, ok_bind, transpose3_12]
        · refine (select4_2 _ hj).trans ?_
          rw [getD_map _ _ hj]
    · obtain rfl := hR rfl
      refine ⟨of3 N gs.length E fun i t k => ((gs.map fun g i j k => g j i k).getD t fun _ _ _ => 0) i 0 k, ?_, ?_, ?_⟩
      · simp only [stepsOut, hm, ok_bind, if_true, hs, squeeze4_2]; rfl
      · rfl
      · intro j hj
        refine ⟨of2 N E fun i k => gs[j] 0 i k, ?_, ?_⟩
        · simp only [stepOut, when, if_true, transpose3_10, ok_bind, squeeze3_1]
        · refine (select3_1 _ hj).trans ?_
          rw [getD_map _ _ hj]
    · obtain rfl := hR rfl
      refine ⟨of3 N E gs.length fun i k t => ((gs.map fun g i j k => g j i k).getD t fun _ _ _ => 0) i 0 k, ?_, ?_, ?_⟩
      · simp only [stepsOut, hm, ok_bind, if_true, hs, squeeze4_2, when, transpose3_12]
      · rfl
      · intro j hj
        refine ⟨of2 N E fun i k => gs[j] 0 i k, ?_, ?_⟩
        · simp only [stepOut, when, if_true, transpose3_10, ok_bind, squeeze3_1]
        · refine (select3_2 _ hj).trans ?_
          rw [getD_map _ _ hj]

/-- `core` maps frames `(N, E)` to outputs `(R, N, E)`. -/
def Shaped (core : Core F S) (R N E : Nat) : Prop :=
  ∀ s q k v o s', core s q k v = .ok (some o, s') → q.shape = [N, E] → k.shape = [N, E] → v.shape = [N, E] →
    o.shape = [R, N, E]

theorem stepOut_ok (hl : l.ok) {R N E : Nat} (hR : l.rows R) (g : Nat → Nat → Nat → F) :
    ∃ z, stepOut l (of3 R N E g) = .ok z := by
  obtain ⟨_, _, _, h⟩ := stepsOut_ok l hl (N := N) (E := E) hR [g] (by simp)
  obtain ⟨z, hz, _⟩ := h 0 (by simp)
  exact ⟨z, hz⟩

/-- The loop of `forward_steps` against single steps. -/
theorem loop_ok (hl : l.ok) {R N T E : Nat} (hR : l.rows R) {core : Core F S} (hc : Shaped core R N E) {q k v : Tensor F}
    {gq gk gv : Nat → Nat → Nat → F} (hq : ∀ t < T, q.select l.time t = .ok (of2 N E (gq t)))
    (hk : ∀ t < T, k.select l.time t = .ok (of2 N E (gk t))) (hv : ∀ t < T, v.select l.time t = .ok (of2 N E (gv t)))
    (ts : List Nat) (ht : ∀ t ∈ ts, t < T) : ∀ s,
    match frameByFrame l core q k v s ts with
    | .error e => loop core s (of3 T N E gq) (of3 T N E gk) (of3 T N E gv) ts = .error e
    | .ok (os, s') => ∃ gs : List (Nat → Nat → Nat → F),
        loop core s (of3 T N E gq) (of3 T N E gk) (of3 T N E gv) ts = .ok (gs.map (of3 R N E), s') ∧
        List.Forall₂ (fun g o => stepOut l (of3 R N E g) = .ok o) gs (os.filterMap id) := by
  induction ts with
  | nil => intro s; exact ⟨[], rfl, .nil⟩
  | cons t ts ih =>
    intro s
    have h := ht t (by simp)
    simp only [frameByFrame, loop, hq t h, hk t h, hv t h, select3_0 _ h, ok_bind, forwardStep]
    cases hcore : core s (of2 N E (gq t)) (of2 N E (gk t)) (of2 N E (gv t)) with
    | error e => rfl
    | ok r =>
      obtain ⟨o, s1⟩ := r
      have ih1 := ih (fun t' h' => ht t' (by simp [h'])) s1
      cases o with
      | none =>
        simp only [ok_bind]
        cases hf : frameByFrame l core q k v s1 ts with
        | error e =>
          rw [hf] at ih1
          simp only at ih1
          rw [ih1]
          rfl
        | ok r =>
          obtain ⟨os, s2⟩ := r
          rw [hf] at ih1
          obtain ⟨gs, h1, h2⟩ := ih1
          exact ⟨gs, by rw [h1]; rfl, h2⟩
      | some o =>
        have ho := hc _ _ _ _ _ _ hcore rfl rfl rfl
        have e := eq_of3 o (fun i j k => o.get [i, j, k]) ho fun _ _ _ _ _ _ => rfl
        obtain ⟨z, hz⟩ := stepOut_ok l hl (N := N) (E := E) hR fun i j k => o.get [i, j, k]
        simp only [ok_bind]
        rw [e, hz]
        simp only [Except.map, ok_bind]
        cases hf : frameByFrame l core q k v s1 ts with
        | error e =>
          rw [hf] at ih1
          simp only at ih1
          rw [ih1]
          rfl
        | ok r =>
          obtain ⟨os, s2⟩ := r
          rw [hf] at ih1
          obtain ⟨gs, h1, h2⟩ := ih1
          exact ⟨_ :: gs, by rw [h1]; rfl, .cons hz h2⟩

end CoInf.Layout
