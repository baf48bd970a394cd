import Verif.Model.Attention
import Verif.Spec.Attention
import Verif.Spec.Soft
import Verif.Lemmas.Window
import Verif.Lemmas.Ring

set_option autoImplicit false

namespace CoInf.Attn
open Spec
variable {X O : Type}

/-! ### The state machine of `MultiheadAttentionBase` -/

/-- The attention step of `b` is total along histories and computes `g` of the window once the window is full. -/
structure Base.Ok (b : Base X O) (Inv : List X → b.S → Prop) (g : List X → O) : Prop where
  pos : 1 ≤ b.N
  dflt : ∃ s, b.dflt = .ok s ∧ Inv [] s
  step : ∀ {h s} (x : X), Inv h s → ∃ o s', b.sdpa s x = .ok (o, s') ∧ Inv (h ++ [x]) s' ∧
    (b.N ≤ h.length + 1 → o = g (lastN b.N (h ++ [x])))

/-- Attributes after the frames `h`. -/
def Rel (b : Base X O) (Inv : List X → b.S → Prop) (h : List X) : Option (b.S × Int) → Prop
  | none => h = []
  | some (s, idx) => h ≠ [] ∧ Inv h s ∧ idx = if h.length < b.N then (h.length : Int) - b.N else 0

variable {b : Base X O} {Inv : List X → b.S → Prop} {g : List X → O}

theorem slide_one (N : Nat) (g : List X → O) (h : List X) (x : X) :
    slide N 1 g (h ++ [x]) = slide N 1 g h ++ (if N ≤ h.length + 1 then [g (lastN N (h ++ [x]))] else []) := by
  rw [slide_snoc]
  simp [Nat.mod_one]

theorem pstep_ok (H : b.Ok Inv g) {h : List X} {i : Option (b.S × Int)} (x : X) (hr : Rel b Inv h i) :
    ∃ o s, pstep b x i = .ok (o, some s) ∧ slide b.N 1 g (h ++ [x]) = slide b.N 1 g h ++ o.toList ∧
      Rel b Inv (h ++ [x]) (some s) := by
  have hN := H.pos
  have key : ∃ s idx, start b i = .ok (s, idx) ∧ Inv h s ∧ idx = if h.length < b.N then (h.length : Int) - b.N else 0 := by
    cases i with
    | none =>
      have h0 : h = [] := hr
      subst h0
      obtain ⟨s, h1, h2⟩ := H.dflt
      refine ⟨s, -(b.N : Int), by simp [start, h1, Except.map], h2, ?_⟩
      rw [if_pos (by simp; omega)]; simp
    | some p =>
      obtain ⟨s, idx⟩ := p
      exact ⟨s, idx, rfl, hr.2.1, hr.2.2⟩
  obtain ⟨s, idx, h1, h2, h3⟩ := key
  obtain ⟨o, s', h4, h5, h6⟩ := H.step x h2
  have hidx : (if idx < 0 then idx + 1 else idx) =
      if (h ++ [x]).length < b.N then ((h ++ [x]).length : Int) - b.N else 0 := by
    simp only [List.length_append, List.length_singleton]
    subst h3
    split <;> rename_i hlt <;> split <;> rename_i hl2 <;> (try split) <;> push_cast <;> omega
  have hlt : (if idx < 0 then idx + 1 else idx) < 0 ↔ ¬ b.N ≤ h.length + 1 := by
    rw [hidx]
    simp only [List.length_append, List.length_singleton]
    split <;> omega
  refine ⟨if (if idx < 0 then idx + 1 else idx) < 0 then none else some o, (s', if idx < 0 then idx + 1 else idx), ?_, ?_, ?_⟩
  · simp [pstep, h1, h4]
  · rw [slide_one]
    by_cases hc : b.N ≤ h.length + 1
    · rw [if_pos hc, if_neg (by rw [hlt]; exact fun e => e hc), h6 hc]; rfl
    · rw [if_neg hc, if_pos (by rw [hlt]; exact hc)]; rfl
  · exact ⟨by simp, h5, hidx⟩

theorem loop_ok (H : b.Ok Inv g) (xs : List X) : ∀ {h : List X} {i : Option (b.S × Int)}, Rel b Inv h i →
    ∃ ys s, loop b i xs = .ok (ys, s) ∧ slide b.N 1 g (h ++ xs) = slide b.N 1 g h ++ ys ∧ Rel b Inv (h ++ xs) s ∧
      (s = none → i = none ∧ xs = []) := by
  induction xs with
  | nil => intro h i hr; exact ⟨[], i, rfl, by simp, by simpa using hr, fun e => ⟨e, rfl⟩⟩
  | cons x xs ih =>
    intro h i hr
    obtain ⟨o, s, h1, h2, h3⟩ := pstep_ok H x hr
    obtain ⟨ys, s2, k1, k2, k3, k4⟩ := ih h3
    refine ⟨o.toList ++ ys, s2, ?_, ?_, by simpa using k3, fun e => by simpa using (k4 e).1⟩
    · simp [loop, h1, k1]
    · rw [← List.append_assoc, ← h2, ← k2]; simp

/-- Attention modules stream the attention of the sliding window. -/
theorem Base.Ok.soft (H : b.Ok Inv g) : SoftRel b.mod (slide b.N 1 g) (Rel b Inv) where
  phi_nil := slide_nil _ _ H.pos _
  init := rfl
  clean := fun _ => rfl
  step := fun {h i} x hr => by
    obtain ⟨o, s, h1, h2, h3⟩ := pstep_ok H x hr
    exact ⟨o, some s, by simp [Attn.step, h1], h2, h3⟩
  steps := fun {h i} xs hx hr => by
    obtain ⟨ys, s, h1, h2, h3, h4⟩ := loop_ok H xs hr
    cases s with
    | none => exact absurd (h4 rfl).2 hx
    | some s =>
      refine ⟨ys, some s, ?_, h2, h3⟩
      have : xs.isEmpty = false := by cases xs <;> simp_all
      simp [Attn.steps, h1, this]
  probe := fun {h i x o i'} hr hs => by
    obtain ⟨o2, s, h1, h2, h3⟩ := pstep_ok H x hr
    cases i with
    | none => simp [Attn.step, h1] at hs
    | some st =>
      simp [Attn.step, h1] at hs
      obtain ⟨rfl, rfl⟩ := hs
      exact ⟨h2, hr⟩
  probes := fun {h i xs o i'} hx hr hs => by
    obtain ⟨ys, s, h1, h2, h3, h4⟩ := loop_ok H xs hr
    have : xs.isEmpty = false := by cases xs <;> simp_all
    cases i with
    | none => simp [Attn.steps, h1] at hs
    | some st =>
      simp [Attn.steps, h1, this] at hs
      obtain ⟨rfl, rfl⟩ := hs
      exact ⟨ys, rfl, h2, hr⟩
  fwd_state := fun {h i xs ys i'} hr hf => by
    have : (b.fwd xs).map (fun ys => (ys, i)) = .ok (ys, i') := hf
    cases h1 : b.fwd xs with
    | error e => rw [h1] at this; cases this
    | ok z => rw [h1] at this; cases this; exact hr
  fwd_indep := fun {h i} xs hr => by
    show ((b.fwd xs).map _).map _ = ((b.fwd xs).map _).map _
    cases b.fwd xs <;> rfl

/-! ### Lists -/

theorem rollSet_ok {α : Type} {l : List α} (h : l ≠ []) (a : α) : rollSet l a = .ok (l.drop 1 ++ [a]) := by
  cases l with
  | nil => exact absurd rfl h
  | cons x xs =>
    simp only [rollSet, List.drop_one, List.tail_cons, List.take_succ_cons, List.take_zero]
    have hl : (xs ++ [x]).length = xs.length + 1 := by simp
    have e : ((-1 : Int) + ((xs.length + 1 : Nat) : Int)) = (xs.length : Int) := by push_cast; omega
    simp only [pySet, hl, e]
    simp

theorem rollSet_nil {α : Type} (a : α) : rollSet ([] : List α) a = .error .index := rfl

/-- The last `n` entries of a list, with `n` copies of `z` in front of it. -/
def padLast {α : Type} (n : Nat) (z : α) (l : List α) : List α := lastN n (List.replicate n z ++ l)

theorem padLast_length {α : Type} (n : Nat) (z : α) (l : List α) : (padLast n z l).length = n :=
  lastN_length _ _ (by simp)

theorem padLast_nil {α : Type} (n : Nat) (z : α) : padLast n z [] = List.replicate n z := by
  simp [padLast, lastN]

theorem padLast_snoc {α : Type} (n : Nat) (z : α) (l : List α) (a : α) (hn : 1 ≤ n) :
    padLast n z (l ++ [a]) = (padLast n z l).drop 1 ++ [a] := by
  simp only [padLast, lastN, ← List.append_assoc, List.length_append, List.length_replicate, List.length_singleton]
  rw [List.drop_append_of_le_length (by simp; omega), List.drop_drop]
  congr 2
  omega

theorem padLast_full {α : Type} (n : Nat) (z : α) (l : List α) (h : n ≤ l.length) : padLast n z l = lastN n l := by
  simp only [padLast, lastN, List.length_append, List.length_replicate]
  rw [List.drop_append, List.drop_of_length_le (by simp; omega), List.nil_append, List.length_replicate]
  congr 1
  omega

theorem lastN_map {α β : Type} (f : α → β) (n : Nat) (l : List α) : lastN n (l.map f) = (lastN n l).map f := by
  simp [lastN, List.map_drop]

theorem lastN_snoc {α : Type} (n : Nat) (l : List α) (a : α) : lastN (n + 1) (l ++ [a]) = lastN n l ++ [a] := by
  simp only [lastN, List.length_append, List.length_singleton]
  rw [List.drop_append_of_le_length (by omega)]
  congr 2
  omega

theorem lastN_all {α : Type} (n : Nat) (l : List α) (h : l.length ≤ n) : lastN n l = l := by
  simp [lastN, Nat.sub_eq_zero_of_le h]

end CoInf.Attn
