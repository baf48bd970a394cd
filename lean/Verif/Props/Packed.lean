/-
C126: sequences of different lengths in recurrent modules.
-/
import Verif.Model.Packed
import Verif.Props.Rnn
import Mathlib.Data.Fin.VecNotation
import Mathlib.Data.Fintype.Basic
import Mathlib.Tactic.FinCases

set_option autoImplicit false

namespace CoInf
variable {V S : Type} {n : Nat}

namespace Spec

/-- A batch of sequences of different lengths as one clip: entry `b` of the clip begins with sequence `b`; whatever follows is
padding. -/
def Padded {X : Type} (seqs : Fin n → List X) (xs : List (Fin n → X)) : Prop := ∀ b, seqs b <+: xs.map fun x => x b

/-- The states of the layers from which entry `b` starts: those given for this entry, or zeros. -/
def begins (c : Rnn.Cfg V S) (i : Option (List (Fin n → S))) (b : Fin n) : List S :=
  match i with
  | some ss => ss.map fun s => s b
  | none => c.layers.map fun _ => c.zero

end Spec

open Spec

namespace Packed

theorem tick_entry (b : Fin n) : ∀ (fs : List (Rnn.Cell V S)) (ss : List (Fin n → S)) (x : Fin n → V),
    (tick (fs.map (entrywise n)) ss x).1 b = (tick fs (ss.map fun s => s b) (x b)).1 ∧
      (tick (fs.map (entrywise n)) ss x).2.map (fun s => s b) = (tick fs (ss.map fun s => s b) (x b)).2
  | [], ss, x => ⟨rfl, rfl⟩
  | f :: fs, [], x => ⟨rfl, rfl⟩
  | f :: fs, s :: ss, x => by
    obtain ⟨h1, h2⟩ := tick_entry b fs ss (entrywise n f x s).1
    refine ⟨h1, ?_⟩
    show (f (x b) (s b)).2 :: (tick (fs.map (entrywise n)) ss (entrywise n f x s).1).2.map (fun s => s b) = _
    rw [h2]
    rfl

theorem stateAfter_entry (b : Fin n) (fs : List (Rnn.Cell V S)) : ∀ (xs : List (Fin n → V)) (ss : List (Fin n → S)),
    (stateAfter (fs.map (entrywise n)) ss xs).map (fun s => s b) =
      stateAfter fs (ss.map fun s => s b) (xs.map fun x => x b)
  | [], ss => rfl
  | x :: xs, ss => by
    show (stateAfter (fs.map (entrywise n)) (tick (fs.map (entrywise n)) ss x).2 xs).map (fun s => s b) = _
    rw [stateAfter_entry b fs xs, (tick_entry b fs ss x).2]
    rfl

theorem recur_entry (b : Fin n) (fs : List (Rnn.Cell V S)) : ∀ (xs : List (Fin n → V)) (ss : List (Fin n → S)),
    (recur (fs.map (entrywise n)) ss xs).map (fun y => y b) = recur fs (ss.map fun s => s b) (xs.map fun x => x b)
  | [], ss => rfl
  | x :: xs, ss => by
    show (tick (fs.map (entrywise n)) ss x).1 b ::
      (recur (fs.map (entrywise n)) (tick (fs.map (entrywise n)) ss x).2 xs).map (fun y => y b) = _
    rw [recur_entry b fs xs, (tick_entry b fs ss x).2, (tick_entry b fs ss x).1]
    rfl

theorem begins_eq (c : Rnn.Cfg V S) (i : Option (List (Fin n → S))) (b : Fin n) :
    ((i.getD ((batch n c).layers.map fun _ => (batch n c).zero)).map fun s => s b) = begins c i b := by
  cases i with
  | some ss => rfl
  | none =>
    show (((c.layers.map (entrywise n)).map fun _ => fun _ => c.zero).map fun s : Fin n → S => s b) = c.layers.map fun _ => c.zero
    rw [List.map_map, List.map_map]
    rfl

theorem padded_recur (c : Rnn.Cfg V S) (i : Option (List (Fin n → S))) {seqs : Fin n → List V} {xs : List (Fin n → V)}
    (h : Padded seqs xs) :
    Padded (fun b => recur c.layers (begins c i b) (seqs b))
      (recur (batch n c).layers (i.getD ((batch n c).layers.map fun _ => (batch n c).zero)) xs) := by
  intro b
  show _ <+: (recur (c.layers.map (entrywise n)) _ xs).map (fun y => y b)
  rw [recur_entry b, begins_eq]
  obtain ⟨r, hr⟩ := h b
  rw [← hr, Rnn.recur_append]
  exact List.prefix_append _ _

end Packed

open Packed

/-- **C126**, as far as it holds: sequences of different lengths, stacked to a clip with any padding after their ends.  However the clip
is cut into calls of `forward_step` and `forward_steps`, and for `forward` on the whole clip, with any hidden state at the
beginning, the outputs for entry `b` begin with those of the recurrence on sequence `b` alone; the padding has no influence on
them.  After the last frame of a sequence (when as many frames were given as it has), the hidden state for its entry is the final state
of the sequence alone.

What is missing: `C126_packed_refuted`, `C126_final_refuted`. -/
theorem C126_padded_partial (c : Rnn.Cfg V S) (i : Option (List (Fin n → S)))
    (hi : ∀ s, i = some s → s.length = c.layers.length) (seqs : Fin n → List V) (ops : List (Op (Fin n → V)))
    (hf : ∀ op ∈ ops, op.feeds) (hne : ops ≠ []) (h : Padded seqs (framesOf ops)) :
    ∃ rs ys hN, run (Rnn.mod (batch n c)) i ops = .ok (rs, some hN) ∧ outsOf rs = ys ∧
      Packed.forward c (.clip (framesOf ops)) i = .ok (ys, hN) ∧ ys.length = (framesOf ops).length ∧
      Padded (fun b => recur c.layers (begins c i b) (seqs b)) ys ∧
      ∀ b, (seqs b).length = (framesOf ops).length →
        hN.map (fun s => s b) = stateAfter c.layers (begins c i b) (seqs b) := by
  obtain ⟨rs, ys, hN, h1, h2, h3, h4, h5, h6⟩ := C30_rnn_chunking (batch n c) i
    (fun s hs => by rw [hi s hs]; simp [batch]) ops hf hne
  refine ⟨rs, ys, hN, h1, h3, h2, h6, ?_, fun b hb => ?_⟩
  · rw [h4]; exact padded_recur c i h
  · rw [h5]
    show (stateAfter (c.layers.map (entrywise n)) _ _).map (fun s => s b) = _
    rw [stateAfter_entry b, begins_eq, (h b).eq_of_length (by simpa using hb)]

/-- **C126 refuted** for packed sequences, which the documentation admits: `forward` and `forward_steps` raise `AttributeError` for
all of them. -/
theorem C126_packed_refuted (c : Rnn.Cfg V S) (i : Option (List (Fin n → S))) (u : Bool) (seqs : Fin n → List V) :
    Packed.forward c (.packed seqs) i = .error .attribute ∧ forwardSteps c i u (.packed seqs) = .error .attribute :=
  ⟨rfl, rfl⟩

/-- **C126**, the hidden state that `forward` returns for a padded clip, and `forward_steps` keeps: that of the entries with their
padding. -/
theorem C126_final (c : Rnn.Cfg V S) (i : Option (List (Fin n → S))) (hi : ∀ s, i = some s → s.length = c.layers.length)
    (xs : List (Fin n → V)) (hx : xs ≠ []) :
    ∃ ys hN, Packed.forward c (.clip xs) i = .ok (ys, hN) ∧
      (∀ u, forwardSteps c i u (.clip xs) = .ok (ys, if u then some hN else i)) ∧
      ∀ b, hN.map (fun s => s b) = stateAfter c.layers (begins c i b) (xs.map fun x => x b) := by
  obtain ⟨rs, ys, hN, h1, h2, h3, h4, h5, h6⟩ := C30_rnn_chunking (batch n c) i
    (fun s hs => by rw [hi s hs]; simp [batch]) [.steps true xs] (by simpa [Op.feeds] using hx) (by simp)
  have hfr : framesOf [Op.steps true xs] = xs := by simp [framesOf, Op.frames]
  rw [hfr] at h2 h5
  refine ⟨ys, hN, h2, fun u => ?_, fun b => ?_⟩
  · show (match Packed.forward c (.clip xs) i with | .error e => _ | .ok (ys, h) => _) = _
    rw [show Packed.forward c (.clip xs) i = .ok (ys, hN) from h2]
  rw [h5]
  show (stateAfter (c.layers.map (entrywise n)) _ _).map (fun s => s b) = _
  rw [stateAfter_entry b, begins_eq]

/-- Two layers that add up what they get. -/
def exSums : Rnn.Cfg Int Int := ⟨[fun x s => (x + s, x + s), fun x s => (x + 2 * s, x + 2 * s)], 0⟩

/-- **C126 refuted** for the hidden state at the end of a padded clip: for a sequence that has ended before, it is not the final
state of this sequence, even when the padding consists of zeros. -/
theorem C126_final_refuted : ¬ ∀ (c : Rnn.Cfg Int Int) (seqs : Fin 2 → List Int) (xs : List (Fin 2 → Int)) ys hN, Padded seqs xs →
    (∀ b t, (seqs b).length ≤ t → t < xs.length → (xs.getD t 0) b = 0) → Packed.forward c (.clip xs) none = .ok (ys, hN) →
    ∀ b, hN.map (fun s => s b) = stateAfter c.layers (c.layers.map fun _ => c.zero) (seqs b) := by
  intro h
  obtain ⟨ys, hN, h1, _, h2⟩ := C126_final exSums none (by simp) [![1, 2], ![0, 3]] (by simp)
  have := h exSums ![[1], [2, 3]] [![1, 2], ![0, 3]] ys hN
    (by intro b; fin_cases b <;> decide)
    (by
      intro b t
      fin_cases b
      · intro h1 h2
        obtain rfl : t = 1 := by simp at h1 h2; omega
        rfl
      · intro h1 h2
        simp at h1 h2
        omega) h1 0
  rw [h2 0] at this
  revert this
  decide

/-! ### Examples -/

/-- Sequences of one, three and two frames in a clip of three frames, cut into a step and a chunk. -/
example : ∃ rs ys hN, run (Rnn.mod (batch 3 exSums)) none [.step true ![5, 1, 2], .steps true [![9, 1, 4], ![9, 1, 9]]] =
      .ok (rs, some hN) ∧ outsOf rs = ys ∧ ys.length = 3 ∧
      Padded ![[5], [1, 4, 11], [2, 10]] ys ∧ hN.map (fun s => s 1) = [3, 11] := by
  obtain ⟨rs, ys, hN, h1, h2, _, h3, h4, h5⟩ := C126_padded_partial exSums (n := 3) none (by simp) ![[5], [1, 1, 1], [2, 4]]
    [.step true ![5, 1, 2], .steps true [![9, 1, 4], ![9, 1, 9]]] (by simp [Op.feeds]) (by simp)
    (by intro b; fin_cases b <;> decide)
  refine ⟨rs, ys, hN, h1, h2, h3, ?_, ?_⟩
  · intro b
    have := h4 b
    fin_cases b <;> exact this
  · rw [h5 1 (by decide)]
    decide

end CoInf
