/-
C121: names and dynamic axes of exported models.
-/
import Verif.Model.Export
import Verif.Props.Onnx

set_option autoImplicit false

namespace CoInf
open Onnx Onnx.Spec Export

variable {X T : Type}

namespace Spec

/-- The names that exported models use for the state tensors. -/
def stateIn (k : Nat) : String := "s" ++ toString k
def stateOut (k : Nat) : String := "ns" ++ toString k

/-- A name that is not used for a state tensor. -/
def Free (s : String) : Prop := ∀ k, s ≠ stateIn k ∧ s ≠ stateOut k

/-- A model whose inputs are called `a` and whose outputs are called `b`, and whose state tensors carry their numbers, in the inputs
and in the outputs; all names differ. -/
def WellNamed (g : Graph) (a b : List String) (n : Nat) : Prop :=
  (∀ i, i < a.length → g.input i = a[i]?) ∧ (∀ k, k < n → g.input (a.length + k) = some (stateIn k)) ∧
  (∀ i, a.length + n ≤ i → g.input i = none) ∧
  (∀ i, i < b.length → g.output i = b[i]?) ∧ (∀ k, k < n → g.output (b.length + k) = some (stateOut k)) ∧
  (a ++ b ++ (List.range n).map stateIn ++ (List.range n).map stateOut).Nodup

end Spec
open Spec

namespace Export

theorem n_append (k : Nat) : "n" ++ stateIn k = stateOut k := by
  apply String.toList_injective
  simp [stateIn, stateOut, String.toList_append]

theorem inputNames_eq (s : Onnx.Shape) : inputNames s = (List.range s.total).map stateIn := rfl

theorem outputNames_eq (s : Onnx.Shape) : outputNames s = (List.range s.total).map stateOut := by
  unfold outputNames
  rw [inputNames_eq, List.map_map]
  exact List.map_congr_left fun k _ => n_append k

theorem stateIn_injective {i j : Nat} (h : stateIn i = stateIn j) : i = j := by
  have e := congrArg String.toList h
  simp only [stateIn, String.toList_append] at e
  exact nat_repr_injective (String.toList_injective (List.append_cancel_left e))

theorem stateOut_injective {i j : Nat} (h : stateOut i = stateOut j) : i = j := by
  have e := congrArg String.toList h
  simp only [stateOut, String.toList_append] at e
  exact nat_repr_injective (String.toList_injective (List.append_cancel_left e))

theorem in_ne_out (i j : Nat) : stateIn i ≠ stateOut j := by
  intro h
  have e := congrArg String.toList h
  simp [stateIn, stateOut, String.toList_append] at e

theorem mem_dynamic (m : Mod X T) (k : Nat) :
    stateIn k ∈ dynamicInputs m ↔ k < m.shape.total ∧ (flatten m.inds)[k]? = some true := by
  simp only [dynamicInputs, List.mem_filterMap]
  constructor
  · rintro ⟨⟨n, b⟩, hmem, hn⟩
    cases b with
    | false => simp at hn
    | true =>
      simp only [if_true, Option.some.injEq] at hn
      obtain ⟨j, hj⟩ := List.mem_iff_getElem?.1 hmem
      rw [List.getElem?_zip_eq_some] at hj
      have hjl : j < m.shape.total := by
        have := (List.getElem?_eq_some_iff.1 hj.1).1
        simpa [inputNames] using this
      have h1 := hj.1
      rw [inputNames_eq, List.getElem?_map, List.getElem?_range hjl, Option.map_some, Option.some.injEq, hn] at h1
      have := stateIn_injective h1
      subst this
      exact ⟨hjl, hj.2⟩
  · rintro ⟨h1, h2⟩
    refine ⟨(stateIn k, true), List.mem_iff_getElem?.2 ⟨k, ?_⟩, rfl⟩
    rw [List.getElem?_zip_eq_some]
    exact ⟨by rw [inputNames_eq, List.getElem?_map, List.getElem?_range h1]; rfl, h2⟩

theorem dynamic_form (m : Mod X T) {s : String} (h : s ∈ dynamicInputs m) : ∃ k, s = stateIn k := by
  simp only [dynamicInputs, List.mem_filterMap] at h
  obtain ⟨⟨n, b⟩, hmem, hn⟩ := h
  have := (List.of_mem_zip hmem).1
  rw [inputNames_eq, List.mem_map] at this
  obtain ⟨k, -, hk⟩ := this
  cases b with
  | false => simp at hn
  | true => exact ⟨k, by simpa [hk] using hn.symm⟩

theorem mem_axes (m : Mod X T) (a b : List String) (k : Nat) (h1 : stateIn k ∉ a ++ b) :
    stateIn k ∈ a ++ b ++ (dynamicInputs m ++ (dynamicInputs m).map fun n => "n" ++ n) ↔
      k < m.shape.total ∧ (flatten m.inds)[k]? = some true := by
  rw [← mem_dynamic, List.mem_append (s := a ++ b), List.mem_append (s := dynamicInputs m)]
  constructor
  · rintro (h | h | h)
    · exact absurd h h1
    · exact h
    · obtain ⟨s, hs, hn⟩ := List.mem_map.1 h
      obtain ⟨j, rfl⟩ := dynamic_form m hs
      rw [n_append] at hn
      exact absurd hn.symm (in_ne_out _ _)
  · exact fun h => .inr (.inl h)

theorem mem_axes_out (m : Mod X T) (a b : List String) (k : Nat) (h1 : stateOut k ∉ a ++ b) :
    stateOut k ∈ a ++ b ++ (dynamicInputs m ++ (dynamicInputs m).map fun n => "n" ++ n) ↔
      k < m.shape.total ∧ (flatten m.inds)[k]? = some true := by
  rw [← mem_dynamic, List.mem_append (s := a ++ b), List.mem_append (s := dynamicInputs m)]
  constructor
  · rintro (h | h | h)
    · exact absurd h h1
    · obtain ⟨j, hj⟩ := dynamic_form m h
      exact absurd hj.symm (in_ne_out _ _)
    · obtain ⟨s, hs, hn⟩ := List.mem_map.1 h
      obtain ⟨j, rfl⟩ := dynamic_form m hs
      rw [n_append] at hn
      exact stateOut_injective hn ▸ hs
  · exact fun h => .inr (.inr (List.mem_map.2 ⟨_, h, n_append k⟩))

theorem graph_lists (I J P : Nat) (m : Mod X T) (a b : List String) :
    graph I J P true m (.list a) (.list b) =
      if I + P < a.length ∨ J < b.length then .error .runtime
      else .ok ⟨fun i => (a ++ (List.range m.shape.total).map stateIn)[i]?,
        fun i => (b ++ (List.range m.shape.total).map stateOut)[i]?,
        fun s => decide (s ∈ a ++ b ++ (dynamicInputs m ++ (dynamicInputs m).map fun n => "n" ++ n))⟩ := by
  have hc : call true m (.list a) (.list b) = .ok ⟨a ++ inputNames m.shape, b ++ outputNames m.shape,
      a ++ b ++ (dynamicInputs m ++ (dynamicInputs m).map fun n => "n" ++ n)⟩ := rfl
  unfold graph
  rw [hc]
  simp only [label, inputNames_eq, outputNames_eq, List.length_append, List.length_map, List.length_range]
  by_cases h1 : I + P < a.length
  · rw [if_pos (show I + m.shape.total + P < a.length + m.shape.total by omega), if_pos (Or.inl h1)]
  · rw [if_neg (show ¬ I + m.shape.total + P < a.length + m.shape.total by omega)]
    by_cases h2 : J < b.length
    · simp only
      rw [if_pos (show J + m.shape.total < b.length + m.shape.total by omega), if_pos (Or.inr h2)]
    · simp only
      rw [if_neg (show ¬ J + m.shape.total < b.length + m.shape.total by omega), if_neg (by omega)]

end Export
open Export

/-- **C121**, what can be exported: instances of `CoModule`, with lists of at most as many names as there are inputs and outputs
(and parameters, which are named when there are more names than inputs). -/
theorem C121_accepts (I J P : Nat) (co : Bool) (m : Mod X T) (inp out : Names) :
    (∃ g, graph I J P co m inp out = .ok g) ↔
      co = true ∧ ∃ a b, inp = .list a ∧ out = .list b ∧ a.length ≤ I + P ∧ b.length ≤ J := by
  constructor
  · rintro ⟨g, hg⟩
    cases co with
    | false => cases hg
    | true =>
      refine ⟨rfl, ?_⟩
      match inp, out, hg with
      | .list a, .list b, hg =>
        rw [graph_lists] at hg
        split at hg
        · cases hg
        · exact ⟨a, b, rfl, rfl, by omega, by omega⟩
      | .none, _, hg => cases hg
      | .tuple _, _, hg => cases hg
      | .list a, .none, hg => cases hg
      | .list a, .tuple _, hg => cases hg
  · rintro ⟨rfl, a, b, rfl, rfl, h1, h2⟩
    exact ⟨_, by rw [graph_lists, if_neg (by omega)]⟩

/-- **C121**, as far as it holds: given one name per input and per output, all different and none of them the name of a state,
inputs, outputs and states are named as they should be, and the batch axis is dynamic in all inputs and outputs and in
exactly the states that are flagged in `_dynamic_state_inds`.  What is missing: `C121_defaults_refuted`,
`C121_empty_refuted`, `C121_clash_refuted`. -/
theorem C121_names_partial (P : Nat) (m : Mod X T) (a b : List String) (hn : (a ++ b).Nodup) (hf : ∀ s ∈ a ++ b, Free s) :
    ∃ g, graph a.length b.length P true m (.list a) (.list b) = .ok g ∧ WellNamed g a b m.shape.total ∧
      (∀ s ∈ a ++ b, g.dynamic s = true) ∧
      ∀ k < m.shape.total, (g.dynamic (stateIn k) = true ↔ (flatten m.inds)[k]? = some true) ∧
        (g.dynamic (stateOut k) = true ↔ (flatten m.inds)[k]? = some true) := by
  refine ⟨_, by rw [graph_lists, if_neg (by omega)], ⟨?_, ?_, ?_, ?_, ?_, ?_⟩, ?_, ?_⟩
  · exact fun i hi => List.getElem?_append_left hi
  · intro k hk
    simp [List.getElem?_append_right, hk]
  · intro i hi
    exact List.getElem?_eq_none (by simpa using hi)
  · exact fun i hi => List.getElem?_append_left hi
  · intro k hk
    simp [List.getElem?_append_right, hk]
  · refine List.Nodup.append (List.Nodup.append hn ?_ ?_) ?_ ?_
    · exact List.Nodup.map (fun _ _ h => stateIn_injective h) List.nodup_range
    · intro s hs hs'
      obtain ⟨k, -, rfl⟩ := List.mem_map.1 hs'
      exact (hf _ hs k).1 rfl
    · exact List.Nodup.map (fun _ _ h => stateOut_injective h) List.nodup_range
    · intro s hs hs'
      obtain ⟨k, -, rfl⟩ := List.mem_map.1 hs'
      rcases List.mem_append.1 hs with hs | hs
      · exact (hf _ hs k).2 rfl
      · obtain ⟨j, -, hj⟩ := List.mem_map.1 hs
        exact in_ne_out _ _ hj
  · intro s hs
    simp only [decide_eq_true_eq, List.mem_append]
    exact .inl (List.mem_append.1 hs)
  · intro k hk
    simp only [decide_eq_true_eq]
    rw [mem_axes m a b k (fun h => (hf _ h k).1 rfl), mem_axes_out m a b k (fun h => (hf _ h k).2 rfl)]
    exact ⟨⟨fun h => h.2, fun h => ⟨hk, h⟩⟩, ⟨fun h => h.2, fun h => ⟨hk, h⟩⟩⟩

/-- **C121**: the number of names matters: the states of a model with states carry their numbers exactly if as many input names are
given as the input has tensors. -/
theorem C121_count (I J P : Nat) (m : Mod X T) (hm : 0 < m.shape.total) (a b : List String) (hf : ∀ s ∈ a, Free s) (g : Graph)
    (hg : graph I J P true m (.list a) (.list b) = .ok g) :
    (∀ k < m.shape.total, g.input (I + k) = some (stateIn k)) ↔ a.length = I := by
  rw [graph_lists] at hg
  split at hg
  · cases hg
  · cases hg
    constructor
    · intro h
      have h0 := h 0 hm
      simp only [Nat.add_zero] at h0
      by_contra hne
      rcases Nat.lt_or_gt_of_ne hne with hl | hl
      · rw [List.getElem?_append_right (by omega), List.getElem?_map] at h0
        obtain ⟨j, hj, hj'⟩ := Option.map_eq_some_iff.1 h0
        have e := stateIn_injective hj'
        subst e
        have := (List.getElem?_eq_some_iff.1 hj).2
        rw [List.getElem_range] at this
        omega
      · rw [List.getElem?_append_left hl] at h0
        exact (hf _ (List.mem_of_getElem? h0) 0).1 rfl
    · rintro rfl k hk
      simp [List.getElem?_append_right, hk]

/-- **C121** fails for the defaults, documented as empty lists: without `input_names` or without `output_names`, or with tuples of
names, the export raises `TypeError`. -/
theorem C121_defaults_refuted (I J P : Nat) (m : Mod X T) (names : Names) (l : List String) :
    graph I J P true m .none names = .error .type ∧ graph I J P true m (.tuple l) names = .error .type ∧
      graph I J P true m (.list l) .none = .error .type ∧ graph I J P true m (.list l) (.tuple l) = .error .type :=
  ⟨rfl, rfl, rfl, rfl⟩

/-- **C121** fails for empty lists of names: the input is called `s0` and gets the flag of state 0, every state gets the name and
the flag of its successor, and the last state gets neither. -/
theorem C121_empty_refuted (P : Nat) (m : Mod X T) (g : Graph)
    (hg : graph 1 1 P true m (.list []) (.list []) = .ok g) :
    (∀ k < m.shape.total, g.input k = some (stateIn k) ∧
        (g.dynamic (stateIn k) = true ↔ (flatten m.inds)[k]? = some true)) ∧ g.input m.shape.total = none := by
  rw [graph_lists, if_neg (by simp)] at hg
  cases hg
  refine ⟨fun k hk => ⟨by simp [hk], ?_⟩, by simp⟩
  simp only [decide_eq_true_eq]
  rw [mem_axes m [] [] k (by simp)]
  exact ⟨fun h => h.2, fun h => ⟨hk, h⟩⟩

/-- **C121** fails for an input called like a state: two inputs of the graph have the same name, and axis 0 of that state is declared
dynamic though it holds no batch. -/
theorem C121_clash_refuted (P : Nat) (m : Mod X T) (k : Nat) (hk : k < m.shape.total) (b : List String)
    (hb : b.length = 1) (hflag : (flatten m.inds)[k]? = some false) :
    ∃ g, graph 1 1 P true m (.list [stateIn k]) (.list b) = .ok g ∧ g.input 0 = some (stateIn k) ∧
      g.input (1 + k) = some (stateIn k) ∧ g.dynamic (stateIn k) = true ∧ (flatten m.inds)[k]? ≠ some true := by
  refine ⟨_, by rw [graph_lists, if_neg (by simp [hb])], rfl, ?_, ?_, by rw [hflag]; simp⟩
  · show ([stateIn k] ++ (List.range m.shape.total).map stateIn)[1 + k]? = _
    rw [List.getElem?_append_right (by simp)]
    simp [hk]
  · simp

/-- **C121** fails for modules made by `forward_stepping`: they are not instances of `CoModule`. -/
theorem C121_converted_refuted (I J P : Nat) (m : Mod X T) (inp out : Names) :
    graph I J P false m inp out = .error .assertion := rfl

/-! ### Cases that meet the hypotheses -/

namespace Export

/-- A module with a state of three tensors, of which the first has a batch axis (as `Conv1d` has). -/
def exMod : Mod Nat Nat := .seq [.leaf 3 [true, false, false] fun _ s => .ok (none, s)]

theorem free_of_first {s : String} {c : Char} {l : List Char} (h : s.toList = c :: l) (h1 : c ≠ 's') (h2 : c ≠ 'n') : Free s := by
  intro k
  constructor
  · intro e
    rw [e] at h
    simp [stateIn, String.toList_append] at h
    exact h1 h.1.symm
  · intro e
    rw [e] at h
    simp [stateOut, String.toList_append] at h
    exact h2 h.1.symm

end Export

example : ∃ g, graph 1 1 2 true exMod (.list ["input"]) (.list ["output"]) = .ok g ∧ WellNamed g ["input"] ["output"] 3 ∧
    g.dynamic (stateIn 0) = true ∧ g.dynamic (stateIn 1) ≠ true := by
  obtain ⟨g, h1, h2, -, h4⟩ := C121_names_partial 2 exMod ["input"] ["output"] (by decide) (by
    intro s hs
    rcases List.mem_cons.1 hs with rfl | hs
    · exact free_of_first (c := 'i') (l := "nput".toList) (by decide) (by decide) (by decide)
    · obtain rfl : s = "output" := by simpa using hs
      exact free_of_first (c := 'o') (l := "utput".toList) (by decide) (by decide) (by decide))
  exact ⟨g, h1, h2, (h4 0 (by decide)).1.2 rfl, fun h => by cases (h4 1 (by decide)).1.1 h⟩

-- without names for the input and the output, the second state tensor is called `s2`
example (g : Graph) (hg : graph 1 1 2 true exMod (.list []) (.list []) = .ok g) : g.input 2 = some (stateIn 2) :=
  ((C121_empty_refuted 2 exMod g hg).1 2 (by decide)).1
example : ∃ g, graph 1 1 2 true exMod (.list []) (.list []) = .ok g :=
  (C121_accepts 1 1 2 true exMod _ _).2 ⟨rfl, [], [], rfl, rfl, by simp, by simp⟩

-- an input called `s1`
example : ∃ g, graph 1 1 2 true exMod (.list [stateIn 1]) (.list ["output"]) = .ok g ∧ g.dynamic (stateIn 1) = true := by
  obtain ⟨g, h, -, -, h4, -⟩ := C121_clash_refuted 2 exMod 1 (by decide) ["output"] rfl rfl
  exact ⟨g, h, h4⟩

end CoInf
