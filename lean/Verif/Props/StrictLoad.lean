/-
C40: what strict loading guarantees.
-/
import Verif.Props.StateDict

set_option autoImplicit false

namespace CoInf.StateDict

variable {P V : Type} [DecidableEq P] {isdigit : P → Bool}

theorem mem_of_get {d : Dict P V} {k : Key P} {v : V} (h : get d k = some v) : (k, v) ∈ d := by
  induction d with
  | nil => cases h
  | cons e d ih =>
    obtain ⟨a, b⟩ := e
    simp only [get, List.lookup] at h
    split at h
    · rename_i hb
      cases h
      simp only [beq_iff_eq] at hb
      rw [hb]; exact List.mem_cons_self
    · exact List.mem_cons_of_mem _ (ih h)

theorem torchLoad_strict {own sd after : Dict P V} (h : torchLoad own sd true = .ok after) :
    after.map (·.1) = own.map (·.1) ∧ (∀ e ∈ after, e ∈ sd) ∧ ∀ e ∈ sd, e.1 ∈ own.map (·.1) := by
  simp only [torchLoad, Bool.true_and] at h
  split at h
  · cases h
  · rename_i h1
    split at h
    · cases h
    · rename_i h2
      cases h
      simp only [Bool.not_eq_true', Bool.not_eq_false, List.all_eq_true] at h1 h2
      refine ⟨by simp [Function.comp_def], ?_, ?_⟩
      · intro e he
        obtain ⟨e0, he0, rfl⟩ := List.mem_map.1 he
        obtain ⟨v, hv⟩ := Option.isSome_iff_exists.1 (h1 e0 he0)
        rw [hv]
        exact mem_of_get hv
      · intro e he
        obtain ⟨v, hv⟩ := Option.isSome_iff_exists.1 (h2 e he)
        exact List.mem_map.2 ⟨_, mem_of_get hv, rfl⟩

theorem short2long_some {ks : List (Key P)} {s k : Key P} (h : short2long isdigit ks s = some k) : short isdigit k = s := by
  simpa using List.find?_some h

theorem remap_mem {ks : List (Key P)} : {sd sd' : Dict P V} → remap isdigit ks true sd = .ok sd' →
    (∀ e ∈ sd', ∃ e' ∈ sd, e'.2 = e.2 ∧ e'.1 = short isdigit e.1) ∧ ∀ e' ∈ sd, ∃ e ∈ sd', e'.1 = short isdigit e.1
  | [], sd', h => by cases h; simp
  | x :: sd, sd', h => by
    simp only [remap] at h
    split at h
    · rename_i k hk
      split at h
      · rename_i r hr
        cases h
        have ih := remap_mem hr
        refine ⟨?_, ?_⟩
        · intro e he
          rcases List.mem_cons.1 he with rfl | he
          · exact ⟨x, by simp, rfl, (short2long_some hk).symm⟩
          · obtain ⟨e', he', h1⟩ := ih.1 e he
            exact ⟨e', by simp [he'], h1⟩
        · intro e he
          rcases List.mem_cons.1 he with rfl | he
          · exact ⟨_, List.mem_cons_self, (short2long_some hk).symm⟩
          · obtain ⟨e', he', h1⟩ := ih.2 e he
            exact ⟨e', by simp [he'], h1⟩
      · cases h
    · cases h

/-- **C40**, strict loading: if it succeeds, the module keeps its names, every parameter has a value that the dict holds under
the name of the parameter or, with `flatten=True`, under that name without numbers, and no entry of the dict is left over. -/
theorem C40_strict (own sd after : Dict P V) (flatten : Bool) (h : loadStateDict isdigit own sd true flatten = .ok after) :
    after.map (·.1) = own.map (·.1) ∧
    (∀ e ∈ after, ∃ e' ∈ sd, e'.2 = e.2 ∧ (e'.1 = e.1 ∨ flatten = true ∧ e'.1 = e.1.filter fun p => !isdigit p)) ∧
    (∀ e' ∈ sd, ∃ k ∈ own.map (·.1), e'.1 = k ∨ flatten = true ∧ e'.1 = k.filter fun p => !isdigit p) := by
  have plain : torchLoad own sd true = .ok after → after.map (·.1) = own.map (·.1) ∧
      (∀ e ∈ after, ∃ e' ∈ sd, e'.2 = e.2 ∧ (e'.1 = e.1 ∨ flatten = true ∧ e'.1 = e.1.filter fun p => !isdigit p)) ∧
      (∀ e' ∈ sd, ∃ k ∈ own.map (·.1), e'.1 = k ∨ flatten = true ∧ e'.1 = k.filter fun p => !isdigit p) := by
    intro h
    obtain ⟨h1, h2, h3⟩ := torchLoad_strict h
    exact ⟨h1, fun e he => ⟨e, h2 e he, rfl, .inl rfl⟩, fun e he => ⟨e.1, h3 e he, .inl rfl⟩⟩
  unfold loadStateDict at h
  cases flatten with
  | false => exact plain h
  | true =>
    simp only [if_true] at h
    split at h
    · split at h
      · rename_i sd' hr
        obtain ⟨h1, h2, h3⟩ := torchLoad_strict h
        obtain ⟨r1, r2⟩ := remap_mem hr
        refine ⟨h1, fun e he => ?_, fun e he => ?_⟩
        · obtain ⟨e', he', hv, hk⟩ := r1 e (h2 e he)
          exact ⟨e', he', hv, .inr ⟨rfl, hk⟩⟩
        · obtain ⟨e', he', hk⟩ := r2 e he
          exact ⟨e'.1, h3 e' he', .inr ⟨rfl, hk⟩⟩
      · cases h
    · exact plain h

/-- **C40**, strict loading of a dict in which a parameter has no value, or that has an entry for no parameter, raises. -/
theorem C40_strict_refuses (own sd : Dict P V) (flatten : Bool)
    (h : (∃ k ∈ own.map (·.1), ∀ e ∈ sd, e.1 ≠ k ∧ e.1 ≠ k.filter fun p => !isdigit p) ∨
      ∃ e ∈ sd, ∀ k ∈ own.map (·.1), e.1 ≠ k ∧ e.1 ≠ k.filter fun p => !isdigit p) :
    ∃ x, loadStateDict isdigit own sd true flatten = .error x := by
  cases hl : loadStateDict isdigit own sd true flatten with
  | error x => exact ⟨x, rfl⟩
  | ok after =>
    exfalso
    obtain ⟨h1, h2, h3⟩ := C40_strict own sd after flatten hl
    rcases h with ⟨k, hk, hn⟩ | ⟨e, he, hn⟩
    · rw [← h1] at hk
      obtain ⟨e, he, rfl⟩ := List.mem_map.1 hk
      obtain ⟨e', he', _, hh⟩ := h2 e he
      rcases hh with hh | ⟨_, hh⟩
      · exact (hn e' he').1 hh
      · exact (hn e' he').2 hh
    · obtain ⟨k, hk, hh⟩ := h3 e he
      rcases hh with hh | ⟨_, hh⟩
      · exact (hn k hk).1 hh
      · exact (hn k hk).2 hh

/-- The bias is missing. -/
example : loadStateDict exDigit [(["0", "weight"], 5), (["1", "bias"], 6)] [(["weight"], 7)] true true = .error .runtime := by
  decide

example : loadStateDict exDigit [(["0", "weight"], 5), (["1", "bias"], 6)] [(["bias"], 8), (["weight"], 7)] true true =
    .ok [(["0", "weight"], 7), (["1", "bias"], 8)] := by
  decide

end CoInf.StateDict
