/-
C40, C52, C53, C54: flattened state dicts.
-/
import Verif.Model.StateDict

set_option autoImplicit false

namespace CoInf.StateDict

variable {P V : Type} [DecidableEq P] {isdigit : P → Bool}

theorem distinct_eq_iff (l : List (Key P)) : distinct l = l.length ↔ l.Nodup := by
  constructor
  · intro h
    have := (List.dedup_sublist l).eq_of_length h
    rw [← this]; exact List.nodup_dedup l
  · intro h
    rw [distinct, List.Nodup.dedup h]

theorem get_of_mem {d : Dict P V} (hd : (d.map (·.1)).Nodup) {k : Key P} {v : V} (h : (k, v) ∈ d) : get d k = some v := by
  induction d with
  | nil => cases h
  | cons e d ih =>
    obtain ⟨a, b⟩ := e
    simp only [List.map_cons, List.nodup_cons] at hd
    rcases List.mem_cons.1 h with h | h
    · cases h; simp [get, List.lookup]
    · have : k ≠ a := by
        intro e
        exact hd.1 (List.mem_map.2 ⟨(k, v), h, e⟩)
      have hb : (k == a) = false := by simpa using this
      simp only [get, List.lookup, hb]
      exact ih hd.2 h

theorem get_none {d : Dict P V} {k : Key P} (h : k ∉ d.map (·.1)) : get d k = none := by
  induction d with
  | nil => rfl
  | cons e d ih =>
    obtain ⟨a, b⟩ := e
    simp only [List.map_cons, List.mem_cons, not_or] at h
    have hb : (k == a) = false := by simpa using h.1
    simp only [get, List.lookup, hb]
    exact ih h.2

/-- Loading a dict with exactly the own keys gives that dict. -/
theorem torchLoad_same {own d : Dict P V} (hk : own.map (·.1) = d.map (·.1)) (hd : (d.map (·.1)).Nodup) (strict : Bool) :
    torchLoad own d strict = .ok d := by
  have h1 : ∀ e ∈ own, (get d e.1).isSome := by
    intro e he
    have : e.1 ∈ d.map (·.1) := hk ▸ List.mem_map.2 ⟨e, he, rfl⟩
    obtain ⟨⟨k, v⟩, hm, hv⟩ := List.mem_map.1 this
    simp only at hv
    rw [← hv, get_of_mem hd hm]; rfl
  have h2 : ∀ e ∈ d, (get own e.1).isSome := by
    intro e he
    have : e.1 ∈ own.map (·.1) := hk ▸ List.mem_map.2 ⟨e, he, rfl⟩
    obtain ⟨⟨k, v⟩, hm, hv⟩ := List.mem_map.1 this
    simp only at hv
    rw [← hv, get_of_mem (hk ▸ hd) hm]; rfl
  have h3 : own.all (fun e => (get d e.1).isSome) = true := by simpa using h1
  have h4 : d.all (fun e => (get own e.1).isSome) = true := by simpa using h2
  simp only [torchLoad, h3, h4, Bool.not_true, Bool.and_false, Bool.false_eq_true, if_false]
  congr 1
  refine List.ext_getElem ?_ ?_
  · have := congrArg List.length hk
    simpa using this
  · intro i hi hj
    have hi' : i < own.length := by simpa using hi
    have hke : (own[i]'hi').1 = (d[i]'hj).1 := by
      have := congrArg (fun l => l[i]?) hk
      simpa [List.getElem?_eq_getElem hi', List.getElem?_eq_getElem hj] using this
    simp only [List.getElem_map]
    rw [hke, get_of_mem hd (k := (d[i]'hj).1) (v := (d[i]'hj).2) (List.getElem_mem hj)]
    rfl

theorem short2long_of_nodup {ks : List (Key P)} (h : (ks.map (short isdigit)).Nodup) {k : Key P} (hk : k ∈ ks) :
    short2long isdigit ks (short isdigit k) = some k := by
  have hrev : (ks.reverse.map (short isdigit)).Nodup := by
    rw [List.map_reverse]; exact List.nodup_reverse.2 h
  have hmem : k ∈ ks.reverse := List.mem_reverse.2 hk
  simp only [short2long]
  generalize ks.reverse = l at hrev hmem
  induction l with
  | nil => cases hmem
  | cons a l ih =>
    simp only [List.map_cons, List.nodup_cons] at hrev
    rcases List.mem_cons.1 hmem with rfl | hm
    · simp
    · have : short isdigit a ≠ short isdigit k := by
        intro e
        exact hrev.1 (List.mem_map.2 ⟨k, hm, e.symm⟩)
      rw [List.find?_cons_of_neg (by simpa using this)]
      exact ih hrev.2 hm

theorem remap_flat {ks : List (Key P)} (h : (ks.map (short isdigit)).Nodup) (strict : Bool) :
    (d : Dict P V) → (∀ e ∈ d, e.1 ∈ ks) → remap isdigit ks strict (d.map fun e => (short isdigit e.1, e.2)) = .ok d
  | [], _ => rfl
  | e :: d, hm => by
    simp only [List.map_cons, remap, short2long_of_nodup h (hm e (by simp))]
    rw [remap_flat h strict d (fun e' he' => hm e' (by simp [he']))]

theorem zip_flat (d : Dict P V) :
    (d.map fun e => short isdigit e.1).zip (d.map (·.2)) = d.map fun e => (short isdigit e.1, e.2) := by
  induction d with
  | nil => rfl
  | cons e d ih => simp [ih]

/-- C40: the flattened dict of a module loads into every module with the same parameter names, and afterwards all parameters
have the saved values; whether or not shortened names collide, strictly or not. -/
theorem C40_roundtrip (own saved : Dict P V) (hnames : own.map (·.1) = saved.map (·.1)) (hd : (saved.map (·.1)).Nodup)
    (strict : Bool) : loadStateDict isdigit own (stateDict isdigit saved true) strict true = .ok saved := by
  have hlen : own.length = saved.length := by simpa using congrArg List.length hnames
  simp only [loadStateDict, stateDict, if_true]
  have hmm : (own.map (·.1)).map (short isdigit) = saved.map fun e => short isdigit e.1 := by
    rw [hnames, List.map_map]; rfl
  rw [hmm]
  by_cases hc : (saved.map fun e => short isdigit e.1).Nodup
  · have h1 : distinct (saved.map fun e => short isdigit e.1) = saved.length := by
      rw [(distinct_eq_iff _).2 hc]; simp
    rw [if_pos h1, zip_flat, if_pos (by rw [h1]; simp)]
    rw [remap_flat (by rw [hmm]; exact hc) strict saved (fun e he => by rw [hnames]; exact List.mem_map.2 ⟨e, he, rfl⟩)]
    exact torchLoad_same hnames hd strict
  · have h1 : distinct (saved.map fun e => short isdigit e.1) ≠ saved.length := by
      intro e
      exact hc ((distinct_eq_iff _).1 (by rw [e]; simp))
    rw [if_neg h1, if_neg h1]
    exact torchLoad_same hnames hd strict

/-- C40: the flattened dict has no numbered parts as long as the shortened names differ; otherwise it is the regular one. -/
theorem C40_keys (saved : Dict P V) :
    (∀ e ∈ stateDict isdigit saved true, ∀ p ∈ e.1, isdigit p = false) ∨ stateDict isdigit saved true = saved := by
  simp only [stateDict, if_true]
  split
  · left
    rw [zip_flat]
    intro e he p hp
    obtain ⟨e', _, rfl⟩ := List.mem_map.1 he
    have := (List.mem_filter.1 hp).2
    simpa using this
  · right; rfl

/-- C40: without flattening the regular dict round-trips. -/
theorem C40_regular (own saved : Dict P V) (hnames : own.map (·.1) = saved.map (·.1)) (hd : (saved.map (·.1)).Nodup)
    (strict : Bool) : loadStateDict isdigit own (stateDict isdigit saved false) strict false = .ok saved := by
  simpa [loadStateDict, stateDict] using torchLoad_same hnames hd strict

/-- `0.weight`, `1.bias` flatten to `weight`, `bias`; `0.weight`, `1.weight` collide. -/
def exDigit (s : String) : Bool := s == "0" || s == "1"

example : stateDict exDigit [(["0", "weight"], 5), (["1", "bias"], 6)] true = [(["weight"], 5), (["bias"], 6)] ∧
    stateDict exDigit [(["0", "weight"], 5), (["1", "weight"], 6)] true = [(["0", "weight"], 5), (["1", "weight"], 6)] := by
  decide

theorem short2long_digit (ks : List (Key P)) {k : Key P} (h : ∃ p ∈ k, isdigit p = true) :
    short2long isdigit ks k = none := by
  simp only [short2long, List.find?_eq_none]
  rintro k' - he
  obtain ⟨p, hp, hd⟩ := h
  have he : short isdigit k' = k := by simpa using he
  rw [← he] at hp
  have := (List.mem_filter.1 hp).2
  simp [hd] at this

theorem remap_strict (ks : List (Key P)) : (sd : Dict P V) → (∃ e ∈ sd, ∃ p ∈ e.1, isdigit p = true) →
    remap isdigit ks true sd = .error .key
  | [], h => by obtain ⟨e, he, _⟩ := h; cases he
  | e :: sd, h => by
    simp only [remap]
    cases hs : short2long isdigit ks e.1 with
    | none => rfl
    | some k =>
      have : ∃ e ∈ sd, ∃ p ∈ e.1, isdigit p = true := by
        obtain ⟨e', he', hd⟩ := h
        rcases List.mem_cons.1 he' with rfl | he'
        · rw [short2long_digit ks hd] at hs; cases hs
        · exact ⟨e', he', hd⟩
      simp only [remap_strict ks sd this]

theorem remap_lax (ks : List (Key P)) : (sd : Dict P V) →
    remap isdigit ks false sd = .ok (sd.filterMap fun e => (short2long isdigit ks e.1).map fun k => (k, e.2))
  | [] => rfl
  | e :: sd => by
    simp only [remap, remap_lax ks sd, Bool.false_eq_true, if_false]
    cases h : short2long isdigit ks e.1 with
    | none => simp [h]
    | some k => simp [h]

/-- C52: a regular dict cannot be loaded with `flatten=True`: if the shortened names differ and some name has a number in
it, strict loading raises `KeyError`... -/
theorem C52_regular_strict_refuted (own saved : Dict P V) (hnames : own.map (·.1) = saved.map (·.1))
    (hflat : (saved.map fun e => short isdigit e.1).Nodup) (hdig : ∃ e ∈ saved, ∃ p ∈ e.1, isdigit p = true) :
    loadStateDict isdigit own saved true true = .error .key := by
  have hmm : (own.map (·.1)).map (short isdigit) = saved.map fun e => short isdigit e.1 := by
    rw [hnames, List.map_map]; rfl
  simp only [loadStateDict, if_true]
  rw [hmm, if_pos (by rw [(distinct_eq_iff _).2 hflat]; simp), remap_strict _ _ hdig]

theorem short_clean {k : Key P} (h : k.any isdigit = false) : short isdigit k = k := by
  simp only [short, List.filter_eq_self]
  intro p hp
  have := List.any_eq_false.1 h p hp
  simpa using this

theorem short2long_clean {ks : List (Key P)} (h : (ks.map (short isdigit)).Nodup) {k : Key P} (hk : k ∈ ks) :
    short2long isdigit ks k = if k.any isdigit then none else some k := by
  cases hd : k.any isdigit with
  | true =>
    obtain ⟨p, hp, hpd⟩ := List.any_eq_true.1 hd
    simp only [if_true]
    exact short2long_digit ks ⟨p, hp, hpd⟩
  | false =>
    have := short2long_of_nodup h hk
    rw [short_clean hd] at this
    simpa using this

/-- What non-strict loading of a regular dict under `flatten=True` does: parameters with a number in their name keep their
value, the others are loaded. -/
def halfLoad (isdigit : P → Bool) (own saved : Dict P V) : Dict P V :=
  List.zipWith (fun o s => (o.1, if o.1.any isdigit then o.2 else s.2)) own saved

/-- C52: ... and non-strict loading silently leaves every parameter with a number in its name as it was. -/
theorem C52_regular_lax_refuted (own saved : Dict P V) (hnames : own.map (·.1) = saved.map (·.1))
    (hd : (saved.map (·.1)).Nodup) (hflat : (saved.map fun e => short isdigit e.1).Nodup) :
    loadStateDict isdigit own saved false true = .ok (halfLoad isdigit own saved) := by
  have hmm : (own.map (·.1)).map (short isdigit) = saved.map fun e => short isdigit e.1 := by
    rw [hnames, List.map_map]; rfl
  simp only [loadStateDict, if_true]
  rw [hmm, if_pos (by rw [(distinct_eq_iff _).2 hflat]; simp), remap_lax]
  simp only [torchLoad, Bool.false_and, Bool.false_eq_true, if_false]
  have hrm : (saved.filterMap fun e => (short2long isdigit (own.map (·.1)) e.1).map fun k => (k, e.2)) =
      saved.filter fun e => !e.1.any isdigit := by
    rw [← List.filterMap_eq_filter]
    refine List.filterMap_congr ?_
    intro e he
    have := short2long_clean (ks := own.map (·.1)) (by rw [hmm]; exact hflat)
      (k := e.1) (by rw [hnames]; exact List.mem_map.2 ⟨e, he, rfl⟩)
    rw [this]
    cases h : e.1.any isdigit <;> simp [Option.guard, h]
  rw [hrm]
  congr 1
  have hlen : own.length = saved.length := by simpa using congrArg List.length hnames
  refine List.ext_getElem (by simp [halfLoad, hlen]) ?_
  intro i hi hj
  have hi' : i < own.length := by simpa using hi
  have hs : i < saved.length := hlen ▸ hi'
  have hke : (own[i]'hi').1 = (saved[i]'hs).1 := by
    have := congrArg (fun l => l[i]?) hnames
    simpa [List.getElem?_eq_getElem hi', List.getElem?_eq_getElem hs] using this
  simp only [halfLoad, List.getElem_map, List.getElem_zipWith]
  have hfd : ((saved.filter fun e => !e.1.any isdigit).map (·.1)).Nodup :=
    hd.sublist (List.filter_sublist.map _)
  rw [hke]
  cases hc : (saved[i]'hs).1.any isdigit with
  | true =>
    rw [get_none]
    · simp
    · intro hm
      obtain ⟨e, he, h⟩ := List.mem_map.1 hm
      have := (List.mem_filter.1 he).2
      rw [h, hc] at this
      simp at this
  | false =>
    rw [get_of_mem hfd (k := (saved[i]'hs).1) (v := (saved[i]'hs).2)
      (List.mem_filter.2 ⟨List.getElem_mem hs, by rw [hc]; rfl⟩)]
    simp

/-- C52: a regular dict does load with `flatten=True` if shortened names collide, or no name has a number in it. -/
theorem C52_regular_partial (own saved : Dict P V) (hnames : own.map (·.1) = saved.map (·.1))
    (hd : (saved.map (·.1)).Nodup) (strict : Bool)
    (h : ¬ (saved.map fun e => short isdigit e.1).Nodup ∨ ∀ e ∈ saved, ∀ p ∈ e.1, isdigit p = false) :
    loadStateDict isdigit own saved strict true = .ok saved := by
  rcases h with h | h
  · have hst : stateDict isdigit saved true = saved := by
      simp only [stateDict, if_true]
      rw [if_neg]
      intro e
      exact h ((distinct_eq_iff _).1 (by rw [e]; simp))
    have := C40_roundtrip (isdigit := isdigit) own saved hnames hd strict
    rwa [hst] at this
  · have hsh : ∀ e ∈ saved, short isdigit e.1 = e.1 := by
      intro e he
      refine short_clean ?_
      rw [List.any_eq_false]
      intro p hp
      simp [h e he p hp]
    have hst : stateDict isdigit saved true = saved := by
      simp only [stateDict, if_true, zip_flat]
      have : (saved.map fun e => (short isdigit e.1, e.2)) = saved := by
        conv => rhs; rw [← List.map_id saved]
        refine List.map_congr_left ?_
        intro e he
        simp [hsh e he]
      rw [this]
      split <;> rfl
    have := C40_roundtrip (isdigit := isdigit) own saved hnames hd strict
    rwa [hst] at this

example : loadStateDict exDigit [(["0", "weight"], 0), (["bias"], 0)] [(["0", "weight"], 5), (["bias"], 6)] false true =
    .ok [(["0", "weight"], 0), (["bias"], 6)] ∧
    loadStateDict exDigit [(["0", "weight"], 0), (["1", "weight"], 0)] [(["0", "weight"], 5), (["1", "weight"], 6)] true true =
    .ok [(["0", "weight"], 5), (["1", "weight"], 6)] := ⟨rfl, rfl⟩

/-- C53: non-strict loading of a proper part of a flattened dict loads nothing into the parameters with a number in their
name: the number of entries differs, so the shortened names are not translated. -/
theorem C53_part_refuted (own part : Dict P V) (hflat : ((own.map (·.1)).map (short isdigit)).Nodup)
    (hpart : part.length < own.length) (hclean : ∀ e ∈ part, ∀ p ∈ e.1, isdigit p = false) :
    ∃ after, loadStateDict isdigit own part false true = .ok after ∧
      ∀ k v, (k, v) ∈ own → (∃ p ∈ k, isdigit p = true) → (k, v) ∈ after := by
  refine ⟨own.map fun e => (e.1, (get part e.1).getD e.2), ?_, ?_⟩
  · simp only [loadStateDict, if_true]
    rw [if_neg]
    · simp [torchLoad]
    · rw [(distinct_eq_iff _).2 hflat]
      simp only [List.length_map]
      omega
  · rintro k v hkv ⟨p, hp, hdig⟩
    refine List.mem_map.2 ⟨(k, v), hkv, ?_⟩
    rw [get_none]
    · rfl
    · intro hm
      obtain ⟨e, he, rfl⟩ := List.mem_map.1 hm
      rw [hclean e he p hp] at hdig
      cases hdig

/-- C53: parameters whose name has no number in it are loaded from a part of a flattened dict. -/
theorem C53_part_partial (own part : Dict P V) (hflat : ((own.map (·.1)).map (short isdigit)).Nodup)
    (hpd : (part.map (·.1)).Nodup) (hpart : part.length < own.length) (after : Dict P V)
    (h : loadStateDict isdigit own part false true = .ok after) (k : Key P) (v : V) (hk : k ∈ own.map (·.1))
    (hv : (k, v) ∈ part) : (k, v) ∈ after := by
  simp only [loadStateDict, if_true] at h
  rw [if_neg (by rw [(distinct_eq_iff _).2 hflat]; simp only [List.length_map]; omega)] at h
  simp only [torchLoad, Bool.false_and, Bool.false_eq_true, if_false] at h
  cases h
  obtain ⟨⟨k', w⟩, he, rfl⟩ := List.mem_map.1 hk
  refine List.mem_map.2 ⟨(k', w), he, ?_⟩
  rw [get_of_mem hpd hv]
  rfl

example : loadStateDict exDigit [(["0", "weight"], 0), (["1", "bias"], 0), (["scale"], 0)] [(["weight"], 5), (["scale"], 7)]
    false true = .ok [(["0", "weight"], 0), (["1", "bias"], 0), (["scale"], 7)] := rfl

mutual
/-- What the uses in a program should see: whether a block is around them. -/
def within : Prog → Bool → List Bool
  | .use, b => [b]
  | .block ps, _ => withins ps true
def withins : List Prog → Bool → List Bool
  | [], _ => []
  | p :: ps, b => within p b ++ withins ps b
end

/-- No blocks inside. -/
def Flat : List Prog → Prop
  | [] => True
  | .use :: ps => Flat ps
  | .block _ :: _ => False

/-- No blocks inside blocks. -/
def Unnested : List Prog → Prop
  | [] => True
  | .use :: ps => Unnested ps
  | .block qs :: ps => Flat qs ∧ Unnested ps

theorem execs_flat : (ps : List Prog) → Flat ps → (f : Bool) → execs ps f = (withins ps f, f)
  | [], _, _ => rfl
  | .use :: ps, h, f => by
    simp only [execs, exec, withins, within, execs_flat ps h f]
  | .block _ :: _, h, _ => h.elim

/-- C54: without nesting, the calls inside the blocks and only those flatten. -/
theorem C54_unnested_partial : (ps : List Prog) → Unnested ps → execs ps false = (withins ps false, false)
  | [], _ => rfl
  | .use :: ps, h => by
    simp only [execs, exec, withins, within, C54_unnested_partial ps h]
  | .block qs :: ps, h => by
    simp only [execs, exec, withins, within, C54_unnested_partial ps h.2, execs_flat qs h.1 true]

/-- C54: after an inner block the rest of the outer block no longer flattens: whatever comes before and inside. -/
theorem C54_nested_refuted (before inner : List Prog) :
    ∃ l, (execs [.block (before ++ [.block inner, .use])] false).1 = l ++ [false] ∧
      (withins [.block (before ++ [.block inner, .use])] false) = (withins (before ++ [.block inner]) true) ++ [true] := by
  have h1 : ∀ (ps : List Prog) (f : Bool), ∃ l, (execs (ps ++ [.block inner, .use]) f).1 = l ++ [false] := by
    intro ps
    induction ps with
    | nil => intro f; exact ⟨(execs inner true).1, by simp [execs, exec]⟩
    | cons p ps ih =>
      intro f
      obtain ⟨l, hl⟩ := ih (exec p f).2
      exact ⟨(exec p f).1 ++ l, by simp [execs, hl]⟩
  have h2 : ∀ ps, withins (ps ++ [.block inner, .use]) true = withins (ps ++ [.block inner]) true ++ [true] := by
    intro ps
    induction ps with
    | nil => simp [withins, within]
    | cons p ps ih => simp [withins, ih]
  obtain ⟨l, hl⟩ := h1 before true
  refine ⟨l, ?_, ?_⟩
  · simpa [execs, exec] using hl
  · simpa [withins, within] using h2 before

example : execs [.block [.use, .block [.use], .use], .use] false = ([true, true, false, false], false) := by
  simp [execs, exec]

end CoInf.StateDict
