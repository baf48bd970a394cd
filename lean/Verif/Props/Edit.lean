/-
C100: editing a network.
-/
import Verif.Model.Edit
import Std.Data.String.ToNat
import Mathlib.Tactic.FinCases

set_option autoImplicit false

namespace CoInf.Spec
open Edit
variable {M : Type}

/-- Members are continual: modules of torch are converted. -/
def asContinual : Obj M → Obj M
  | .co m => .co m
  | .plain m => .co m

/-- The place that an index means. -/
def place (n : Nat) (i : Int) : Option Nat :=
  if 0 ≤ i then (if i < n then some i.toNat else none) else if 0 ≤ i + n then some (i + n).toNat else none

/-- What the edits mean for the list of members. -/
def edited (os : List (Obj M)) : Op M → Except Err (List (Obj M))
  | .append o => .ok (os ++ [asContinual o])
  | .set i o => match place os.length i with
    | some k => .ok (os.set k (asContinual o))
    | none => .error .index
  | .del i => match place os.length i with
    | some k => .ok (os.eraseIdx k)
    | none => .error .index
  | .slice a b => .ok ((os.take b).drop a)

/-- Edits one after another. -/
def editedAll : List (Obj M) → List (Op M) → Except Err (List (Obj M))
  | os, [] => .ok os
  | os, op :: ops => match edited os op with
    | .ok os => editedAll os ops
    | .error e => .error e

/-- Edits that keep the names `"0"`, `"1"`, …: slices from the start only, deletions if torch renames the members. -/
def KeepsNames (renumber : Bool) : Op M → Prop
  | .append _ => True
  | .set _ _ => True
  | .del _ => renumber = true
  | .slice a _ => a = 0

/-- Assignments of continual modules only. -/
def Assigns : Op M → Prop
  | .set _ (.plain _) => False
  | _ => True

/-- No `append`. -/
def NoAppend : Op M → Prop
  | .append _ => False
  | _ => True

end CoInf.Spec

namespace CoInf.Edit
open Spec
variable {M : Type}

theorem position_place (n : Nat) (i : Int) :
    position n i = match place n i with | some k => .ok k | none => .error .index := by
  unfold position place
  by_cases h0 : 0 ≤ i
  · by_cases h : i < n
    · rw [if_pos ⟨by omega, h⟩, if_pos h0, if_pos h, Int.emod_eq_of_lt h0 h]
    · rw [if_neg (by omega), if_pos h0, if_neg h]
  · by_cases h : 0 ≤ i + n
    · rw [if_pos ⟨by omega, by omega⟩, if_neg h0, if_pos h]
      rw [← Int.add_emod_right, Int.emod_eq_of_lt h (by omega)]
    · rw [if_neg (by omega), if_neg h0, if_neg h]

theorem apply_set (renumber : Bool) (d : Items M) (i : Int) (o : Obj M) : apply renumber d (.set i o) = (do
    let k ← position d.length i
    pure (d.modify k fun e => (e.1, o))) := rfl

theorem apply_del (renumber : Bool) (d : Items M) (i : Int) : apply renumber d (.del i) = (do
    let k ← position d.length i
    pure (if renumber then numbered ((d.eraseIdx k).map Prod.snd) else d.eraseIdx k)) := rfl

theorem applyAll_cons (renumber : Bool) (d : Items M) (op : Op M) (ops : List (Op M)) : applyAll renumber d (op :: ops) = (do
    let d ← apply renumber d op
    applyAll renumber d ops) := rfl

theorem place_lt {n : Nat} {i : Int} {k : Nat} (h : place n i = some k) : k < n := by
  unfold place at h
  split at h
  · split at h
    · injection h with h; omega
    · cases h
  · split at h
    · injection h with h; omega
    · cases h

theorem convert_eq (o : Obj M) : o.convert = asContinual o := by cases o <;> rfl

theorem add_fresh {d : Items M} {n : String} (o : Obj M) (h : n ∉ d.map Prod.fst) : add d n o = d ++ [(n, asContinual o)] := by
  rw [← convert_eq]; exact if_neg h

theorem foldl_add : ∀ (items d : Items M), ((d ++ items).map Prod.fst).Nodup →
    items.foldl (fun d e => add d e.1 e.2) d = d ++ items.map fun e => (e.1, asContinual e.2)
  | [], d, _ => by simp
  | e :: items, d, h => by
    rw [List.foldl_cons, add_fresh]
    · rw [foldl_add items]
      · simp
      · have : ((d ++ [(e.1, asContinual e.2)]) ++ items).map Prod.fst = (d ++ e :: items).map Prod.fst := by simp
        rw [this]; exact h
    · intro hm
      rw [List.map_append, List.nodup_append] at h
      exact h.2.2 _ hm e.1 (by simp) rfl

theorem named_eq {items : Items M} (h : (items.map Prod.fst).Nodup) :
    named items = items.map fun e => (e.1, asContinual e.2) := by
  unfold named
  rw [foldl_add items [] (by simpa using h), List.nil_append]

theorem numbered_fst (os : List (Obj M)) : (numbered os).map Prod.fst = (List.range os.length).map toString := by
  unfold numbered
  apply List.ext_getElem
  · simp
  · intro i h1 h2
    simp

theorem numbered_snd (os : List (Obj M)) : (numbered os).map Prod.snd = os := by
  unfold numbered
  apply List.ext_getElem
  · simp
  · intro i h1 h2
    simp

theorem toString_nodup (l : List Nat) (h : l.Nodup) : (l.map fun n : Nat => toString n).Nodup := by
  refine List.Pairwise.map _ ?_ h
  intro a b hab he
  exact hab (Nat.repr_injective he)

theorem numbered_nodup (os : List (Obj M)) : ((numbered os).map Prod.fst).Nodup := by
  rw [numbered_fst]
  exact toString_nodup _ List.nodup_range

/-- The names are `"0"`, `"1"`, … -/
def Numbered (d : Items M) : Prop := d.map Prod.fst = (List.range d.length).map toString

/-- All members are continual. -/
def AllCo (os : List (Obj M)) : Prop := ∀ o ∈ os, asContinual o = o

theorem Numbered.nodup {d : Items M} (h : Numbered d) : (d.map Prod.fst).Nodup := by
  rw [h]; exact toString_nodup _ List.nodup_range

theorem convert_convert (o : Obj M) : asContinual (asContinual o) = asContinual o := by cases o <;> rfl

theorem map_convert {os : List (Obj M)} (h : AllCo os) : os.map asContinual = os := by
  rw [List.map_congr_left h, List.map_id']

theorem named_snd {items : Items M} (h : (items.map Prod.fst).Nodup) (hc : AllCo (items.map Prod.snd)) :
    (named items).map Prod.snd = items.map Prod.snd := by
  rw [named_eq h]
  have := map_convert hc
  rw [List.map_map] at this
  rw [List.map_map, ← this]
  rfl

theorem edited_co {os os' : List (Obj M)} {op : Op M} (hc : AllCo os) (h : edited os op = .ok os') : AllCo os' := by
  cases op with
  | append o =>
    cases h
    intro p hp
    rcases List.mem_append.1 hp with hp | hp
    · exact hc p hp
    · rw [List.mem_singleton.1 hp, convert_convert]
  | set i o =>
    change (match place os.length i with | some k => Except.ok (os.set k (asContinual o)) | none => Except.error Err.index) = _ at h
    split at h
    · cases h
      intro p hp
      rcases List.mem_or_eq_of_mem_set hp with hp | rfl
      · exact hc p hp
      · exact convert_convert o
    · cases h
  | del i =>
    change (match place os.length i with | some k => Except.ok (os.eraseIdx k) | none => Except.error Err.index) = _ at h
    split at h
    · cases h
      exact fun p hp => hc p (List.mem_of_mem_eraseIdx hp)
    · cases h
  | slice a b =>
    cases h
    exact fun p hp => hc p (List.mem_of_mem_take (List.mem_of_mem_drop hp))

theorem modify_snd (d : Items M) (k : Nat) (o : Obj M) :
    (d.modify k fun e => (e.1, o)).map Prod.snd = (d.map Prod.snd).set k o := by
  apply List.ext_getElem
  · simp
  · intro i h1 h2
    simp only [List.getElem_map, List.getElem_modify, List.getElem_set]
    split <;> rfl

theorem modify_fst (d : Items M) (k : Nat) (o : Obj M) :
    (d.modify k fun e => (e.1, o)).map Prod.fst = d.map Prod.fst := by
  apply List.ext_getElem
  · simp
  · intro i h1 h2
    simp only [List.getElem_map, List.getElem_modify]
    split <;> rfl

theorem eraseIdx_map {α β : Type} (f : α → β) : ∀ (l : List α) (k : Nat), (l.eraseIdx k).map f = (l.map f).eraseIdx k
  | [], _ => rfl
  | _ :: _, 0 => rfl
  | _ :: l, k + 1 => by simp [eraseIdx_map f l k]

/-- The result of an edit, member by member. -/
def values (r : Except Err (Items M)) : Except Err (List (Obj M)) := r.map fun d => d.map Prod.snd

theorem apply_values (renumber : Bool) (d : Items M) (hd : (d.map Prod.fst).Nodup) (hc : AllCo (d.map Prod.snd)) (op : Op M)
    (ha : Assigns op) (hn : (∃ o, op = .append o) → toString d.length ∉ d.map Prod.fst) :
    values (apply renumber d op) = edited (d.map Prod.snd) op := by
  cases op with
  | append o =>
    show Except.ok ((add d _ o).map Prod.snd) = _
    rw [add_fresh o (hn ⟨o, rfl⟩)]
    simp [edited]
  | set i o =>
    have ho : asContinual o = o := by
      cases o with
      | co m => rfl
      | plain m => exact ha.elim
    show values (do let k ← position d.length i; pure (d.modify k fun e => (e.1, o))) =
      match place (d.map Prod.snd).length i with
      | some k => .ok ((d.map Prod.snd).set k (asContinual o))
      | none => .error .index
    rw [position_place, List.length_map]
    cases place d.length i with
    | none => rfl
    | some k =>
      show Except.ok ((d.modify k fun e => (e.1, o)).map Prod.snd) = Except.ok _
      rw [modify_snd, ho]
  | del i =>
    show values (do
        let k ← position d.length i
        pure (if renumber then numbered ((d.eraseIdx k).map Prod.snd) else d.eraseIdx k)) =
      match place (d.map Prod.snd).length i with
      | some k => .ok ((d.map Prod.snd).eraseIdx k)
      | none => .error .index
    rw [position_place, List.length_map]
    cases place d.length i with
    | none => rfl
    | some k =>
      show Except.ok ((if renumber then numbered ((d.eraseIdx k).map Prod.snd) else d.eraseIdx k).map Prod.snd) = Except.ok _
      cases renumber
      · rw [if_neg (by decide), eraseIdx_map]
      · rw [if_pos rfl, numbered_snd, eraseIdx_map]
  | slice a b =>
    show Except.ok ((named ((d.take b).drop a)).map Prod.snd) = Except.ok (((d.map Prod.snd).take b).drop a)
    have hsub : ((d.take b).drop a).Sublist d := (List.drop_sublist _ _).trans (List.take_sublist _ _)
    rw [named_snd (hd.sublist (hsub.map _)) fun o ho => hc o ((hsub.map _).mem ho)]
    simp [List.map_drop, List.map_take]

theorem add_length {d : Items M} {n : String} (o : Obj M) (h : n ∉ d.map Prod.fst) : (add d n o).length = d.length + 1 := by
  rw [add_fresh o h]; simp

theorem Numbered.fresh {d : Items M} (h : Numbered d) : toString d.length ∉ d.map Prod.fst := by
  rw [h]
  intro hm
  obtain ⟨i, hi, he⟩ := List.mem_map.1 hm
  have := Nat.repr_injective he
  rw [List.mem_range] at hi
  omega

theorem apply_numbered (renumber : Bool) (d d' : Items M) (hd : Numbered d) (op : Op M) (hk : KeepsNames renumber op)
    (h : apply renumber d op = .ok d') : Numbered d' := by
  cases op with
  | append o =>
    cases h
    unfold Numbered
    rw [add_fresh o hd.fresh]
    simp only [List.map_append, List.length_append, List.map_cons, List.map_nil, List.length_cons, List.length_nil]
    rw [hd, List.range_succ, List.map_append]
    rfl
  | set i o =>
    rw [apply_set] at h
    cases hp : position d.length i with
    | error e => rw [hp] at h; cases h
    | ok k =>
      rw [hp] at h
      cases h
      unfold Numbered
      rw [modify_fst, hd, List.length_modify]
  | del i =>
    rw [apply_del] at h
    cases hp : position d.length i with
    | error e => rw [hp] at h; cases h
    | ok k =>
      rw [hp] at h
      obtain rfl : renumber = true := hk
      cases h
      unfold Numbered
      rw [if_pos rfl, numbered_fst]
      simp [numbered]
  | slice a b =>
    obtain rfl : a = 0 := hk
    cases h
    rw [List.drop_zero]
    have hn : ((d.take b).map Prod.fst).Nodup := hd.nodup.sublist ((List.take_sublist _ _).map _)
    unfold Numbered
    rw [named_eq hn, List.map_map, List.length_map]
    show (d.take b).map Prod.fst = _
    rw [List.map_take, hd, ← List.map_take, List.take_range, List.length_take]

theorem apply_nodup (renumber : Bool) (d d' : Items M) (hd : (d.map Prod.fst).Nodup) (op : Op M) (hk : NoAppend op)
    (h : apply renumber d op = .ok d') : (d'.map Prod.fst).Nodup := by
  cases op with
  | append o => exact hk.elim
  | set i o =>
    rw [apply_set] at h
    cases hp : position d.length i with
    | error e => rw [hp] at h; cases h
    | ok k =>
      rw [hp] at h
      cases h
      rw [modify_fst]; exact hd
  | del i =>
    rw [apply_del] at h
    cases hp : position d.length i with
    | error e => rw [hp] at h; cases h
    | ok k =>
      rw [hp] at h
      cases h
      cases renumber
      · exact hd.sublist ((List.eraseIdx_sublist _ _).map _)
      · exact numbered_nodup _
  | slice a b =>
    cases h
    have hsub : ((d.take b).drop a).Sublist d := (List.drop_sublist _ _).trans (List.take_sublist _ _)
    have hn := hd.sublist (hsub.map Prod.fst)
    rw [named_eq hn, List.map_map]
    exact hn

theorem applyAll_values (renumber : Bool) (Inv : Items M → Prop) (Good : Op M → Prop)
    (hinv : ∀ d, Inv d → (d.map Prod.fst).Nodup)
    (hfresh : ∀ d op, Inv d → Good op → (∃ o, op = .append o) → toString d.length ∉ d.map Prod.fst)
    (hkeep : ∀ d d' op, Inv d → Good op → apply renumber d op = .ok d' → Inv d') :
    ∀ (ops : List (Op M)) (d : Items M), Inv d → AllCo (d.map Prod.snd) → (∀ op ∈ ops, Good op ∧ Assigns op) →
      values (applyAll renumber d ops) = editedAll (d.map Prod.snd) ops
  | [], _, _, _, _ => rfl
  | op :: ops, d, hd, hc, hops => by
    have h1 := hops op (by simp)
    have e := apply_values renumber d (hinv d hd) hc op h1.2 (hfresh d op hd h1.1)
    unfold applyAll editedAll
    rw [← e]
    cases h : apply renumber d op with
    | error er => rfl
    | ok d' =>
      have hc' : AllCo (d'.map Prod.snd) := edited_co hc (by rw [← e, h]; rfl)
      exact applyAll_values renumber Inv Good hinv hfresh hkeep ops d' (hkeep d d' op hd h1.1 h) hc'
        fun p hp => hops p (by simp [hp])

theorem positional_eq (os : List (Obj M)) : positional os = (numbered os).map fun e => (e.1, asContinual e.2) :=
  named_eq (numbered_nodup os)

theorem positional_numbered (os : List (Obj M)) : Numbered (positional os) := by
  unfold Numbered
  rw [positional_eq, List.map_map, List.length_map]
  show (numbered os).map Prod.fst = _
  rw [numbered_fst]
  simp [numbered]

theorem positional_snd (os : List (Obj M)) : (positional os).map Prod.snd = os.map asContinual := by
  rw [positional_eq, List.map_map]
  conv_rhs => rw [← numbered_snd os, List.map_map]
  rfl

theorem positional_co (os : List (Obj M)) : AllCo ((positional os).map Prod.snd) := by
  rw [positional_snd]
  intro o ho
  obtain ⟨p, _, rfl⟩ := List.mem_map.1 ho
  exact convert_convert p

/-- **C100**, edits that keep the names: a network built from a list of modules and edited by `append`, assignments of continual
modules, deletions (if torch renames) and slices from the start has the members of the edited list; edits raise when the list has
no such place. -/
theorem C100_edits_partial (renumber : Bool) (os : List (Obj M)) (ops : List (Op M))
    (h : ∀ op ∈ ops, KeepsNames renumber op ∧ Assigns op) :
    values (applyAll renumber (positional os) ops) = editedAll (os.map asContinual) ops := by
  rw [← positional_snd]
  exact applyAll_values renumber Numbered (KeepsNames renumber) (fun _ => Numbered.nodup) (fun d _ hd _ _ => hd.fresh)
    (fun d d' op hd hk => apply_numbered renumber d d' hd op hk) ops _ (positional_numbered os) (positional_co os) h

/-- **C100**, any slices and deletions, with every version of torch, as long as nothing is appended. -/
theorem C100_no_append_partial (renumber : Bool) (os : List (Obj M)) (ops : List (Op M))
    (h : ∀ op ∈ ops, NoAppend op ∧ Assigns op) :
    values (applyAll renumber (positional os) ops) = editedAll (os.map asContinual) ops := by
  rw [← positional_snd]
  exact applyAll_values renumber (fun d => (d.map Prod.fst).Nodup) NoAppend (fun _ => id)
    (fun d op _ hg => by rintro ⟨o, rfl⟩; exact hg.elim)
    (fun d d' op hd hk => apply_nodup renumber d d' hd op hk) ops _ (positional_numbered os).nodup (positional_co os) h

theorem add_replaces {d : Items M} {k : Nat} (hk : k < d.length) (hd : (d.map Prod.fst).Nodup) (o : Obj M) :
    (add d (d[k]).1 o).map Prod.snd = (d.map Prod.snd).set k (asContinual o) := by
  unfold add
  rw [if_pos (List.mem_map.2 ⟨_, List.getElem_mem hk, rfl⟩), List.map_map]
  apply List.ext_getElem
  · simp
  · intro i h1 h2
    have hi : i < d.length := by simpa using h1
    simp only [List.getElem_map, Function.comp, List.getElem_set]
    by_cases e : k = i
    · subst e; simp [convert_eq]
    · rw [if_neg, if_neg e]
      intro he
      apply e
      have h1 : k < (d.map Prod.fst).length := by simpa using hk
      have h2 : i < (d.map Prod.fst).length := by simpa using hi
      exact (List.Nodup.getElem_inj_iff hd (hi := h1) (hj := h2)).1 (by simpa using he.symm)

/-- **C100 fails** for `net[a:b].append(m)` with `0 < a` and `2 * a ≤ b`: the slice keeps the names of its members, `append` takes
the length as a name, and so replaces a member of the slice. -/
theorem C100_slice_append_refuted (renumber : Bool) (os : List (Obj M)) (a b : Nat) (ha : 0 < a) (h : 2 * a ≤ b)
    (hb : b ≤ os.length) (o : Obj M) :
    values (applyAll renumber (positional os) [.slice a b, .append o]) =
      .ok ((((os.map asContinual).take b).drop a).set (b - 2 * a) (asContinual o)) := by
  have hlen : (positional os).length = os.length := by
    rw [← List.length_map Prod.snd, positional_snd, List.length_map]
  have hs := positional_snd os
  have hc := positional_co os
  have hn := positional_numbered os
  revert hlen hs hc hn
  generalize positional os = d
  intro hlen hs hc hn
  have hsub : ((d.take b).drop a).Sublist d := (List.drop_sublist _ _).trans (List.take_sublist _ _)
  have hnd := hn.nodup.sublist (hsub.map Prod.fst)
  show Except.ok ((add (named _) (toString (named _).length) o).map Prod.snd) = _
  have hnl : (named ((d.take b).drop a)).length = b - a := by
    rw [named_eq hnd]; simp; omega
  have hnn : ((named ((d.take b).drop a)).map Prod.fst).Nodup := by
    rw [named_eq hnd, List.map_map]; exact hnd
  have hk : b - 2 * a < (named ((d.take b).drop a)).length := by omega
  have hname : ((named ((d.take b).drop a))[b - 2 * a]).1 = toString (named ((d.take b).drop a)).length := by
    rw [hnl]
    simp only [named_eq hnd, List.getElem_map, List.getElem_drop, List.getElem_take]
    have h1 : a + (b - 2 * a) < (d.map Prod.fst).length := by simp; omega
    have : (d.map Prod.fst)[a + (b - 2 * a)] = toString (a + (b - 2 * a)) := by
      rw [List.getElem_of_eq hn, List.getElem_map, List.getElem_range]
    rw [List.getElem_map] at this
    rw [this, show a + (b - 2 * a) = b - a by omega]
  rw [← hname, add_replaces hk hnn, named_snd hnd fun p hp => hc p ((hsub.map _).mem hp)]
  simp [List.map_drop, List.map_take, hs]

/-- **C100 fails** before torch 1.12, where the names stay after a deletion: `append` then replaces the last member. -/
theorem C100_delete_append_refuted (os : List (Obj M)) (i : Nat) (hi : i + 1 < os.length) (o : Obj M) :
    values (applyAll false (positional os) [.del i, .append o]) =
      .ok (((os.map asContinual).eraseIdx i).set (os.length - 2) (asContinual o)) := by
  have hlen : (positional os).length = os.length := by
    rw [← List.length_map Prod.snd, positional_snd, List.length_map]
  have hs := positional_snd os
  have hn := positional_numbered os
  revert hlen hs hn
  generalize positional os = d
  intro hlen hs hn
  have hp : position d.length (i : Int) = .ok i := by
    rw [position_place]
    unfold place
    rw [if_pos (by omega), if_pos (by omega)]
    rfl
  have e : applyAll false d [.del i, .append o] = .ok (add (d.eraseIdx i) (toString (d.eraseIdx i).length) o) := by
    rw [applyAll_cons, apply_del, hp]
    rfl
  rw [e]
  show Except.ok ((add _ _ o).map Prod.snd) = _
  have hel : (d.eraseIdx i).length = os.length - 1 := by
    rw [List.length_eraseIdx, if_pos (by omega), hlen]
  have hk : os.length - 2 < (d.eraseIdx i).length := by omega
  have hnn := hn.nodup.sublist ((List.eraseIdx_sublist d i).map Prod.fst)
  have hname : ((d.eraseIdx i)[os.length - 2]).1 = toString (d.eraseIdx i).length := by
    rw [hel, List.getElem_eraseIdx, dif_neg (by omega)]
    have h1 : os.length - 2 + 1 < (d.map Prod.fst).length := by simp; omega
    have : (d.map Prod.fst)[os.length - 2 + 1] = toString (os.length - 2 + 1) := by
      rw [List.getElem_of_eq hn, List.getElem_map, List.getElem_range]
    rw [List.getElem_map] at this
    rw [this, show os.length - 2 + 1 = os.length - 1 by omega]
  rw [← hname, add_replaces hk hnn, eraseIdx_map, hs]

section run
variable {S X : Type} [DecidableEq M] (sem : M → S → X → Except Err (Option X × S))

theorem forwardStep_append : ∀ (os ps : List (Obj M)) (σ : M → S) (x : X),
    forwardStep sem (os ++ ps) σ x = (do
      let (y, σ) ← forwardStep sem os σ x
      match y with
      | none => pure (none, σ)
      | some y => forwardStep sem ps σ y)
  | [], _, _, _ => rfl
  | .plain _ :: _, _, _, _ => rfl
  | .co m :: os, ps, σ, x => by
    rw [List.cons_append, forwardStep, forwardStep]
    cases sem m (σ m) x with
    | error e => rfl
    | ok r =>
      obtain ⟨y, s⟩ := r
      cases y with
      | none => rfl
      | some y => exact forwardStep_append os ps _ y

/-- **C100**, stages: cutting a network in two, `net[:k]` and `net[k:]`, and stepping the parts in turn is stepping the network.
The parts share the modules with it: each leaves the states as the network would. -/
theorem C100_stages (renumber : Bool) (os : List (Obj M)) (k : Nat) (σ : M → S) (x : X) :
    ∃ front back, values (apply renumber (positional os) (.slice 0 k)) = .ok front ∧
      values (apply renumber (positional os) (.slice k os.length)) = .ok back ∧
      forwardStep sem ((positional os).map Prod.snd) σ x = (do
        let (y, σ) ← forwardStep sem front σ x
        match y with
        | none => pure (none, σ)
        | some y => forwardStep sem back σ y) := by
  have hv := fun op ha hn => apply_values renumber (positional os) (positional_numbered os).nodup (positional_co os) op ha hn
  refine ⟨_, _, hv (.slice 0 k) trivial (by rintro ⟨o, h⟩; cases h), hv (.slice k os.length) trivial (by rintro ⟨o, h⟩; cases h), ?_⟩
  rw [← forwardStep_append, List.drop_zero, positional_snd]
  have : (os.map asContinual).take os.length = os.map asContinual := by
    rw [List.take_of_length_le]; simp
  rw [this, List.take_append_drop]

/-- **C100 fails** for `net[i] = m` with a module of torch: the container keeps the module as it is, and `forward_step` raises as
soon as the members before it let a frame pass. -/
theorem C100_assign_refuted (renumber : Bool) (os : List (Obj M)) (i : Nat) (hi : i < os.length) (m : M) (σ σ' : M → S) (x y : X)
    (hx : forwardStep sem ((os.map asContinual).take i) σ x = .ok (some y, σ')) :
    ∃ ps, values (applyAll renumber (positional os) [.set i (.plain m)]) = .ok ps ∧ ps[i]? = some (.plain m) ∧
      forwardStep sem ps σ x = .error .type := by
  have hlen : (positional os).length = os.length := by
    rw [← List.length_map Prod.snd, positional_snd, List.length_map]
  have hp : position (positional os).length (i : Int) = .ok i := by
    rw [position_place]
    unfold place
    rw [if_pos (by omega), if_pos (by omega)]
    rfl
  refine ⟨(os.map asContinual).set i (.plain m), ?_, ?_, ?_⟩
  · rw [applyAll_cons, apply_set, hp]
    show Except.ok (((positional os).modify i fun e => (e.1, .plain m)).map Prod.snd) = Except.ok _
    rw [modify_snd, positional_snd]
  · rw [List.getElem?_set_self (by simpa using hi)]
  · rw [List.set_eq_take_append_cons_drop, if_pos (by simpa using hi), forwardStep_append, hx]
    rfl

end run

/-- **C100 fails** for slices of a `BroadcastReduce`: they reduce by summation, whatever the container does. -/
theorem C100_reduce_refuted {X : Type} (sum : List X → X) (r : Reduced M X) (h2 : 1 < r.items.length)
    (ys : List X) (hy : r.reduce ys ≠ sum ys) :
    ∃ r', r.slice sum 0 r.items.length = .ok r' ∧ r'.reduce ys ≠ r.reduce ys := by
  refine ⟨⟨named r.items, sum⟩, ?_, fun h => hy h.symm⟩
  unfold Reduced.slice
  simp only [List.take_length, List.drop_zero]
  rw [if_pos h2]

/-! ### Examples -/

example : values (applyAll true (positional [.co "a", .plain "b", .co "c"]) [.append (.plain "d"), .del (-2), .slice 0 2, .set 1 (.co "e")]) =
    .ok [.co "a", .co "e"] := by
  rw [C100_edits_partial _ _ _ (by
    intro op hop
    fin_cases hop <;> exact ⟨by first | trivial | rfl, trivial⟩)]
  rfl

example : values (applyAll false (positional [.co "a", .co "b", .co "c", .co "d"]) [.slice 1 4, .del 0]) = .ok [.co "c", .co "d"] := by
  rw [C100_no_append_partial _ _ _ (by
    intro op hop
    fin_cases hop <;> exact ⟨trivial, trivial⟩)]
  rfl

/-- `co.Sequential(a, b, c, d)[1:].append(e)` has three members: `e` took the place of `c`. -/
example : values (applyAll true (positional [.co "a", .co "b", .co "c", .co "d"]) [.slice 1 4, .append (.co "e")]) =
    .ok [.co "b", .co "c", .co "e"] := C100_slice_append_refuted true _ 1 4 (by decide) (by decide) (by decide) _

example : values (applyAll false (positional [.co "a", .co "b", .co "c"]) [.del 0, .append (.co "e")]) =
    .ok [.co "b", .co "e"] := C100_delete_append_refuted _ 0 (by decide) _

example : forwardStep (fun (_ : Nat) (s x : Int) => .ok (some (x + s), x)) [.co 0, .co 1] (fun _ => 0) 5 =
    .ok (some 5, fun k => if k = 1 then 5 else if k = 0 then 5 else 0) := rfl

example : (List.foldl max 0 : List Nat → Nat) [1, 2] ≠ List.sum [1, 2] := by decide

end CoInf.Edit
