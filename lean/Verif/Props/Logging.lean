/-
Which messages are emitted: C94.
-/
import Verif.Model.Logging

set_option autoImplicit false

namespace CoInf.Spec
open Logging
variable {N M H : Type}

/-- Was a message with this hash logged under this name after a logger with `log_once=True` was made under it? -/
def Repeated (hash : M → H) (past : List (Action N M)) (n : N) (k : H) : Prop :=
  ∃ a b, past = a ++ .get n true :: b ∧ ∃ msg, Action.log n msg ∈ b ∧ hash msg = k

/-- Is a message emitted, given the actions before? -/
def Emitted (rankIsZero : Bool) (hash : M → H) (past : List (Action N M)) : Action N M → Prop
  | .get _ _ => False
  | .log n msg => (∀ o, Action.get n o ∉ past) ∨ rankIsZero = true ∧ ¬ Repeated hash past n (hash msg)

/-- What a user expects of the two kinds of loggers: `plain` messages are all emitted (on the process of rank zero), messages
that are to be logged once are emitted the first time. -/
def Expected (past : List (Action N M)) (n : N) (msg : M) (logOnce : Bool) : Prop :=
  if logOnce then Action.log n msg ∉ past else True

end CoInf.Spec

namespace CoInf
open Logging Spec
variable {N M H : Type} [DecidableEq N] [DecidableEq H]

/-- Some layer remembers the hash. -/
def Logging.Seen (k : H) (ls : List (Layer H)) : Prop := ∃ mem, Layer.once mem ∈ ls ∧ k ∈ mem

theorem Logging.through_zero (hash : M → H) (msg : M) (ls : List (Layer H)) :
    ((through true hash msg ls).1 = true ↔ ¬ Logging.Seen (hash msg) ls) ∧
    ∀ k, Logging.Seen k (through true hash msg ls).2 ↔ Logging.Seen k ls ∨ (k = hash msg ∧ ∃ mem, Layer.once mem ∈ ls) := by
  induction ls with
  | nil => exact ⟨by simp [through, Logging.Seen], fun k => by simp [through, Logging.Seen]⟩
  | cons l ls ih =>
    obtain ⟨i1, i2⟩ := ih
    cases l with
    | rankZero =>
      have hs : ∀ (k : H) (ls' : List (Layer H)), Logging.Seen k (.rankZero :: ls') ↔ Logging.Seen k ls' := by
        intro k ls'; simp [Logging.Seen]
      simp only [through, if_true, hs]
      exact ⟨i1, fun k => by rw [i2]; simp⟩
    | once mem =>
      have hs : ∀ (k : H) (m' : List H) (ls' : List (Layer H)), Logging.Seen k (.once m' :: ls') ↔ k ∈ m' ∨ Logging.Seen k ls' := by
        intro k m' ls'; simp [Logging.Seen, or_and_right, exists_or]
      simp only [through]
      by_cases h : hash msg ∈ mem
      · rw [if_pos h]
        refine ⟨by simp [hs, h], fun k => ?_⟩
        simp only [hs]
        constructor
        · exact .inl
        · rintro (h' | ⟨rfl, _⟩)
          · exact h'
          · exact .inl h
      · rw [if_neg h]
        refine ⟨by simp only [hs, h, false_or]; exact i1, fun k => ?_⟩
        simp only [hs, i2, List.mem_cons]
        constructor
        · rintro ((rfl | h') | h' | ⟨rfl, h'⟩)
          · exact .inr ⟨rfl, mem, .inl rfl⟩
          · exact .inl (.inl h')
          · exact .inl (.inr h')
          · exact .inr ⟨rfl, mem, .inl rfl⟩
        · rintro ((h' | h') | ⟨rfl, _⟩)
          · exact .inl (.inr h')
          · exact .inr (.inl h')
          · exact .inl (.inl rfl)

theorem Logging.through_onces (r : Bool) (hash : M → H) (msg : M) (ls : List (Layer H)) :
    ((∃ mem, Layer.once mem ∈ (through r hash msg ls).2) ↔ ∃ mem, Layer.once mem ∈ ls) ∧
    ((through r hash msg ls).2 = [] ↔ ls = []) ∧ ((through r hash msg ls).2.head? = some .rankZero ↔ ls.head? = some .rankZero) := by
  induction ls with
  | nil => simp [through]
  | cons l ls ih =>
    cases l with
    | rankZero =>
      simp only [through]
      split
      · simp [ih.1]
      · simp
    | once mem =>
      simp only [through]
      split
      · simp
      · simp only [List.mem_cons, Layer.once.injEq, exists_or]
        simp

/-- What the layers of the loggers know of the past. -/
structure Logging.Knows (r : Bool) (hash : M → H) (past : List (Action N M)) (w : Loggers N H) : Prop where
  none : ∀ n, w n = [] ↔ ∀ o, Action.get n o ∉ past
  head : ∀ n, w n = [] ∨ (w n).head? = some .rankZero
  onces : ∀ n, (∃ mem, Layer.once mem ∈ w n) ↔ Action.get n true ∈ past
  seen : r = true → ∀ n k, Logging.Seen k (w n) ↔ Repeated hash past n k

theorem Logging.repeated_snoc (hash : M → H) (past : List (Action N M)) (a : Action N M) (n : N) (k : H) :
    Repeated hash (past ++ [a]) n k ↔
      Repeated hash past n k ∨ (Action.get n true ∈ past ∧ ∃ msg, a = .log n msg ∧ hash msg = k) := by
  constructor
  · rintro ⟨p, q, e, msg, hm, hk⟩
    rcases List.eq_nil_or_concat q with rfl | ⟨q', c, rfl⟩
    · cases hm
    · rw [List.concat_eq_append, ← List.cons_append, ← List.append_assoc] at e
      obtain ⟨e1, e2⟩ := List.append_inj' e rfl
      cases e2
      rw [List.concat_eq_append, List.mem_append] at hm
      rcases hm with hm | hm
      · exact .inl ⟨p, q', e1, msg, hm, hk⟩
      · rw [List.mem_singleton] at hm
        exact .inr ⟨by rw [e1]; simp, msg, hm.symm, hk⟩
  · rintro (⟨p, q, e, msg, hm, hk⟩ | ⟨hg, msg, rfl, hk⟩)
    · exact ⟨p, q ++ [a], by rw [e]; simp, msg, by simp [hm], hk⟩
    · obtain ⟨p, q, e⟩ := List.append_of_mem hg
      exact ⟨p, q ++ [.log n msg], by rw [e]; simp, msg, by simp, hk⟩

theorem Logging.knows_act {r : Bool} {hash : M → H} {past : List (Action N M)} {w : Loggers N H} (K : Logging.Knows r hash past w)
    (a : Action N M) : Logging.Knows r hash (past ++ [a]) (act r hash w a).2 := by
  cases a with
  | get n o =>
    have hw : ∀ m, (act r hash w (Action.get (M := M) n o)).2 m =
        if m = n then .rankZero :: (if o then .once [] :: w n else w n) else w m := fun _ => rfl
    refine ⟨fun m => ?_, fun m => ?_, fun m => ?_, fun hr m k => ?_⟩
    · rw [hw]
      by_cases hm : m = n
      · subst hm
        simp only [if_true, reduceCtorEq, List.mem_append, List.mem_singleton, Action.get.injEq, true_and, not_or, false_iff]
        exact fun h => (h o).2 rfl
      · rw [if_neg hm, K.none]
        simp [hm]
    · rw [hw]
      by_cases hm : m = n
      · subst hm; simp
      · rw [if_neg hm]; exact K.head m
    · rw [hw]
      by_cases hm : m = n
      · subst hm
        have := K.onces m
        cases o <;> simp [this]
      · rw [if_neg hm, K.onces]
        simp [hm]
    · rw [hw, Logging.repeated_snoc]
      simp only [reduceCtorEq, false_and, exists_false, and_false, or_false]
      rw [← K.seen hr]
      by_cases hm : m = n
      · subst hm
        cases o <;> simp [Logging.Seen]
      · rw [if_neg hm]
  | log n msg =>
    have hw : ∀ m, (act r hash w (.log n msg)).2 m = if m = n then (through r hash msg (w n)).2 else w m := fun _ => rfl
    have ht := Logging.through_onces r hash msg (w n)
    refine ⟨fun m => ?_, fun m => ?_, fun m => ?_, fun hr m k => ?_⟩
    · rw [hw]
      by_cases hm : m = n
      · subst hm
        rw [if_pos rfl, ht.2.1, K.none]
        simp
      · rw [if_neg hm, K.none]
        simp
    · rw [hw]
      by_cases hm : m = n
      · subst hm
        rw [if_pos rfl, ht.2.1, ht.2.2]
        exact K.head m
      · rw [if_neg hm]; exact K.head m
    · rw [hw]
      by_cases hm : m = n
      · subst hm
        rw [if_pos rfl, ht.1, K.onces]
        simp
      · rw [if_neg hm, K.onces]
        simp
    · subst hr
      rw [hw, Logging.repeated_snoc]
      by_cases hm : m = n
      · subst hm
        rw [if_pos rfl, (Logging.through_zero hash msg (w m)).2 k, K.seen rfl, K.onces]
        simp only [Action.log.injEq, true_and]
        constructor
        · rintro (h | ⟨rfl, h⟩)
          · exact .inl h
          · exact .inr ⟨h, msg, rfl, rfl⟩
        · rintro (h | ⟨h, _, rfl, rfl⟩)
          · exact .inl h
          · exact .inr ⟨rfl, h⟩
      · rw [if_neg hm, K.seen rfl]
        simp only [Action.log.injEq]
        refine ⟨.inl, ?_⟩
        rintro (h | ⟨_, _, ⟨h, _⟩, _⟩)
        · exact h
        · exact absurd h.symm hm

theorem Logging.knows_emits {r : Bool} {hash : M → H} {past : List (Action N M)} {w : Loggers N H} (K : Logging.Knows r hash past w)
    (a : Action N M) : (act r hash w a).1 = true ↔ Emitted r hash past a := by
  cases a with
  | get n o => simp [act, Emitted]
  | log n msg =>
    simp only [act, Emitted]
    rcases K.head n with h | h
    · have hn := (K.none n).1 h
      simp [h, through, hn]
    · obtain ⟨ls, hls⟩ : ∃ ls, w n = .rankZero :: ls := by
        cases hw : w n with
        | nil => rw [hw] at h; cases h
        | cons l ls => rw [hw] at h; cases h; exact ⟨ls, rfl⟩
      have hn : ¬ ∀ o, Action.get n o ∉ past := fun hc => by
        have := (K.none n).2 hc
        rw [hls] at this
        cases this
      cases r with
      | false =>
        rw [hls]
        exact ⟨fun hc => by simp [through] at hc, fun hc => hc.elim (fun h => absurd h hn) fun h => absurd h.1 (by simp)⟩
      | true =>
        rw [(Logging.through_zero hash msg (w n)).1, K.seen rfl]
        exact ⟨fun h => .inr ⟨rfl, h⟩, fun hc => hc.elim (fun h => absurd h hn) fun h => h.2⟩

/-- **C94**, exactly: whatever loggers an application makes and whatever it logs in whatever order, a message is emitted exactly if
no logger of its name was made by the package, or the process has rank zero and no message with the same hash was logged under
that name since the first logger with `log_once=True` was made under it. -/
theorem C94_exact (r : Bool) (hash : M → H) (as : List (Action N M)) :
    (acts r hash start as).length = as.length ∧
    ∀ i (hi : i < as.length), (acts r hash start as)[i]? = some true ↔ Emitted r hash (as.take i) as[i] := by
  have K0 : Logging.Knows r hash ([] : List (Action N M)) (start : Loggers N H) :=
    ⟨fun n => by simp [start], fun n => .inl rfl, fun n => by simp [start],
      fun _ n k => by simp [start, Logging.Seen, Repeated]⟩
  suffices h : ∀ (as past : List (Action N M)) (w : Loggers N H), Logging.Knows r hash past w →
      (acts r hash w as).length = as.length ∧
      ∀ i (hi : i < as.length), (acts r hash w as)[i]? = some true ↔ Emitted r hash (past ++ as.take i) as[i] by
    simpa using h as [] start K0
  intro as
  induction as with
  | nil => exact fun _ _ _ => ⟨rfl, fun i hi => absurd hi (by simp)⟩
  | cons a as ih =>
    intro past w K
    obtain ⟨l, h⟩ := ih (past ++ [a]) _ (Logging.knows_act K a)
    refine ⟨by simp [acts, l], fun i hi => ?_⟩
    cases i with
    | zero => simpa [acts] using Logging.knows_emits K a
    | succ i =>
      have := h i (by simpa using hi)
      simpa [acts] using this

/-- **C94**, messages to be logged once: on the process of rank zero, and if the hashes of messages differ, a message on a logger
made with `log_once=True` as the first of its name is emitted exactly the first time. -/
theorem C94_once_partial (hash : M → H) (hinj : Function.Injective hash) (n : N) (past : List (Action N M)) (msg : M) :
    Emitted true hash (.get n true :: past) (.log n msg) ↔ Expected past n msg true := by
  simp only [Emitted, Expected, if_true, true_and]
  constructor
  · rintro (h | h)
    · exact absurd (List.mem_cons_self) (h true)
    · exact fun hc => h ⟨[], past, rfl, msg, hc, rfl⟩
  · intro h
    refine .inr ?_
    rintro ⟨a, b, e, m', hm, hk⟩
    rw [hinj hk] at hm
    apply h
    cases a with
    | nil => cases e; exact hm
    | cons c a =>
      injection e with _ e
      rw [e]; simp [hm]

/-- **C94 fails** for the other loggers: once any module has made a logger with `log_once=True` under the same name (as the two
attention modules do for their own), repeated messages of the plain logger are dropped as well. -/
theorem C94_plain_refuted (r : Bool) (hash : M → H) (n : N) (a b : List (Action N M)) (msg : M) (h : Action.log n msg ∈ b) :
    ¬ Emitted r hash (.get n false :: a ++ .get n true :: b) (.log n msg) ∧
    Expected (.get n false :: a ++ .get n true :: b) n msg false := by
  refine ⟨?_, by simp [Expected]⟩
  rintro (hc | ⟨_, hc⟩)
  · exact hc true (by simp)
  · exact hc ⟨.get n false :: a, b, rfl, msg, h, rfl⟩

/-- **C94 fails** for messages whose hashes are the same: the second is never emitted. -/
theorem C94_hash_refuted (hash : M → H) (n : N) (msg msg' : M) (hne : msg ≠ msg') (hh : hash msg = hash msg') :
    acts true hash start [.get n true, .log n msg, .log n msg'] = [false, true, false] ∧
    Expected [.get n true, Action.log n msg] n msg' true := by
  constructor
  · simp [acts, act, start, through, hh]
  · simp [Expected, Ne.symm hne]

/-- The module of an attention: both loggers under one name; the plain one then warns once only. -/
example : acts true (id : Nat → Nat) start
    [.get "mha" false, .log "mha" 7, .log "mha" 7, .get "mha" true, .log "mha" 7, .log "mha" 7, .log "mha" 8, .log "conv" 7] =
    [false, true, true, false, true, false, true, true] := by decide +kernel

/-! ### Several processes -/

/-- The rank of a process, where anything knows of it: that of horovod, otherwise that of Lightning. -/
def Spec.rankOf (p : Process) : Option Nat := p.horovod <|> p.lightning

/-- **C94**, several processes with Lightning that log the same: if their ranks differ and one of them is zero, then a message that is
logged for the first time on a logger of the package is emitted by exactly one of them. -/
theorem C94_processes_partial (hash : M → H) (ps : List Process) (hl : ∀ p ∈ ps, p.lightning.isSome)
    (hd : (ps.map rankOf).Nodup) (h0 : some 0 ∈ ps.map rankOf) (as : List (Action N M)) {i : Nat} (hi : i < as.length) {n : N} {msg : M}
    (ha : as[i] = .log n msg) {o : Bool} (hg : Action.get n o ∈ as.take i) (hr : ¬ Repeated hash (as.take i) n (hash msg)) :
    ∃! k : Nat, ∃ p, ps[k]? = some p ∧ (runOn p hash as)[i]? = some true := by
  have key : ∀ p ∈ ps, ((runOn p hash as)[i]? = some true ↔ rankOf p = some 0) := by
    intro p hp
    rw [runOn, (C94_exact (processRank p == 0) hash as).2 i hi, ha]
    have e : rankOf p = some (processRank p) := by
      have := hl p hp
      obtain ⟨l, h⟩ := p
      cases l with
      | none => simp at this
      | some r => cases h <;> rfl
    rw [e]
    constructor
    · rintro (h | ⟨h, -⟩)
      · exact absurd hg (h o)
      · simpa using h
    · intro h
      exact .inr ⟨by simpa using h, hr⟩
  obtain ⟨p, hp, h0⟩ := List.mem_map.1 h0
  obtain ⟨k, hk, rfl⟩ := List.getElem_of_mem hp
  refine ⟨k, ⟨ps[k], by simp, (key _ hp).2 h0⟩, ?_⟩
  rintro k' ⟨q, hq, h⟩
  obtain ⟨hk', rfl⟩ := List.getElem?_eq_some_iff.1 hq
  have h := (key _ (List.getElem_mem hk')).1 h
  exact (List.getElem_inj (h₀ := by simpa using hk') (h₁ := by simpa using hk) hd).1 (by simp [h, h0])

/-- **C94 fails** without Lightning: horovod is asked for the rank only if Lightning is installed, and every process emits the message,
whatever its rank. -/
theorem C94_processes_refuted (hash : M → H) (ps : List Process) (hl : ∀ p ∈ ps, p.lightning = none) (n : N) (msg : M) (o : Bool) :
    ∀ p ∈ ps, runOn p hash [.get n o, .log n msg] = [false, true] := by
  intro p hp
  have : processRank p = 0 := by simp [processRank, hl p hp]
  cases o <;> simp [runOn, this, acts, act, start, through]

/-- Two processes of horovod, with and without Lightning. -/
example : (runOn ⟨some 0, some 0⟩ id [.get "co" false, .log "co" 7], runOn ⟨some 0, some 1⟩ id [.get "co" false, .log "co" 7]) =
      ([false, true], [false, false]) ∧
    (runOn ⟨none, some 0⟩ id [.get "co" false, .log "co" 7], runOn ⟨none, some 1⟩ id [.get "co" false, .log "co" 7]) =
      ([false, true], [false, true]) := by decide +kernel

/-- The hypotheses are met by two such processes. -/
example : ∃! k : Nat, ∃ p, [(⟨some 0, some 1⟩ : Process), ⟨some 0, some 0⟩][k]? = some p ∧
    (runOn p id [.get "co" true, .log "co" 7])[1]? = some true :=
  C94_processes_partial id _ (by decide) (by decide) (by decide) _ (i := 1) (by decide) (n := "co") (msg := 7) rfl (o := true) (by decide)
    (by rintro ⟨a, b, e, m', hm, -⟩
        cases a with
        | nil => cases e; exact absurd hm List.not_mem_nil
        | cons x a => simp at e)

end CoInf
