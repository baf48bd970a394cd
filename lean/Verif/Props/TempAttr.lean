/-
C108: `temporary_parameter` sets an attribute for the time of a block.
-/
import Verif.Model.TempAttr

set_option autoImplicit false

namespace CoInf
open TempAttr

namespace Spec
variable {D : Type}

/-- What can be seen of the objects: their attributes, whoever holds them. -/
abbrev Seen (D : Type) := Nat → String → Option (Val D)

/-- The attributes of an object are its own, and otherwise those of its class. -/
def seenOf (h : Heap D) : Seen D := fun o n => ((h o).own n).or ((h o).cls n)

/-- Following a path. -/
def follow (s : Seen D) : Val D → List String → Option (Val D)
  | v, [] => some v
  | .data _, _ :: _ => none
  | .obj o, n :: ns => (s o n).bind fun v => follow s v ns

/-- The same, with another value for one attribute of one object. -/
def instead (s : Seen D) (o : Nat) (n : String) (v : Val D) : Seen D := fun o' n' => if o' = o ∧ n' = n then some v else s o' n'

/-- What a block ought to read and raise: inside `with temporary_parameter(...)` the attribute has the other value, outside nothing
happened. -/
def meaning : Block D → Seen D → List (Option (Val D)) × Option Err
  | .done, _ => ([], none)
  | .read o path rest, s => (follow s (.obj o) path :: (meaning rest s).1, (meaning rest s).2)
  | .raise e, _ => ([], some e)
  | .temp o a val body rest, s =>
    match follow s (.obj o) a.pre with
    | some (.obj p) =>
      if a.pre ≠ [] ∧ s p a.post = none then ([], some .assertion)
      else
        let r := meaning body (instead s p a.post val)
        match r.2 with
        | some e => (r.1, some e)
        | none => (r.1 ++ (meaning rest s).1, (meaning rest s).2)
    | _ => ([], some .assertion)

/-- What is seen when the block is left by an exception: the values in force at that time. -/
def inForce : Block D → Seen D → Seen D
  | .done, s => s
  | .read _ _ rest, s => inForce rest s
  | .raise _, s => s
  | .temp o a val body rest, s =>
    match follow s (.obj o) a.pre with
    | some (.obj p) =>
      if a.pre ≠ [] ∧ s p a.post = none then s
      else if (meaning body (instead s p a.post val)).2.isSome then inForce body (instead s p a.post val)
      else inForce rest s
    | _ => s

/-- The way to each attribute that is set does not lead over that attribute. -/
def NoLoop : Block D → Seen D → Prop
  | .done, _ => True
  | .read _ _ rest, s => NoLoop rest s
  | .raise _, _ => True
  | .temp o a val body rest, s =>
    (∀ p, follow s (.obj o) a.pre = some (.obj p) →
      follow (instead s p a.post val) (.obj o) a.pre = some (.obj p) ∧ NoLoop body (instead s p a.post val)) ∧ NoLoop rest s

/-- All attributes are set directly at an object, as the library does. -/
def Direct : Block D → Prop
  | .done => True
  | .read _ _ rest => Direct rest
  | .raise _ => True
  | .temp _ a _ body rest => a.pre = [] ∧ Direct body ∧ Direct rest

end Spec

namespace TempAttr
open Spec
variable {D : Type}

theorem get_seen (h : Heap D) (o : Nat) (n : String) : get h (.obj o) n = match seenOf h o n with
    | some v => .ok v
    | none => .error .attribute := by
  simp only [get, seenOf]
  cases (h o).own n with
  | some v => rfl
  | none => cases (h o).cls n <;> rfl

theorem rget_follow (h : Heap D) (path : List String) : ∀ v, rget h v path = match follow (seenOf h) v path with
    | some v => .ok v
    | none => .error .attribute := by
  induction path with
  | nil => intro v; cases v <;> rfl
  | cons n ns ih =>
    intro v
    cases v with
    | data d => rfl
    | obj o =>
      simp only [rget, get_seen, follow]
      cases seenOf h o n with
      | none => rfl
      | some w => exact ih w

theorem follow_append (s : Seen D) (p : List String) (n : String) : ∀ v, follow s v (p ++ [n]) =
    (follow s v p).bind fun w => match w with
      | .obj o => s o n
      | .data _ => none := by
  induction p with
  | nil =>
    intro v
    cases v with
    | data d => rfl
    | obj o => simp only [List.nil_append, follow, Option.bind_some]; cases s o n <;> rfl
  | cons m ms ih =>
    intro v
    cases v with
    | data d => rfl
    | obj o =>
      simp only [List.cons_append, follow]
      cases s o m with
      | none => rfl
      | some w => exact ih w

/-- `h'` came from `h` by assignments to attributes. -/
structure Grown (h h' : Heap D) : Prop where
  cls : ∀ o, (h' o).cls = (h o).cls
  own : ∀ o n, ((h o).own n).isSome → ((h' o).own n).isSome

theorem Grown.refl (h : Heap D) : Grown h h := ⟨fun _ => rfl, fun _ _ e => e⟩

theorem Grown.trans {a b c : Heap D} (x : Grown a b) (y : Grown b c) : Grown a c :=
  ⟨fun o => (y.cls o).trans (x.cls o), fun o n e => y.own o n (x.own o n e)⟩

theorem grown_write (h : Heap D) (o : Nat) (n : String) (v : Val D) : Grown h (write h o n (some v)) := by
  refine ⟨fun o' => ?_, fun o' n' e => ?_⟩
  · simp only [write]
    split
    · next e => rw [e]
    · rfl
  · simp only [write]
    split
    · next e1 =>
      subst e1
      simp only
      split
      · rfl
      · exact e
    · exact e

theorem seen_write (h : Heap D) (o : Nat) (n : String) (v : Val D) : seenOf (write h o n (some v)) = instead (seenOf h) o n v := by
  funext o' n'
  simp only [seenOf, write, instead]
  by_cases e1 : o' = o
  · subst e1
    by_cases e2 : n' = n
    · simp [e2]
    · simp [e2]
  · simp [e1]

theorem instead_instead (s : Seen D) (o : Nat) (n : String) (v w : Val D) : instead (instead s o n v) o n w = instead s o n w := by
  funext o' n'
  simp only [instead]
  split <;> rfl

theorem instead_self (s : Seen D) (o : Nat) (n : String) (v : Val D) (h : s o n = some v) : instead s o n v = s := by
  funext o' n'
  simp only [instead]
  split
  · next e => rw [e.1, e.2, h]
  · rfl

/-- What was read, without the name of the exception. -/
def opt {α : Type} : Except Err α → Option α
  | .ok a => some a
  | .error _ => none

/-- The main lemma: a block does what it means. -/
theorem run_meaning (b : Block D) : ∀ h, NoLoop b (seenOf h) →
    (run b h).seen.map opt = (meaning b (seenOf h)).1 ∧ (run b h).exc = (meaning b (seenOf h)).2 ∧
    seenOf (run b h).heap = (if (meaning b (seenOf h)).2.isSome then inForce b (seenOf h) else seenOf h) ∧ Grown h (run b h).heap := by
  induction b with
  | done => intro h _; exact ⟨by trivial, by trivial, by trivial, Grown.refl h⟩
  | read o path rest ih =>
    intro h hn
    obtain ⟨i1, i2, i3, i4⟩ := ih h hn
    refine ⟨?_, i2, i3, i4⟩
    simp only [run, End.after, meaning, List.map_append, List.map_cons, List.map_nil, i1, rget_follow]
    cases follow (seenOf h) (.obj o) path <;> rfl
  | raise e => intro h _; exact ⟨by trivial, by trivial, by trivial, Grown.refl h⟩
  | temp o a val body rest ihb ihr =>
    intro h hn
    obtain ⟨hp, hr⟩ := hn
    cases hf : follow (seenOf h) (.obj o) a.pre with
    | none =>
      have hne : a.pre ≠ [] := by
        intro e
        rw [e] at hf
        cases hf
      have e1 : rget h (.obj o) (a.pre ++ [a.post]) = .error .attribute := by
        rw [rget_follow, follow_append, hf]; rfl
      simp only [run, e1, if_pos hne, meaning, inForce, hf]
      exact ⟨by trivial, by trivial, by trivial, Grown.refl h⟩
    | some w =>
      cases w with
      | data d =>
        have hne : a.pre ≠ [] := by
          intro e
          rw [e] at hf
          cases hf
        have e1 : rget h (.obj o) (a.pre ++ [a.post]) = .error .attribute := by
          rw [rget_follow, follow_append, hf]; rfl
        simp only [run, e1, if_pos hne, meaning, inForce, hf]
        exact ⟨by trivial, by trivial, by trivial, Grown.refl h⟩
      | obj p =>
        obtain ⟨hl, hb⟩ := hp p hf
        have es : rset h (.obj o) a val = .ok (write h p a.post (some val)) := by
          simp only [rset, rget_follow, hf, set]
        have sw := seen_write h p a.post val
        obtain ⟨b1, b2, b3, b4⟩ := ihb (write h p a.post (some val)) (by rw [sw]; exact hb)
        rw [sw] at b1 b2 b3
        obtain ⟨r1, r2, r3, r4⟩ := ihr h hr
        cases hs : seenOf h p a.post with
        | none =>
          have e1 : rget h (.obj o) (a.pre ++ [a.post]) = .error .attribute := by
            rw [rget_follow, follow_append, hf]
            simp [hs]
          by_cases hne : a.pre = []
          · have hpo : p = o := by
              rw [hne] at hf
              injection hf with hf
              injection hf with hf
              exact hf.symm
            subst hpo
            rw [hne] at e1 hf
            simp only [run, e1, meaning, inForce, hf, hne, ne_eq, not_true_eq_false, if_false, false_and, es]
            cases he : (meaning body (instead (seenOf h) p a.post val)).2 with
            | some e =>
              rw [he] at b2 b3
              simp only [b2]
              exact ⟨b1, by trivial, by simpa using b3, (grown_write h p a.post val).trans b4⟩
            | none =>
              rw [he] at b2 b3
              simp only [b2]
              have hown : ((run body (write h p a.post (some val))).heap p).own a.post ≠ none := by
                have := b4.own p a.post (by simp [write])
                intro e
                rw [e] at this
                cases this
              have no : (h p).own a.post = none ∧ (h p).cls a.post = none := by
                simp only [seenOf] at hs
                cases h1 : (h p).own a.post with
                | some v => rw [h1] at hs; cases hs
                | none => rw [h1] at hs; exact ⟨rfl, hs⟩
              obtain ⟨v, hv⟩ := Option.ne_none_iff_exists'.mp hown
              have ed : del (run body (write h p a.post (some val))).heap (.obj p) a.post =
                  .ok (write (run body (write h p a.post (some val))).heap p a.post none) := by
                simp only [del, hv]
              -- the heap after `delattr` looks like the one before
              have hcls : ∀ o', ((run body (write h p a.post (some val))).heap o').cls = (h o').cls := fun o' =>
                (b4.cls o').trans ((grown_write h p a.post val).cls o')
              have s2 : seenOf (write (run body (write h p a.post (some val))).heap p a.post none) = seenOf h := by
                funext o' n'
                have b3' := congrFun (congrFun b3 o') n'
                simp only [instead, Option.isSome_none, Bool.false_eq_true, if_false] at b3'
                by_cases q1 : o' = p
                · subst q1
                  by_cases q2 : n' = a.post
                  · subst q2
                    simp only [seenOf, write, if_true, hcls, no.1, no.2]
                  · rw [if_neg (fun e => q2 e.2)] at b3'
                    rw [← b3']
                    simp [seenOf, write, q2]
                · rw [if_neg (fun e => q1 e.1)] at b3'
                  rw [← b3']
                  simp [seenOf, write, q1]
              have g2 : Grown h (write (run body (write h p a.post (some val))).heap p a.post none) := by
                refine ⟨fun o' => ?_, fun o' n' e => ?_⟩
                · simp only [write]
                  split
                  · next q => rw [q]; exact hcls p
                  · exact hcls o'
                · have e' := ((grown_write h p a.post val).trans b4).own o' n' e
                  simp only [write]
                  split
                  · next q =>
                    subst q
                    simp only
                    split
                    · next q2 => subst q2; rw [no.1] at e; cases e
                    · exact e'
                  · exact e'
              obtain ⟨r1, r2, r3, r4⟩ := ihr _ (by rw [s2]; exact hr)
              rw [s2] at r1 r2 r3
              simp only [ed, End.after, List.map_append, b1, r1, Option.isSome_none, Bool.false_eq_true, if_false]
              exact ⟨by trivial, r2, r3, g2.trans r4⟩
          · simp only [run, e1, meaning, inForce, hf, hs, if_pos hne, ne_eq, hne, not_false_eq_true, and_self, if_true]
            exact ⟨by trivial, by trivial, by trivial, Grown.refl h⟩
        | some prev =>
          have e1 : rget h (.obj o) (a.pre ++ [a.post]) = .ok prev := by
            rw [rget_follow, follow_append, hf]
            simp [hs]
          simp only [run, e1, meaning, inForce, hf, hs, es, reduceCtorEq, and_false, if_false]
          cases he : (meaning body (instead (seenOf h) p a.post val)).2 with
          | some e =>
            rw [he] at b2 b3
            simp only [b2]
            exact ⟨b1, by trivial, by simpa using b3, (grown_write h p a.post val).trans b4⟩
          | none =>
            rw [he] at b2 b3
            simp only [b2]
            simp only [Option.isSome_none, Bool.false_eq_true, if_false] at b3
            have ed : rset (run body (write h p a.post (some val))).heap (.obj o) a prev =
                .ok (write (run body (write h p a.post (some val))).heap p a.post (some prev)) := by
              simp only [rset, rget_follow, b3, hl, set]
            have s2 : seenOf (write (run body (write h p a.post (some val))).heap p a.post (some prev)) = seenOf h := by
              rw [seen_write, b3, instead_instead, instead_self _ _ _ _ hs]
            obtain ⟨r1, r2, r3, r4⟩ := ihr _ (by rw [s2]; exact hr)
            rw [s2] at r1 r2 r3
            simp only [ed, End.after, List.map_append, b1, r1, Option.isSome_none, Bool.false_eq_true, if_false]
            exact ⟨by trivial, r2, r3, ((grown_write h p a.post val).trans b4).trans ((grown_write _ p a.post prev).trans r4)⟩

theorem noLoop_of_direct (b : Block D) : ∀ s, Direct b → NoLoop b s := by
  induction b with
  | done => intros; trivial
  | raise e => intros; trivial
  | read o path rest ih => intro s h; exact ih s h
  | temp o a val body rest ihb ihr =>
    intro s h
    refine ⟨fun p hp => ⟨?_, ihb _ h.2.1⟩, ihr s h.2.2⟩
    rw [h.1] at hp ⊢
    exact hp

end TempAttr

open Spec
variable {D : Type}

/-- C108: a block reads and raises what it should; after a block without an exception all attributes of all objects are as before. -/
theorem C108_restored_partial (b : Block D) (h : Heap D) (hd : NoLoop b (seenOf h)) :
    (run b h).seen.map TempAttr.opt = (meaning b (seenOf h)).1 ∧ (run b h).exc = (meaning b (seenOf h)).2 ∧
    ((run b h).exc = none → seenOf (run b h).heap = seenOf h) := by
  obtain ⟨h1, h2, h3, _⟩ := TempAttr.run_meaning b h hd
  refine ⟨h1, h2, fun e => ?_⟩
  rw [h3, ← h2, e]
  rfl

/-- C108: after an exception all the values in force when it was raised stay. -/
theorem C108_raised_exact (b : Block D) (h : Heap D) (hd : NoLoop b (seenOf h)) (he : (run b h).exc ≠ none) :
    seenOf (run b h).heap = inForce b (seenOf h) := by
  obtain ⟨_, h2, h3, _⟩ := TempAttr.run_meaning b h hd
  rw [h3, ← h2, if_pos (Option.isSome_iff_ne_none.mpr he)]

/-- C108: attributes that are set directly at an object are no loops. -/
theorem C108_direct (b : Block D) (s : Seen D) (h : Direct b) : NoLoop b s := TempAttr.noLoop_of_direct b s h

/-- Objects refer to lower objects only. -/
def Spec.Layered (rank : Nat → Nat) (s : Seen D) : Prop := ∀ o n o', s o n = some (.obj o') → rank o' < rank o

/-- The values set for a time are not objects. -/
def Spec.PlainValues : Block D → Prop
  | .done => True
  | .read _ _ rest => PlainValues rest
  | .raise _ => True
  | .temp _ _ val body rest => (∃ d, val = .data d) ∧ PlainValues body ∧ PlainValues rest

theorem TempAttr.follow_layered (rank : Nat → Nat) (s : Seen D) (hs : Layered rank s) (path : List String) : ∀ o p,
    follow s (.obj o) path = some (.obj p) → (path = [] ∧ o = p) ∨ rank p < rank o := by
  induction path with
  | nil =>
    intro o p h
    injection h with h
    injection h with h
    exact .inl ⟨rfl, h⟩
  | cons n ns ih =>
    intro o p h
    simp only [follow] at h
    cases e : s o n with
    | none => rw [e] at h; cases h
    | some v =>
      rw [e] at h
      cases v with
      | data d => cases ns <;> cases h
      | obj q =>
        have h1 := hs o n q e
        rcases ih q p h with ⟨_, rfl⟩ | h2
        · exact .inr h1
        · exact .inr (by omega)

theorem TempAttr.follow_instead (rank : Nat → Nat) (s : Seen D) (hs : Layered rank s) (name : String) (v : Val D) (p : Nat)
    (path : List String) : ∀ o, follow s (.obj o) path = some (.obj p) → follow (instead s p name v) (.obj o) path = some (.obj p) := by
  induction path with
  | nil => intro o h; exact h
  | cons n ns ih =>
    intro o h
    have hlt : rank p < rank o := by
      rcases TempAttr.follow_layered rank s hs (n :: ns) o p h with ⟨h, _⟩ | h
      · cases h
      · exact h
    simp only [follow] at h ⊢
    have : instead s p name v o n = s o n := by
      simp only [instead]
      rw [if_neg]
      rintro ⟨rfl, _⟩
      omega
    rw [this]
    cases e : s o n with
    | none => rw [e] at h; cases h
    | some w =>
      rw [e] at h
      cases w with
      | data d => cases ns <;> cases h
      | obj q => exact ih q h

/-- C108: there are no loops either if no object refers to itself over others and the values set are not objects. -/
theorem C108_layered (rank : Nat → Nat) (b : Block D) : ∀ (s : Seen D), Layered rank s → PlainValues b → NoLoop b s := by
  induction b with
  | done => intros; trivial
  | raise e => intros; trivial
  | read o path rest ih => intro s h1 h2; exact ih s h1 h2
  | temp o a val body rest ihb ihr =>
    intro s h1 h2
    obtain ⟨⟨d, rfl⟩, hb, hr⟩ := h2
    refine ⟨fun p hp => ⟨TempAttr.follow_instead rank s h1 a.post (.data d) p a.pre o hp, ihb _ ?_ hb⟩, ihr s h1 hr⟩
    intro o' n' q hq
    simp only [instead] at hq
    split at hq
    · cases hq
    · exact h1 o' n' q hq

/-- C108, the full claim fails: after an exception the attribute keeps the other value. -/
theorem C108_raised_refuted : ¬ ∀ (b : Block Nat) (h : Heap Nat), Direct b → seenOf (run b h).heap = seenOf h := by
  intro H
  have := congrFun (congrFun (H (.temp 0 ⟨[], "padding"⟩ (.data 3) (.raise .runtime) .done)
    (fun _ => ⟨fun _ => some (.data 0), fun _ => none⟩) ⟨rfl, trivial, trivial⟩) 0) "padding"
  have e : some (Val.data 3) = some (Val.data 0) := this
  injection e with e
  injection e with e
  cases e

/-- C108, the full claim fails: `temporary_parameter(o, "a.a", v)` for an object with `o.a is o` does not restore anything: here it
raises. -/
theorem C108_loop_refuted : ¬ ∀ (b : Block Nat) (h : Heap Nat), (run b h).exc = (meaning b (seenOf h)).2 := by
  intro H
  have := H (.temp 0 ⟨["a"], "a"⟩ (.data 3) .done .done) (fun _ => ⟨fun _ => some (.obj 0), fun _ => none⟩)
  have e : some Err.attribute = none := this
  cases e

/-- C108, the full claim fails: an attribute of the class becomes one of the object, so that later assignments to the class are not seen
any more (`Delay.forward_steps` does this to `padding`). -/
theorem C108_class_refuted : ¬ ∀ (b : Block Nat) (h : Heap Nat), Direct b → (run b h).exc = none → ∀ o n,
    ((run b h).heap o).own n = (h o).own n := by
  intro H
  have := H (.temp 0 ⟨[], "padding"⟩ (.data 3) .done .done) (fun _ => ⟨fun _ => none, fun _ => some (.data 0)⟩) ⟨rfl, trivial, trivial⟩ rfl 0
    "padding"
  have e : some (Val.data 0) = none := this
  cases e

/-- An example: two blocks inside each other, an attribute that is missing outside, and reads before, inside and after. -/
example : (run (D := Nat) (.temp 0 ⟨["conv"], "mode"⟩ (.data 1) (.read 1 ["mode"] (.temp 0 ⟨[], "new"⟩ (.data 2) (.read 0 ["new"] .done) .done))
    (.read 1 ["mode"] (.read 0 ["new"] .done)))
    (fun o => ⟨fun n => if o = 0 then (if n = "conv" then some (.obj 1) else none) else if n = "mode" then some (.data 0) else none,
      fun _ => none⟩)).seen = [.ok (.data 1), .ok (.data 2), .ok (.data 0), .error .attribute] := rfl

end CoInf
