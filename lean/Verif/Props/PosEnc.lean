/-
Property C31 (and the part of C25 about positional encodings).
-/
import Verif.Model.PosEnc
import Verif.Spec.PosEnc
import Verif.Spec.Observe
import Verif.Lemmas.Refine
import Verif.Lemmas.Ring
import Verif.Lemmas.Sequential
import Mathlib.Data.Int.ModEq

set_option autoImplicit false

namespace CoInf
open Spec
variable {V : Type}

namespace PosEnc
variable (c : Cfg V)

/-- Object that has consumed `k` frames. -/
def at_ (k : Nat) : Int := ((k % c.emb.length : Nat) : Int)

theorem lookup_eq (h : c.emb ≠ []) (k : Nat) : ∃ e, c.emb[k % c.emb.length]? = some e ∧
    lookup c ((k : Int) % c.N) = .ok e := by
  have hl : k % c.emb.length < c.emb.length := Nat.mod_lt _ (List.length_pos_iff.2 h)
  refine ⟨_, List.getElem?_eq_getElem hl, ?_⟩
  unfold lookup Cfg.N
  rw [← Int.natCast_emod]
  exact pyGet_ofNat (List.getElem?_eq_getElem hl)

theorem recycled_cons (k : Nat) (x : V) (xs : List V) {e : V} (he : c.emb[k % c.emb.length]? = some e) :
    recycled c.add c.emb k (x :: xs) = c.add x e :: recycled c.add c.emb (k + 1) xs := by
  simp [recycled, List.zipIdx_cons, he]

theorem recycled_append (k : Nat) (xs ys : List V) :
    recycled c.add c.emb k (xs ++ ys) = recycled c.add c.emb k xs ++ recycled c.add c.emb (k + xs.length) ys := by
  simp only [recycled, List.zipIdx_append, List.filterMap_append]

theorem at_cast (k : Nat) : at_ c k = (k : Int) % c.N := by simp [at_, Cfg.N]

theorem addFrom_eq (h : c.emb ≠ []) (k : Nat) (xs : List V) : ∀ t : Nat,
    addFrom c (at_ c k) t xs = .ok (recycled c.add c.emb (k + t) xs) := by
  induction xs with
  | nil => intro t; rfl
  | cons x xs ih =>
    intro t
    obtain ⟨e, h1, h2⟩ := lookup_eq c h (k + t)
    have : ((t : Int) + at_ c k) % c.N = ((k + t : Nat) : Int) % c.N := by
      rw [at_cast, Int.add_emod_emod]; congr 1; push_cast; ring
    unfold addFrom
    rw [this, h2, ih (t + 1), recycled_cons c _ x xs h1]
    rfl

theorem forward_eq (h : c.emb ≠ []) (k : Nat) (xs : List V) (hx : xs.length ≤ c.emb.length) (u : Option Int) :
    forward c (at_ c k) xs u = .ok (recycled c.add c.emb k xs, ((k : Int) + u.getD c.fwdUpd) % c.N) := by
  unfold forward
  rw [if_neg (by simp [Cfg.N]; omega), addFrom_eq c h k xs 0, at_cast, Int.emod_add_emod]
  rfl

theorem step_eq (h : c.emb ≠ []) (k : Nat) (u : Bool) (x : V) :
    ∃ y, recycled c.add c.emb k [x] = [y] ∧
      forwardStep c (at_ c k) u x = .ok (some y, if u then at_ c (k + 1) else at_ c k) := by
  obtain ⟨e, h1, h2⟩ := lookup_eq c h k
  refine ⟨c.add x e, by rw [recycled_cons c _ _ _ h1]; rfl, ?_⟩
  unfold forwardStep
  rw [at_cast, h2]
  simp only
  rw [at_cast]
  rw [Int.emod_add_emod]; push_cast; rfl

theorem steps_eq (h : c.emb ≠ []) (k : Nat) (p u : Bool) (xs : List V) (hx : xs.length ≤ c.emb.length) :
    forwardSteps c (at_ c k) p u xs =
      .ok (some (recycled c.add c.emb k xs), if u then at_ c (k + xs.length) else at_ c k) := by
  unfold forwardSteps
  rw [forward_eq c h k xs hx]
  cases u with
  | true => simp only [if_true, Option.getD_some, at_cast]; push_cast; rfl
  | false => simp only [Bool.false_eq_true, if_false, Option.getD_some, at_cast, Int.add_zero]

end PosEnc

open PosEnc

/-- Calls of a script that belong to streaming and have at most `n` frames; `forward` is excluded. -/
def Spec.Op.upTo {X : Type} (n : Nat) : Op X → Prop
  | .steps _ xs => xs.length ≤ n
  | .fwd _ => False
  | _ => True

/-- What the specification returns for one call at position `k`. -/
def PosEnc.expected (c : Cfg V) (k : Nat) : Op V → Res V
  | .step _ x => .frame (recycled c.add c.emb k [x]).head?
  | .steps _ xs => .clip (some (recycled c.add c.emb k xs))
  | _ => .done

/-- Results and final position of a script according to the specification. -/
def PosEnc.expectedAll (c : Cfg V) : List V → List (Op V) → List (Res V) × List V
  | h, [] => ([], h)
  | h, op :: ops => let r := expectedAll c (op.hist h) ops; (expected c h.length op :: r.1, r.2)

/-- **C31.** From the object that has consumed the frames `h` since it was cleaned, every script of `forward_step`,
`forward_steps` (each at most `num_embeds` frames) and `clean_state` calls with any flags runs without exception; a frame
that is at position `n` since the last `clean_state` is combined with embedding `n mod num_embeds`; and the object
afterwards is the one that has consumed the resulting history. -/
theorem C31_scripts (c : Cfg V) (hN : c.emb ≠ []) (ops : List (Op V)) (hops : ∀ op ∈ ops, op.upTo c.emb.length) (h : List V) :
    run (mod c) (at_ c h.length) ops =
      .ok ((expectedAll c h ops).1, at_ c (expectedAll c h ops).2.length) := by
  induction ops generalizing h with
  | nil => rfl
  | cons op ops ih =>
    have key : run1 (mod c) (at_ c h.length) op = .ok (expected c h.length op, at_ c (op.hist h).length) := by
      have hop := hops op (by simp)
      cases op with
      | step u x =>
        obtain ⟨y, h1, h2⟩ := step_eq c hN h.length u x
        show (forwardStep c _ u x >>= _) = _
        rw [h2, ok_bind]
        simp only [expected, h1]
        cases u <;> simp [Op.hist, pure, Except.pure]
      | steps u xs =>
        show (forwardSteps c _ false u xs >>= _) = _
        rw [steps_eq c hN h.length false u xs hop, ok_bind]
        cases u <;> simp [Op.hist, pure, Except.pure, expected]
      | clean => rfl
      | fwd xs => exact hop.elim
    show (run1 (mod c) _ op >>= _) = _
    rw [key, ok_bind]
    show (run (mod c) _ ops >>= _) = _
    rw [ih (fun o ho => hops o (by simp [ho])) (op.hist h)]
    rfl

theorem PosEnc.recycled_get (c : Cfg V) (hN : c.emb ≠ []) (xs : List V) : ∀ (k n : Nat),
    (recycled c.add c.emb k xs)[n]? = xs[n]?.bind fun x => (c.emb[(k + n) % c.emb.length]?).map (c.add x) := by
  induction xs with
  | nil => intro k n; rfl
  | cons x xs ih =>
    intro k n
    obtain ⟨e, h1, _⟩ := lookup_eq c hN k
    rw [recycled_cons c k x xs h1]
    cases n with
    | zero => simp [h1]
    | succ n => simp only [List.getElem?_cons_succ]; rw [ih]; congr 3; funext x; congr 3; omega

/-- **C31**, as stated: cut any stream into calls with default flags, on a clean object; the outputs put together have one
frame per input frame, and frame `n` is input `n` plus embedding `n mod num_embeds`. -/
theorem C31_recycling (c : Cfg V) (hN : c.emb ≠ []) (s : Int) (ops : List (Op V)) (hf : ∀ op ∈ ops, op.feeds)
    (hops : ∀ op ∈ ops, op.upTo c.emb.length) :
    ∃ rs s', run (mod c) ((mod c).clean s) ops = .ok (rs, s') ∧ (outsOf rs).length = (framesOf ops).length ∧
      ∀ n, (outsOf rs)[n]? = (framesOf ops)[n]?.bind fun x => (c.emb[n % c.emb.length]?).map (c.add x) := by
  have h0 : (mod c).clean s = at_ c ([] : List V).length := by show (0 : Int) = _; simp [at_]
  rw [h0]
  refine ⟨_, _, C31_scripts c hN ops hops [], ?_⟩
  have key : ∀ h : List V, outsOf (expectedAll c h ops).1 = recycled c.add c.emb h.length (framesOf ops) := by
    induction ops with
    | nil => intro h; rfl
    | cons op ops ih =>
      intro h
      have hop := hf op (by simp)
      have h1 : (expected c h.length op).outs = recycled c.add c.emb h.length op.frames := by
        cases op with
        | step u x =>
          obtain ⟨y, h1, _⟩ := step_eq c hN h.length u x
          simp [expected, Res.outs, Op.frames, h1]
        | steps u xs => rfl
        | clean => exact hop.elim
        | fwd xs => exact hop.elim
      have h2 : op.hist h = h ++ op.frames := by
        cases op with
        | step u x => have : u = true := hop; subst this; rfl
        | steps u xs => have : u = true := hop.1; subst this; rfl
        | clean => exact hop.elim
        | fwd xs => exact hop.elim
      show (expected c h.length op).outs ++ outsOf (expectedAll c (op.hist h) ops).1 = _
      rw [ih (fun o ho => hf o (by simp [ho])) (fun o ho => hops o (by simp [ho])), h1, h2, List.length_append]
      exact (recycled_append c _ _ _).symm
  rw [key []]
  constructor
  · have : ∀ (xs : List V) (k : Nat), (recycled c.add c.emb k xs).length = xs.length := by
      intro xs
      induction xs with
      | nil => intro k; rfl
      | cons x xs ih =>
        intro k
        obtain ⟨e, h1, _⟩ := lookup_eq c hN k
        rw [recycled_cons c k x xs h1]; simp [ih]
    exact this _ _
  · intro n
    have := recycled_get c hN (framesOf ops) 0 n
    simpa using this

/-- **C31**, limit of the chunk size: a longer clip raises an assertion (in `forward` as well), whatever the state. -/
theorem C31_too_long (c : Cfg V) (s : Int) (p u : Bool) (xs : List V) (hx : c.emb.length < xs.length) :
    forwardSteps c s p u xs = .error .assertion ∧ (mod c).fwd s xs = .error .assertion := by
  have : ∀ o, forward c s xs o = .error .assertion := fun o => by
    unfold forward; rw [if_pos (by simp [Cfg.N]; omega)]
  exact ⟨by unfold forwardSteps; rw [this], this none⟩

/-- **C31**, the functional step: threading the state from `None` gives the same encodings; a call with a state leaves the
module alone, but a call without one (the first of every thread) rewinds the module's own stream. -/
theorem C31_functional (c : Cfg V) (hN : c.emb ≠ []) (s : Int) (k : Nat) (x : V) :
    (∃ y, recycled c.add c.emb k [x] = [y] ∧
      pstepFull c s x (some (at_ c k)) = (.ok (some y, some (at_ c (k + 1))), s)) ∧
    (∃ y, recycled c.add c.emb 0 [x] = [y] ∧ pstepFull c s x none = (.ok (some y, some (at_ c 1)), 0)) := by
  have val : ∀ k : Nat, ∃ e, recycled c.add c.emb k [x] = [c.add x e] ∧ lookup c (at_ c k) = .ok e := by
    intro k
    obtain ⟨e, h1, h2⟩ := lookup_eq c hN k
    exact ⟨e, by rw [recycled_cons c _ _ _ h1]; rfl, by rw [at_cast]; exact h2⟩
  have nxt : ∀ k : Nat, (at_ c k + 1) % c.N = at_ c (k + 1) := by
    intro k; rw [at_cast, at_cast, Int.emod_add_emod]; push_cast; rfl
  constructor
  · obtain ⟨e, h1, h2⟩ := val k
    refine ⟨_, h1, ?_⟩
    unfold pstepFull
    simp only [Option.getD_some, h2, nxt]
  · obtain ⟨e, h1, h2⟩ := val 0
    have z : at_ c 0 = 0 := by simp [at_]
    have := nxt 0
    rw [z] at h2 this
    refine ⟨_, h1, ?_⟩
    unfold pstepFull
    simp only [Option.getD_none, h2, this, Nat.zero_add]

/-- **C25** for positional encodings: after `k` frames a `forward` call moves the stream by `forward_update_index_steps`;
it leaves the stream where it was iff that number is a multiple of `num_embeds`. -/
theorem C25_posenc_forward (c : Cfg V) (hN : c.emb ≠ []) (k : Nat) (xs : List V) (hx : xs.length ≤ c.emb.length) :
    (mod c).fwd (at_ c k) xs = .ok (recycled c.add c.emb k xs, ((k : Int) + c.fwdUpd) % c.N) ∧
    (((k : Int) + c.fwdUpd) % c.N = at_ c k ↔ c.N ∣ c.fwdUpd) := by
  refine ⟨forward_eq c hN k xs hx none, ?_⟩
  rw [at_cast]
  constructor
  · intro h
    have := Int.ModEq.dvd (n := c.N) (a := (k : Int)) (b := (k : Int) + c.fwdUpd) h.symm
    simpa using this
  · rintro ⟨d, hd⟩
    rw [hd, Int.add_mul_emod_self_left]

/-- An encoding with three embeddings that does not move on `forward`. -/
def exPos : Cfg Int where
  emb := [100, 200, 300]
  add := fun x e => x + e
  fwdUpd := 0

/-- **C25** is false for positional encodings even if `forward_update_index_steps` is zero: the result of `forward` depends
on how many frames were streamed before. -/
theorem C25_posenc_refuted : ∃ (c : Cfg Int) (ops : List (Op Int)) (rs : List (Res Int)) (s : Int), c.emb ≠ [] ∧ c.fwdUpd = 0 ∧
    (∀ op ∈ ops, op.feeds) ∧ run (mod c) (mod c).init ops = .ok (rs, s) ∧
    (mod c).fwd s [1, 1] ≠ ((mod c).fwd (mod c).init [1, 1]).map (fun p => (p.1, s)) :=
  ⟨exPos, [.step true 0], _, 1, by decide, rfl, by simp [Op.feeds], rfl, by decide⟩

example : ∃ rs s', run (mod exPos) ((mod exPos).clean 2) [.step true 1, .steps true [2, 3, 4], .step true 5] = .ok (rs, s') ∧
    (outsOf rs).length = 5 := by
  obtain ⟨rs, s', h1, h2, _⟩ := C31_recycling exPos (by decide) 2 [.step true 1, .steps true [2, 3, 4], .step true 5]
    (by simp [Op.feeds]) (by simp [Op.upTo, exPos])
  exact ⟨rs, s', h1, h2⟩

example : (callSteps (mod exPos) (mod exPos).init [1, 2, 3, 4, 5]).map Prod.fst =
    .ok [some 101, some 202, some 303, some 104, some 205] := by decide

example : ([1, 2, 3, 4] : List Int).length > exPos.emb.length ∧ forwardSteps exPos 0 false true [1, 2, 3, 4] = .error .assertion := by
  decide

end CoInf
