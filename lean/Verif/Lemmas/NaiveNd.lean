import Verif.Model.NaiveNd
import Verif.Lemmas.Tensor

set_option autoImplicit false

namespace CoInf.Spec
variable {F : Type} [Zero F]

/-- Frames `a, …, a + n - 1` of a clip (whose axis 2 is time). -/
def part (x : Tensor F) (a n : Nat) : Tensor F :=
  Tensor.of (x.shape.set 2 n) fun idx => x.get (idx.set 2 (a + idx.getD 2 0))

end CoInf.Spec

namespace CoInf.NaiveNd
open Spec Tensor
variable {F : Type}

section zero
variable [Zero F]

theorem part_shape {x : Tensor F} {B C T : Nat} {S : List Nat} (hx : x.shape = B :: C :: T :: S) (a n : Nat) :
    (part x a n).shape = B :: C :: n :: S := by
  simp [part, hx]

theorem part_get {x : Tensor F} {B C T : Nat} {S : List Nat} (hx : x.shape = B :: C :: T :: S) {a n : Nat} (h : a + n ≤ T)
    (p q r : Nat) (hr : r < n) (rest : List Nat) : (part x a n).get (p :: q :: r :: rest) = x.get (p :: q :: (a + r) :: rest) := by
  have e : within (p :: q :: r :: rest) (B :: C :: n :: S) = within (p :: q :: (a + r) :: rest) x.shape := by
    have h1 : decide (r < n) = true := by simpa using hr
    have h2 : decide (a + r < T) = true := by simp; omega
    rw [hx]
    simp only [within, h1, h2]
  show (if within (p :: q :: r :: rest) (x.shape.set 2 n) then x.get ((p :: q :: r :: rest).set 2 _) else 0) = _
  rw [hx, show (B :: C :: T :: S).set 2 n = B :: C :: n :: S from rfl, e]
  split
  · rfl
  · rename_i hc
    exact (x.outside _ (by simpa using hc)).symm

/-- A part of a tensor given by its entries. -/
theorem part_of {B C T : Nat} {S : List Nat} (g : List Nat → F) {a n : Nat} (h : a + n ≤ T) :
    part (Tensor.of (B :: C :: T :: S) g) a n = Tensor.of (B :: C :: n :: S) fun idx => g (idx.set 2 (a + idx.getD 2 0)) := by
  refine Tensor.ext rfl fun idx hi => ?_
  have hi' : within idx (B :: C :: n :: S) = true := hi
  obtain ⟨p, _, rfl, hp, hi1⟩ := (within_cons _ _ _).1 hi'
  obtain ⟨q, _, rfl, hq, hi2⟩ := (within_cons _ _ _).1 hi1
  obtain ⟨r, rest, rfl, hr, hi3⟩ := (within_cons _ _ _).1 hi2
  rw [part_get rfl h _ _ _ hr, Tensor.of_get, Tensor.of_get, hi', if_pos rfl, if_pos]
  · rfl
  · simp only [within, hp, hq, hi3, decide_true, Bool.and_true, Bool.true_and, decide_eq_true_eq]; omega

/-- Equality with a part of a tensor given by its entries, entry by entry. -/
theorem of_eq_part {B C T : Nat} {S : List Nat} {g g' : List Nat → F} {a n : Nat} (h : a + n ≤ T)
    (hg : ∀ p q r rest, p < B → q < C → r < n → within rest S = true → g' (p :: q :: r :: rest) = g (p :: q :: (a + r) :: rest)) :
    Tensor.of (B :: C :: n :: S) g' = part (Tensor.of (B :: C :: T :: S) g) a n := by
  rw [part_of g h]
  refine of_congr rfl fun idx hi => ?_
  obtain ⟨p, _, rfl, hp, hi1⟩ := (within_cons _ _ _).1 hi
  obtain ⟨q, _, rfl, hq, hi2⟩ := (within_cons _ _ _).1 hi1
  obtain ⟨r, rest, rfl, hr, hi3⟩ := (within_cons _ _ _).1 hi2
  exact hg p q r rest hp hq hr hi3

/-- `x[:, :, t].unsqueeze(2)`. -/
theorem select_unsqueeze {x : Tensor F} {B C T : Nat} {S : List Nat} (hx : x.shape = B :: C :: T :: S) {t : Nat} (ht : t < T) :
    (do let f ← x.select 2 t; f.unsqueeze 2) = .ok (part x t 1) := by
  have e1 : x.select 2 t = .ok (Tensor.of (B :: C :: S) fun idx => x.get (idx.insertIdx 2 t)) := by
    unfold Tensor.select
    rw [hx]
    simp [ht]
  rw [e1]
  show Tensor.unsqueeze _ 2 = _
  unfold Tensor.unsqueeze
  have e2 : Tensor.axis ((Tensor.of (B :: C :: S) fun idx => x.get (idx.insertIdx 2 t)).shape.length + 1) 2 = .ok 2 := by
    unfold Tensor.axis
    rw [if_pos (by omega), if_pos]
    · rfl
    · simp only [of_shape, List.length_cons]; omega
  rw [e2]
  show Except.ok _ = Except.ok _
  congr 1
  refine Tensor.ext ?_ fun idx hi => ?_
  · rw [part_shape hx]; rfl
  · have hi' : within idx (B :: C :: 1 :: S) = true := hi
    obtain ⟨p, _, rfl, hp, hi1⟩ := (within_cons _ _ _).1 hi'
    obtain ⟨q, _, rfl, hq, hi2⟩ := (within_cons _ _ _).1 hi1
    obtain ⟨r, rest, rfl, hr, hi3⟩ := (within_cons _ _ _).1 hi2
    obtain rfl : r = 0 := by omega
    rw [part_get hx (by omega) _ _ _ hr, Tensor.of_get]
    show (if within (p :: q :: 0 :: rest) (B :: C :: 1 :: S) then (Tensor.of (B :: C :: S) _).get (p :: q :: rest) else 0) = _
    rw [if_pos hi', Tensor.of_get, if_pos]
    · rfl
    · simp [within, hp, hq, hi3]

/-- `x[:, :, t:t+1].squeeze(2)`. -/
theorem part_squeeze {x : Tensor F} {B C T : Nat} {S : List Nat} (hx : x.shape = B :: C :: T :: S) {t : Nat} (ht : t < T) :
    (part x t 1).squeeze 2 = x.select 2 t := by
  have e1 : x.select 2 t = .ok (Tensor.of (B :: C :: S) fun idx => x.get (idx.insertIdx 2 t)) := by
    unfold Tensor.select
    rw [hx]
    simp [ht]
  rw [e1]
  unfold Tensor.squeeze
  have e2 : Tensor.axis (part x t 1).shape.length 2 = .ok 2 := by
    unfold Tensor.axis
    rw [if_pos (by omega), if_pos]
    · rfl
    · simp only [part_shape hx, List.length_cons]; omega
  rw [e2]
  show (if (part x t 1).shape[2]? = some 1 then _ else _) = _
  rw [if_pos (by rw [part_shape hx]; rfl)]
  congr 1
  refine of_congr (by rw [part_shape hx]; rfl) fun idx hi => ?_
  rw [part_shape hx] at hi
  obtain ⟨p, _, rfl, hp, hi1⟩ := (within_cons _ _ _).1 hi
  obtain ⟨q, rest, rfl, hq, hi2⟩ := (within_cons _ _ _).1 hi1
  exact part_get hx (by omega) p q 0 (by omega) rest

end zero

variable [Field F]

/-! ### Entries -/

theorem slab_time {β : Type} (c0 c1 : List Nat) (t t' : Nat) (cs : List (List Nat)) (g g' : List Nat → β)
    (h : ∀ p q r, g (p :: q :: t :: r) = g' (p :: q :: t' :: r)) :
    (slab (c0 :: c1 :: [t] :: cs)).map g = (slab (c0 :: c1 :: [t'] :: cs)).map g' := by
  simp only [slab, List.map_flatMap, List.map_map, List.flatMap_cons, List.flatMap_nil, List.append_nil]
  congr 1
  funext p
  congr 1
  funext q
  refine List.map_congr_left fun r _ => ?_
  exact h p q r

theorem range_three (k : Nat) : List.range (k + 3) = 0 :: 1 :: 2 :: (List.range k).map (· + 3) := by
  rw [List.range_succ_eq_map, List.range_succ_eq_map, List.range_succ_eq_map]
  simp [Function.comp_def]

/-- The entries read in a part of a clip are those read in the clip if only one time is involved. -/
theorem entries_part {x : Tensor F} {B C T : Nat} {S : List Nat} (hx : x.shape = B :: C :: T :: S) {a n : Nat} (h : a + n ≤ T)
    {r : Nat} (hr : r < n) (pick pick' : Nat → List Nat) (h2 : pick 2 = [a + r]) (h2' : pick' 2 = [r])
    (hp : ∀ i, i ≠ 2 → pick' i = pick i) : entries (part x a n) pick' = entries x pick := by
  unfold entries
  rw [part_shape hx, hx]
  simp only [List.length_cons, range_three, List.map_cons, List.map_map]
  rw [h2, h2', hp 0 (by omega), hp 1 (by omega)]
  have e : (List.range S.length).map (pick' ∘ (· + 3)) = (List.range S.length).map (pick ∘ (· + 3)) :=
    List.map_congr_left fun i _ => hp (i + 3) (by omega)
  rw [e]
  exact slab_time _ _ _ _ _ _ _ fun p q rest => part_get hx h p q r hr rest

theorem along_part {B C T : Nat} {S : List Nat} {n : Nat} (mix : Nat → Bool) (hm : mix 2 = false) (p q r r' : Nat)
    (rest : List Nat) : ∀ i, i ≠ 2 → along (B :: C :: n :: S) mix (p :: q :: r :: rest) i =
      along (B :: C :: T :: S) mix (p :: q :: r' :: rest) i := by
  intro i hi
  unfold along
  match i with
  | 0 => rfl
  | 1 => rfl
  | 2 => exact absurd rfl hi
  | i + 3 => rfl

theorem entries_along {x : Tensor F} {B C T : Nat} {S : List Nat} (hx : x.shape = B :: C :: T :: S) {a n : Nat} (h : a + n ≤ T)
    {r : Nat} (hr : r < n) (mix : Nat → Bool) (hm : mix 2 = false) (p q : Nat) (rest : List Nat) :
    entries (part x a n) (along (part x a n).shape mix (p :: q :: r :: rest)) =
      entries x (along x.shape mix (p :: q :: (a + r) :: rest)) := by
  rw [part_shape hx, hx]
  refine entries_part hx h hr _ _ ?_ ?_ (along_part mix hm p q r (a + r) rest)
  · simp [along, hm]
  · simp [along, hm]

end CoInf.NaiveNd

namespace CoInf.Spec
open NaiveNd
variable {F : Type}

/-- Modules which, by torch's documentation, do not mix the entries of different times in evaluation mode (for inputs of the
given rank, whose axis 2 is time). -/
def Timeless : Layer F → Nat → Prop
  | .act _, _ => True
  | .soft _ _ none, _ => True
  | .soft _ _ (some d), rank => d ≠ 2 ∧ d + rank ≠ 2
  | .softmax2d _, _ => True
  | .glu _ d, rank => d ≠ 2 ∧ d + rank ≠ 2
  | .dropout, _ => True
  | .batchNorm c, _ => c.track = true
  | .instanceNorm c, _ => c.track = true
  | .layerNorm ns _ _ _, rank => ns.length + 3 ≤ rank
  | .groupNorm .., _ => False

end CoInf.Spec

namespace CoInf.NaiveNd
open Spec Tensor
variable {F : Type} [Field F]

/-- The axes that do not name time. -/
theorem axis_time {rank : Nat} {d : Int} (h : d ≠ 2 ∧ d + rank ≠ 2) : Tensor.axis rank d ≠ .ok 2 := by
  unfold Tensor.axis
  split
  · split
    · intro e; injection e with e; omega
    · exact nofun
  · split
    · intro e; injection e with e; omega
    · exact nofun

theorem softAxis_time {e post : F → F} {rank : Nat} {dim : Option Int} (h : Timeless (.soft e post dim) rank) :
    softAxis rank dim ≠ .ok 2 := by
  cases dim with
  | some d => exact axis_time h
  | none =>
    intro e
    injection e with e
    split at e <;> omega

/-- The axes that name time. -/
theorem axis_is_time {rank : Nat} {d : Int} (hr : 3 ≤ rank) (h : d = 2 ∨ d + rank = 2) : Tensor.axis rank d = .ok 2 := by
  unfold Tensor.axis
  rcases h with rfl | h
  · rw [if_pos (by decide), if_pos (by omega)]; rfl
  · rw [if_neg (by omega), if_pos (by omega), show (rank : Int) + d = 2 by omega]; rfl

/-- The result of a call, with the tensor replaced. -/
def onFst (f : Tensor F → Tensor F) (r : Except Err (Tensor F × Stats F)) : Except Err (Tensor F × Stats F) :=
  r.map fun p => (f p.1, p.2)

theorem softAlong_part {x : Tensor F} {B C T : Nat} {S : List Nat} (hx : x.shape = B :: C :: T :: S) {a n : Nat} (h : a + n ≤ T)
    (e post : F → F) (d : Nat) (hd : d ≠ 2) : softAlong e post d (part x a n) = part (softAlong e post d x) a n := by
  unfold softAlong
  rw [show Tensor.of x.shape _ = Tensor.of (B :: C :: T :: S) _ from by rw [hx], part_shape hx]
  refine of_eq_part h fun p q r rest _ _ hr _ => ?_
  have := entries_along hx h hr (· == d) (by simp; omega) p q rest
  rw [part_shape hx] at this
  rw [part_get hx h p q r hr, this, hx]

theorem gluAlong_part {x : Tensor F} {B C T : Nat} {S : List Nat} (hx : x.shape = B :: C :: T :: S) {a n : Nat} (h : a + n ≤ T)
    (gate : F → F) (d : Nat) (hd : d ≠ 2) :
    gluAlong gate d (part x a n) = (gluAlong gate d x).map fun y => part y a n := by
  have hn : (part x a n).shape.getD d 0 = x.shape.getD d 0 := by
    rw [part_shape hx, hx]
    match d with
    | 0 => rfl
    | 1 => rfl
    | 2 => exact absurd rfl hd
    | d + 3 => rfl
  unfold gluAlong
  simp only [hn]
  split
  · show Except.ok _ = Except.ok _
    congr 1
    rw [part_shape hx]
    generalize x.shape.getD d 0 / 2 = m
    match d with
    | 0 =>
      rw [show Tensor.of (x.shape.set 0 m) _ = Tensor.of (m :: C :: T :: S) _ from by rw [hx]; rfl]
      refine of_eq_part h fun p q r rest _ _ hr _ => ?_
      simp only [List.set_cons_zero, List.getD_cons_zero]
      rw [part_get hx h _ q r hr, part_get hx h _ q r hr]
    | 1 =>
      rw [show Tensor.of (x.shape.set 1 m) _ = Tensor.of (B :: m :: T :: S) _ from by rw [hx]; rfl]
      refine of_eq_part h fun p q r rest _ _ hr _ => ?_
      simp only [List.set_cons_zero, List.set_cons_succ, List.getD_cons_zero, List.getD_cons_succ]
      rw [part_get hx h _ _ r hr, part_get hx h _ _ r hr]
    | 2 => exact absurd rfl hd
    | d + 3 =>
      rw [show Tensor.of (x.shape.set (d + 3) m) _ = Tensor.of (B :: C :: T :: S.set d m) _ from by rw [hx]; rfl]
      refine of_eq_part h fun p q r rest _ _ hr _ => ?_
      simp only [List.set_cons_succ, List.getD_cons_succ]
      rw [part_get hx h _ _ r hr, part_get hx h _ _ r hr]
  · rfl

/-- A module that does not mix times, applied to a part of a clip: the part of the result. -/
theorem forward_part (l : Layer F) (s : Stats F) {x : Tensor F} {B C T : Nat} {S : List Nat} (hx : x.shape = B :: C :: T :: S)
    (hl : Timeless l x.shape.length) {a n : Nat} (h : a + n ≤ T) :
    forward l false s (part x a n) = onFst (fun y => part y a n) (forward l false s x) := by
  have hlen : (part x a n).shape.length = x.shape.length := by rw [part_shape hx, hx]; rfl
  have h1 : (part x a n).shape.getD 1 0 = x.shape.getD 1 0 := by rw [part_shape hx, hx]; rfl
  cases l with
  | act f =>
    show Except.ok _ = Except.ok _
    congr 2
    rw [show Tensor.of x.shape _ = Tensor.of (B :: C :: T :: S) _ from by rw [hx], part_shape hx]
    refine of_eq_part h fun p q r rest _ _ hr _ => ?_
    rw [part_get hx h p q r hr]; rfl
  | soft e post dim =>
    unfold forward
    simp only [hlen]
    cases hd : softAxis x.shape.length dim with
    | error er => rfl
    | ok d =>
      have : d ≠ 2 := by rintro rfl; exact softAxis_time hl hd
      show Except.ok _ = Except.ok _
      rw [softAlong_part hx h e post d this]
  | softmax2d e =>
    unfold forward
    simp only [hlen]
    by_cases hr : x.shape.length = 3 ∨ x.shape.length = 4
    · rw [if_pos hr, if_pos hr]
      rcases hr with hr | hr
      · rw [hr]
        show Except.ok _ = Except.ok _
        rw [softAlong_part hx h e id _ (by decide)]
      · rw [hr]
        show Except.ok _ = Except.ok _
        rw [softAlong_part hx h e id _ (by decide)]
    · rw [if_neg hr, if_neg hr]; rfl
  | glu gate dim =>
    unfold forward
    simp only [hlen]
    cases hd : Tensor.axis x.shape.length dim with
    | error er => rfl
    | ok d =>
      have : d ≠ 2 := by rintro rfl; exact axis_time hl hd
      show (gluAlong gate d (part x a n)).map _ = onFst _ ((gluAlong gate d x).map _)
      rw [gluAlong_part hx h gate d this]
      cases gluAlong gate d x <;> rfl
  | dropout => rfl
  | batchNorm c =>
    have hc : c.track = true := hl
    show batchNorm c false s _ = onFst _ (batchNorm c false s x)
    unfold batchNorm
    simp only [hlen, h1, hc, Bool.not_true, Bool.or_false, Bool.false_eq_true, if_false]
    split
    · rfl
    · split
      · rfl
      · show Except.ok _ = Except.ok _
        congr 2
        rw [show Tensor.of x.shape _ = Tensor.of (B :: C :: T :: S) _ from by rw [hx], part_shape hx]
        refine of_eq_part h fun p q r rest _ _ hr _ => ?_
        rw [part_get hx h p q r hr]; rfl
  | instanceNorm c =>
    have hc : c.track = true := hl
    show instanceNorm c false s _ = onFst _ (instanceNorm c false s x)
    unfold instanceNorm
    simp only [hlen, h1, hc, Bool.not_true, Bool.or_false, Bool.false_eq_true, if_false]
    split
    · rfl
    · split
      · rfl
      · show Except.ok _ = Except.ok _
        congr 2
        rw [show Tensor.of x.shape _ = Tensor.of (B :: C :: T :: S) _ from by rw [hx], part_shape hx]
        refine of_eq_part h fun p q r rest _ _ hr _ => ?_
        rw [part_get hx h p q r hr]; rfl
  | layerNorm ns scale w b =>
    have hk : ns.length + 3 ≤ x.shape.length := hl
    show (layerNorm ns scale w b _).map _ = onFst _ ((layerNorm ns scale w b x).map _)
    unfold layerNorm
    obtain ⟨k, hk'⟩ : ∃ k, x.shape.length - ns.length = k + 3 := ⟨x.shape.length - ns.length - 3, by omega⟩
    have hdrop : (part x a n).shape.drop (k + 3) = x.shape.drop (k + 3) := by rw [part_shape hx, hx]; rfl
    simp only [hlen, hk', hdrop]
    split
    · show Except.ok _ = Except.ok _
      congr 2
      rw [show Tensor.of x.shape _ = Tensor.of (B :: C :: T :: S) _ from by rw [hx]]
      rw [show ∀ g, Tensor.of (part x a n).shape g = Tensor.of (B :: C :: n :: S) g from fun g => by rw [part_shape hx]]
      refine of_eq_part h fun p q r rest _ _ hr _ => ?_
      rw [part_get hx h p q r hr, entries_along hx h hr (fun i => decide (k + 3 ≤ i)) (by simp) p q rest, hx]
      rfl
    · rfl
  | groupNorm => exact hl.elim

/-- `forward` keeps batch and time axes of a module that does not mix times. -/
theorem forward_shape (l : Layer F) (tr : Bool) (s : Stats F) {x : Tensor F} {B C T : Nat} {S : List Nat}
    (hx : x.shape = B :: C :: T :: S) (hl : ∀ gate dim, l = .glu gate dim → Tensor.axis x.shape.length dim ≠ .ok 2)
    {y : Tensor F} {s' : Stats F} (h : forward l tr s x = .ok (y, s')) : ∃ B' C' S', y.shape = B' :: C' :: T :: S' := by
  have same : y.shape = x.shape → ∃ B' C' S', y.shape = B' :: C' :: T :: S' := fun e => ⟨B, C, S, e.trans hx⟩
  cases l with
  | act f => cases h; exact same rfl
  | soft e post dim =>
    unfold forward at h
    simp only at h
    split at h <;> cases h
    exact same rfl
  | softmax2d e =>
    unfold forward at h
    simp only at h
    split at h
    · split at h <;> cases h
      exact same rfl
    · cases h
  | glu gate dim =>
    unfold forward at h
    simp only at h
    split at h
    · rename_i d hd
      have hd2 : d ≠ 2 := by rintro rfl; exact hl gate dim rfl hd
      unfold gluAlong at h
      simp only at h
      split at h <;> cases h
      rw [of_shape, hx]
      match d with
      | 0 => exact ⟨_, _, _, rfl⟩
      | 1 => exact ⟨_, _, _, rfl⟩
      | 2 => exact absurd rfl hd2
      | d + 3 => exact ⟨_, _, _, rfl⟩
    · cases h
  | dropout => cases h; exact same rfl
  | batchNorm c =>
    change batchNorm c tr s x = _ at h
    unfold batchNorm at h
    simp only at h
    repeat' split at h
    all_goals cases h <;> exact same rfl
  | instanceNorm c =>
    change instanceNorm c tr s x = _ at h
    unfold instanceNorm at h
    simp only at h
    repeat' split at h
    all_goals cases h <;> exact same rfl
  | layerNorm ns scale w b =>
    change (layerNorm ns scale w b x).map _ = _ at h
    unfold layerNorm at h
    simp only at h
    split at h <;> cases h
    exact same rfl
  | groupNorm g ch scale w b =>
    change (groupNorm g ch scale w b x).map _ = _ at h
    unfold groupNorm at h
    simp only at h
    split at h <;> cases h
    exact same rfl

/-- `forward_step` on a frame of a clip, in terms of the module's `forward`. -/
theorem forwardStep_eq (l : Layer F) (tr : Bool) (s : Stats F) {x f : Tensor F} {B C T : Nat} {S : List Nat}
    (hx : x.shape = B :: C :: T :: S) {t : Nat} (ht : t < T) (hf : x.select 2 t = .ok f) :
    forwardStep l tr s f = (do
      let (y, s) ← forward l tr s (part x t 1)
      let y ← y.squeeze 2
      pure (y, s)) := by
  have e := select_unsqueeze hx ht
  rw [hf] at e
  change f.unsqueeze 2 = _ at e
  unfold forwardStep
  rw [e]
  rfl

theorem part_one_select {x : Tensor F} {B C T : Nat} {S : List Nat} (hx : x.shape = B :: C :: T :: S) {t : Nat} (ht : t < T) :
    ∃ f, x.select 2 t = .ok f := by
  unfold Tensor.select
  rw [hx]
  simp [ht]

end CoInf.NaiveNd
