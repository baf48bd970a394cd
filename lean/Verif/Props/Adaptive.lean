/-
C56: adaptive pooling.
-/
import Verif.Model.Adaptive
import Verif.Lemmas.Pool
import Verif.Lemmas.Attention
import Verif.Props.Leaf
import Mathlib.Algebra.BigOperators.Ring.List
import Mathlib.Algebra.Order.Ring.Rat
import Mathlib.Algebra.Field.Rat
import Mathlib.Data.List.Perm.Basic

set_option autoImplicit false

namespace CoInf
open Spec
variable {X Y : Type}

namespace AdaptivePool

/-- Pooling a clip at once is pooling every frame in space and then pooling in time. -/
def Splits (c : Cfg X Y) : Prop := ∀ xs, xs ≠ [] → c.clip xs = c.pool.pool (xs.map c.pool.spatial)

theorem sum_flatMap {A F : Type} [AddCommMonoid F] (g : A → List F) (l : List A) :
    (l.flatMap g).sum = (l.map fun x => (g x).sum).sum := by
  induction l with
  | nil => rfl
  | cons a l ih => simp [ih]

theorem length_flatMap_const {A B : Type} (g : A → List B) (n : Nat) (l : List A) (h : ∀ x, (g x).length = n) :
    (l.flatMap g).length = l.length * n := by
  induction l with
  | nil => simp
  | cons a l ih => simp only [List.flatMap_cons, List.length_append, ih, h, List.length_cons]; ring

theorem sum_map_div {A F : Type} [Field F] (g : A → F) (d : F) (l : List A) :
    (l.map fun x => g x / d).sum = (l.map g).sum / d := by
  induction l with
  | nil => simp
  | cons a l ih => simp [ih, add_div]

theorem avg_splits {F P Q : Type} [Field F] (region : Q → List P) (o K S Pad : Nat) :
    Splits (avg (F := F) region o K S Pad) := by
  intro xs _
  funext q
  simp only [avg, avgClip, avgTime, avgSpace, List.map_map, Function.comp_def, List.length_map]
  rw [sum_flatMap, length_flatMap_const _ (region q).length _ (fun x => by simp), sum_map_div, Nat.cast_mul, div_div,
    mul_comm]

section max
variable {F : Type} [LinearOrder F] [OrderBot F]

theorem maxOf_append (a b : List F) : maxOf (a ++ b) = max (maxOf a) (maxOf b) := by
  induction a with
  | nil => simp [maxOf]
  | cons x a ih => simp only [maxOf, List.cons_append, List.foldr_cons] at ih ⊢; rw [ih, max_assoc]

theorem maxOf_flatMap {A : Type} (g : A → List F) (l : List A) : maxOf (l.flatMap g) = maxOf (l.map fun x => maxOf (g x)) := by
  induction l with
  | nil => rfl
  | cons a l ih => rw [List.flatMap_cons, maxOf_append, ih]; rfl

theorem maxOf_perm {a b : List F} (h : a.Perm b) : maxOf a = maxOf b := by
  induction h with
  | nil => rfl
  | cons x _ ih => simp only [maxOf, List.foldr_cons] at ih ⊢; rw [ih]
  | swap x y l => simp only [maxOf, List.foldr_cons]; rw [max_left_comm]
  | trans _ _ h1 h2 => exact h1.trans h2

theorem maxOf_const (z : F) {l : List F} (h : l ≠ []) (hz : ∀ x ∈ l, x = z) : maxOf l = z := by
  induction l with
  | nil => exact absurd rfl h
  | cons a l ih =>
    simp only [maxOf, List.foldr_cons]
    rw [hz a List.mem_cons_self]
    by_cases hl : l = []
    · subst hl; simp
    · have := ih hl fun x hx => hz x (List.mem_cons_of_mem _ hx)
      simp only [maxOf] at this
      rw [this, max_self]

end max

theorem max_splits {F P Q : Type} [Zero F] [LinearOrder F] [OrderBot F] (region : Q → List P) (o K S Pad : Nat) :
    Splits (maximum (F := F) region o K S Pad) := by
  intro xs _
  funext q
  simp only [maximum, List.map_map, Function.comp_def]
  rw [maxOf_flatMap]

theorem avg_ok {F P Q : Type} [Field F] (region : Q → List P) (o K S Pad : Nat) (hK : 1 ≤ K) (hS : 1 ≤ S) (hP : Pad < K) :
    Pool.Ok (avg (F := F) region o K S Pad).pool where
  hK := hK
  hS := hS
  hP := hP
  hd := rfl
  hfill := fun x => by funext q; simp [avg, avgSpace]
  hpool := fun a b h => by
    funext q
    simp only [avg, avgTime]
    rw [(h.map _).sum_eq, h.length_eq]

theorem max_ok {F P Q : Type} [Zero F] [LinearOrder F] [OrderBot F] (region : Q → List P) (hr : ∀ q, region q ≠ [])
    (o K S Pad : Nat) (hK : 1 ≤ K) (hS : 1 ≤ S) (hP : Pad < K) : Pool.Ok (maximum (F := F) region o K S Pad).pool where
  hK := hK
  hS := hS
  hP := hP
  hd := rfl
  hfill := fun x => by
    funext q
    exact maxOf_const 0 (by simpa using hr q) (by simp [maximum])
  hpool := fun a b h => by
    funext q
    exact maxOf_perm (h.map _)

theorem simRel (c : Cfg X Y) (hc : Pool.Ok c.pool) :
    SimRel (mod c) (Pool.phi c.pool) (fun h i => Pool.Inv c.pool h ((Pool.leaf c.pool).get i)) :=
  let H := Pool.simRel c.pool hc
  { phi_nil := H.phi_nil
    init := H.init
    clean := H.clean
    step := H.step
    steps := H.steps
    fwd_state := fun {h i xs ys i'} hi hf => by
      simp only at hf
      split at hf
      · cases hf
      · cases hf; exact hi
    fwd_indep := fun xs _ => by simp only; split <;> rfl }

end AdaptivePool

open AdaptivePool

/-- **C56**, streaming: with stride one and no padding, `forward_step` returns nothing before `kernel_size` frames were seen;
afterwards it returns what `forward` returns for the last `kernel_size` frames.  This holds for any pooling that splits
into a spatial and an order-free temporal part. -/
theorem C56_window (c : Cfg X Y) (hc : Pool.Ok c.pool) (hs : Splits c) (hS : c.pool.S = 1) (hP : c.pool.P = 0)
    {h : List X} {i : (mod c).Inst} (hi : Reach (mod c) h i) (u : Bool) (x : X) :
    ∃ j, (mod c).step i u x = .ok
      (if c.pool.K ≤ h.length + 1 then some (c.clip (lastN c.pool.K (h ++ [x]))) else none, j) ∧
      (c.pool.K ≤ h.length + 1 →
        (mod c).fwd i (lastN c.pool.K (h ++ [x])) = .ok ([c.clip (lastN c.pool.K (h ++ [x]))], i)) := by
  have H := simRel c hc
  obtain ⟨o, j, h1, h2, _⟩ := (Spec.Implements.reach ⟨_, H⟩).step u x hi
  have hK := hc.hK
  have hne : c.pool.K ≤ h.length + 1 → lastN c.pool.K (h ++ [x]) ≠ [] := by
    intro hl e
    have := congrArg List.length e
    simp [lastN] at this
    omega
  refine ⟨j, ?_, fun hl => if_neg (hne hl)⟩
  rw [h1]
  congr 2
  have hpad : ∀ l : List X, padStart 0 c.pool.fillIn l = l := by intro l; cases l <;> rfl
  simp only [Pool.phi, streamOut, hS, hP, hpad] at h2
  rw [Attn.slide_one] at h2
  have h2 := List.append_cancel_left h2
  by_cases hl : c.pool.K ≤ h.length + 1
  · rw [if_pos hl] at h2 ⊢
    rw [hs _ (hne hl)]
    cases o with
    | none => cases h2
    | some y => cases h2; rfl
  · rw [if_neg hl] at h2 ⊢
    cases o with
    | none => rfl
    | some y => cases h2

/-- **C56** for `AdaptiveAvgPool2d` and `AdaptiveAvgPool3d`: from the `kernel_size`-th frame on, `forward_step` gives the mean
over the last `kernel_size` frames and the cells of the region, which is what `forward` gives for these frames. -/
theorem C56_average {F P Q : Type} [Field F] (region : Q → List P) (K : Nat) (hK : 1 ≤ K) {h : List (P → F)}
    {i : (mod (avg (F := F) region 1 K 1 0)).Inst} (hi : Reach (mod (avg region 1 K 1 0)) h i) (u : Bool) (x : P → F) :
    ∃ j, (mod (avg region 1 K 1 0)).step i u x = .ok
      (if K ≤ h.length + 1 then some (fun q => ((lastN K (h ++ [x])).flatMap fun x => (region q).map x).sum /
        ((lastN K (h ++ [x])).flatMap fun x => (region q).map x).length) else none, j) ∧
      (K ≤ h.length + 1 → (mod (avg region 1 K 1 0)).fwd i (lastN K (h ++ [x])) =
        .ok ([fun q => ((lastN K (h ++ [x])).flatMap fun x => (region q).map x).sum /
        ((lastN K (h ++ [x])).flatMap fun x => (region q).map x).length], i)) :=
  C56_window (avg region 1 K 1 0) (avg_ok _ _ _ _ _ hK (by decide) (by omega)) (avg_splits _ _ _ _ _) rfl rfl hi u x

/-- **C56** for `AdaptiveMaxPool2d` and `AdaptiveMaxPool3d`. -/
theorem C56_maximum {F P Q : Type} [Zero F] [LinearOrder F] [OrderBot F] (region : Q → List P) (hr : ∀ q, region q ≠ [])
    (K : Nat) (hK : 1 ≤ K) {h : List (P → F)}
    {i : (mod (maximum (F := F) region 1 K 1 0)).Inst} (hi : Reach (mod (maximum region 1 K 1 0)) h i) (u : Bool)
    (x : P → F) :
    ∃ j, (mod (maximum region 1 K 1 0)).step i u x = .ok
      (if K ≤ h.length + 1 then some (fun q => ((lastN K (h ++ [x])).flatMap fun x => (region q).map x).foldr max ⊥)
        else none, j) ∧
      (K ≤ h.length + 1 → (mod (maximum region 1 K 1 0)).fwd i (lastN K (h ++ [x])) =
        .ok ([fun q => ((lastN K (h ++ [x])).flatMap fun x => (region q).map x).foldr max ⊥], i)) :=
  C56_window (maximum region 1 K 1 0) (max_ok _ hr _ _ _ _ hK (by decide) (by omega)) (max_splits _ _ _ _ _) rfl rfl hi u x

/-- Global average pooling of frames with two cells over three frames. -/
def exAdaptive : Cfg (Bool → Rat) (Unit → Rat) := avg (fun _ => [false, true]) 1 3 1 0

theorem exAdaptive_ok : Pool.Ok exAdaptive.pool := avg_ok _ _ _ _ _ (by decide) (by decide) (by decide)

example : ∃ j, (mod exAdaptive).step (mod exAdaptive).init true (fun _ => 1) = .ok (none, j) := by
  obtain ⟨j, h, _⟩ := C56_average (F := Rat) (fun _ : Unit => [false, true]) 3 (by decide) .init true (fun _ => 1)
  exact ⟨j, h⟩

/-- **C56**, constructor: only `output_size[0] = 1` and a non-empty kernel are accepted. -/
theorem C56_constructor (c : Cfg X Y) : (∃ m, make c = .ok m) ↔ c.outT = 1 ∧ 1 ≤ c.pool.K := by
  unfold make
  by_cases h : c.outT = 1
  · by_cases h' : 0 < c.pool.K
    · simp [h, h']; omega
    · simp [h, h']; omega
  · simp [h]

example : ∃ m, make exAdaptive = .ok m := (C56_constructor _).2 ⟨rfl, by decide⟩

/-- **C56**, clips: for a clip of exactly `kernel_size` frames, `forward_steps` on a clean module gives `forward`. -/
theorem C56_clip_partial (c : Cfg X Y) (hc : Pool.Ok c.pool) (hs : Splits c) (hS : c.pool.S = 1) (hP : c.pool.P = 0)
    {i : (mod c).Inst} (hi : Reach (mod c) [] i) (u : Bool) (xs : List X) (hx : xs.length = c.pool.K) :
    ∃ j, (mod c).steps i false u xs = .ok (some [c.clip xs], j) ∧ (mod c).fwd i xs = .ok ([c.clip xs], i) := by
  have H := simRel c hc
  have hK := hc.hK
  have hne : xs ≠ [] := by rintro rfl; simp at hx; omega
  obtain ⟨ys, j, h1, h2, _⟩ := (Spec.Implements.reach ⟨_, H⟩).steps u xs hne hi
  refine ⟨j, ?_, if_neg hne⟩
  rw [h1]
  have hpad : ∀ l : List X, padStart 0 c.pool.fillIn l = l := by intro l; cases l <;> rfl
  rw [H.phi_nil] at h2
  simp only [Pool.phi, streamOut, hS, hP, hpad, List.nil_append] at h2
  have : slide c.pool.K 1 (Pool.win c.pool) xs = [Pool.win c.pool xs] := by
    simp [slide, windowCount, hx]
    rw [← hx, List.take_length]
  rw [this] at h2
  rw [← h2, hs xs hne]
  rfl

/-- **C56 fails** for longer clips: `forward` pools the whole clip into a single frame, whereas `forward_steps` pools windows of
`kernel_size` frames and returns `T - kernel_size + 1` frames. -/
theorem C56_longer_clip_refuted (c : Cfg X Y) (hc : Pool.Ok c.pool) (hS : c.pool.S = 1) (hP : c.pool.P = 0)
    {i : (mod c).Inst} (hi : Reach (mod c) [] i) (u : Bool) (xs : List X) (hx : c.pool.K < xs.length) :
    ∃ ys j y, (mod c).steps i false u xs = .ok (some ys, j) ∧ ys.length = xs.length - c.pool.K + 1 ∧
      (mod c).fwd i xs = .ok ([y], i) ∧ ys ≠ [y] := by
  have H := simRel c hc
  have hK := hc.hK
  have hne : xs ≠ [] := by rintro rfl; simp at hx
  obtain ⟨ys, j, h1, h2, _⟩ := (Spec.Implements.reach ⟨_, H⟩).steps u xs hne hi
  have hpad : ∀ l : List X, padStart 0 c.pool.fillIn l = l := by intro l; cases l <;> rfl
  rw [H.phi_nil] at h2
  simp only [Pool.phi, streamOut, hS, hP, hpad, List.nil_append] at h2
  have hl : ys.length = xs.length - c.pool.K + 1 := by
    rw [← h2, slide_length]; unfold windowCount; rw [if_neg (by omega)]; simp
  refine ⟨ys, j, c.clip xs, ?_, hl, if_neg hne, ?_⟩
  · rw [h1]
    cases ys with
    | nil => simp at hl
    | cons a t => rfl
  · rintro rfl
    simp at hl
    omega

example : ∃ ys j y, (mod exAdaptive).steps (mod exAdaptive).init false true [fun _ => 1, fun _ => 2, fun _ => 3, fun _ => 4] =
    .ok (some ys, j) ∧ ys.length = 2 ∧ (mod exAdaptive).fwd (mod exAdaptive).init
      [fun _ => 1, fun _ => 2, fun _ => 3, fun _ => 4] = .ok ([y], (mod exAdaptive).init) ∧ ys ≠ [y] :=
  C56_longer_clip_refuted exAdaptive exAdaptive_ok rfl rfl .init true _ (by decide)

end CoInf
