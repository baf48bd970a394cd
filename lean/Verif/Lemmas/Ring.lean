import Verif.Model.Core
import Verif.Lemmas.Window
import Mathlib.Data.List.Rotate
import Mathlib.Tactic.Ring
import Mathlib.Data.Int.ModEq

namespace CoInf
variable {α : Type}

/-- `b` is a ring buffer of length `L` holding the last `L` elements of `z`, element number `m` of
the stream `z` in slot `m % L`. -/
structure Ring (L : Nat) (z b : List α) : Prop where
  len : b.length = L
  enough : L ≤ z.length
  slot : ∀ m, m < z.length → z.length ≤ m + L → b[m % L]? = z[m]?

theorem Ring.init (L : Nat) (a : α) : Ring L (List.replicate L a) (List.replicate L a) := by
  refine ⟨by simp, by simp, fun m h1 h2 => ?_⟩
  simp only [List.length_replicate] at h1
  rw [Nat.mod_eq_of_lt h1]

theorem Ring.write {L : Nat} {z b : List α} (h : Ring L z b) (a : α) :
    Ring L (z ++ [a]) (b.set (z.length % L) a) := by
  rcases Nat.eq_zero_or_pos L with h0 | hL
  · subst h0
    refine ⟨by simpa using h.len, by simp, fun m h1 h2 => ?_⟩
    simp at h1 h2; omega
  refine ⟨by simp [h.len], by have := h.enough; simp; omega, fun m h1 h2 => ?_⟩
  simp only [List.length_append, List.length_singleton] at h1 h2
  by_cases hm : m = z.length
  · subst hm
    have : z.length % L < b.length := by rw [h.len]; exact Nat.mod_lt _ hL
    simp [this]
  · have hne : z.length % L ≠ m % L := by
      intro he
      have h3 : (z.length - m) % L = 0 := by
        have := (Nat.modEq_iff_dvd' (n := L) (a := m) (b := z.length) (by omega)).1 he.symm
        exact Nat.mod_eq_zero_of_dvd this
      have h4 : z.length - m < L := by omega
      rw [Nat.mod_eq_of_lt h4] at h3
      omega
    rw [List.getElem?_set_ne hne, h.slot m (by omega) (by omega),
      List.getElem?_append_left (by omega)]

theorem Ring.get {L : Nat} {z b : List α} (h : Ring L z b) (i : Nat) (hi : i < L) :
    b[(z.length + i) % L]? = z[z.length - L + i]? := by
  have h1 := h.enough
  rw [← h.slot _ (by omega) (by omega)]
  congr 1
  have : z.length + i = (z.length - L + i) + L := by omega
  rw [this, Nat.add_mod_right]

theorem Ring.rotate {L : Nat} {z b : List α} (h : Ring L z b) :
    b.rotate z.length = Spec.lastN L z := by
  have h1 := h.enough
  have hl := h.len
  apply List.ext_getElem
  · simp [Spec.lastN, hl]; omega
  · intro i hi1 hi2
    rw [List.length_rotate, hl] at hi1
    have h2 := h.get i hi1
    rw [List.getElem_rotate]
    simp only [Spec.lastN, List.getElem_drop]
    have e : (i + z.length) % b.length = (z.length + i) % L := by rw [hl, Nat.add_comm]
    have hb : (z.length + i) % L < b.length := by rw [hl]; exact Nat.mod_lt _ (by omega)
    have hz : z.length - L + i < z.length := by omega
    rw [List.getElem?_eq_getElem hb, List.getElem?_eq_getElem hz, Option.some.injEq] at h2
    rw [← h2]
    congr 1

theorem Ring.perm {L : Nat} {z b : List α} (h : Ring L z b) : b.Perm (Spec.lastN L z) := by
  rw [← h.rotate]; exact (List.rotate_perm b _).symm

theorem pyGet_ofNat {b : List α} {i : Nat} {a : α} (h : b[i]? = some a) :
    pyGet b (i : Int) = .ok a := by
  have : ¬ ((i : Int) < 0) := by omega
  simp [pyGet, this, h]

theorem pySet_ofNat {b : List α} {i : Nat} (a : α) (h : i < b.length) :
    pySet b (i : Int) a = .ok (b.set i a) := by
  have : ¬ ((i : Int) < 0) := by omega
  simp [pySet, this, h]

theorem mapM_ok {β : Type} (l : List α) (f : α → Except Err β) (g : α → β)
    (h : ∀ a ∈ l, f a = .ok (g a)) : l.mapM f = .ok (l.map g) := by
  induction l with
  | nil => rfl
  | cons a l ih =>
    rw [List.mapM_cons, h a (by simp), ih fun b hb => h b (by simp [hb])]
    rfl

/-! ### The stride counter -/

/-- Closed form of the stride counter before processing frame `n`, for `P ≤ K - 1`. -/
def strideAt (K S P n : Nat) : Int :=
  let r : Int := (S : Int) - K + P + n
  if r ≤ 0 then r else r % S

theorem strideAt_zero {K S P : Nat} (hP : P + 1 ≤ K) :
    strideAt K S P 0 = (S : Int) - K + P := by
  unfold strideAt
  simp only [Int.natCast_zero, Int.add_zero]
  split
  · rfl
  · rw [Int.emod_eq_of_lt (by omega) (by omega)]

theorem strideAt_succ {K S P n : Nat} (hS : 0 < S) :
    (let m := strideAt K S P n + 1; if m > 0 then m % S else m) = strideAt K S P (n + 1) := by
  unfold strideAt
  have e : (S : Int) - K + P + ((n + 1 : Nat) : Int) = ((S : Int) - K + P + n) + 1 := by push_cast; ring_nf
  rw [e]
  generalize (S : Int) - K + P + (n : Int) = r
  by_cases h : r ≤ 0
  · simp only [h, if_true]
    split <;> split <;> first | rfl | omega
  · have h0 : 0 ≤ r % S := Int.emod_nonneg _ (by omega)
    simp only [h, if_false]
    rw [if_pos (by omega), if_neg (by omega), Int.emod_add_emod]

theorem strideAt_valid {K S P n : Nat} (hS : 0 < S) :
    strideAt K S P n = (S : Int) - 1 ↔ K ≤ P + n + 1 ∧ (P + n + 1 - K) % S = 0 := by
  unfold strideAt
  by_cases hn : K ≤ P + n + 1
  · obtain ⟨q, hq⟩ := Nat.exists_eq_add_of_le hn
    have er : (S : Int) - K + P + n = (S : Int) - 1 + q := by omega
    have eq' : P + n + 1 - K = q := by omega
    rw [er, eq']
    simp only [hn, true_and]
    have key : ((S : Int) - 1 + q) % S = (S : Int) - 1 ↔ q % S = 0 := by
      constructor
      · intro h
        have h1 : ((S : Int) - 1 + q + 1) % S = 0 := by
          rw [← Int.emod_add_emod, h]; simp
        have h2 : ((q : Int)) % S = 0 := by
          have : (S : Int) - 1 + q + 1 = q + S := by ring
          rw [this, Int.add_emod_right] at h1
          exact h1
        omega
      · intro h
        obtain ⟨k, hk⟩ := Nat.dvd_of_mod_eq_zero h
        rw [hk]
        push_cast
        rw [Int.add_mul_emod_self_left]
        exact Int.emod_eq_of_lt (by omega) (by omega)
    split
    · rename_i h1
      have : S = 1 ∧ q = 0 := by omega
      obtain ⟨rfl, rfl⟩ := this
      simp
    · exact key
  · simp only [hn, false_and, iff_false]
    split
    · omega
    · rw [Int.emod_eq_of_lt (by omega) (by omega)]
      omega

end CoInf

namespace CoInf
open Spec
variable {X Y : Type}

theorem Spec.lastN_append_right {X : Type} {K : Nat} (a b : List X) (h : K ≤ b.length) :
    lastN K (a ++ b) = lastN K b := by
  unfold lastN
  rw [List.length_append, List.drop_append]
  have : a.length + b.length - K - a.length = b.length - K := by omega
  rw [this, List.drop_eq_nil_of_le (by omega), List.nil_append]

theorem Spec.lastN_map (K : Nat) (g : X → Y) (l : List X) :
    lastN K (l.map g) = (lastN K l).map g := by
  simp [lastN, List.map_drop]

/-- Stream outputs with an explicit fill frame. -/
theorem streamOut_eq {K S P : Nat} (hP : P + 1 ≤ K) (fill : X → X) (f : List X → Y) (h : List X)
    (p0 : X) (hp : ∀ x ∈ h.head?, fill x = p0) :
    streamOut K S P fill f h = slide K S f (List.replicate P p0 ++ h) := by
  cases h with
  | nil =>
    have h1 : P < K := by omega
    have h2 : 0 < K := by omega
    simp [streamOut, padStart, slide, windowCount, h1, h2]
  | cons a t =>
    have : fill a = p0 := hp a (by simp)
    simp [streamOut, padStart, this]

theorem streamOut_snoc {K S P L : Nat} (hS : 0 < S) (hP : P + 1 ≤ K) (hL : P ≤ L)
    (fill : X → X) (f : List X → Y) (h : List X) (x p0 : X)
    (hp : ∀ a ∈ (h ++ [x]).head?, fill a = p0) :
    streamOut K S P fill f (h ++ [x]) = streamOut K S P fill f h ++
      (if strideAt K S P h.length = (S : Int) - 1
        then [f (lastN K (List.replicate L p0 ++ h ++ [x]))] else []) := by
  have hp' : ∀ a ∈ h.head?, fill a = p0 := by
    intro a ha; apply hp; cases h <;> simp_all
  rw [streamOut_eq hP fill f _ p0 hp, streamOut_eq hP fill f _ p0 hp', ← List.append_assoc,
    slide_snoc K S]
  have hlen : (List.replicate P p0 ++ h).length = P + h.length := by simp
  rw [hlen]
  congr 1
  simp only [strideAt_valid hS]
  split
  · rename_i hv
    congr 2
    have e : List.replicate L p0 ++ h ++ [x] =
        List.replicate (L - P) p0 ++ (List.replicate P p0 ++ h ++ [x]) := by
      rw [← List.append_assoc, ← List.append_assoc, List.replicate_append_replicate,
        Nat.sub_add_cancel hL]
    rw [e, lastN_append_right (List.replicate (L - P) p0)]
    rw [List.length_append, hlen, List.length_singleton]; exact hv.1
  · rfl

theorem clipOut_eq (K S P : Nat) (fill : X → X) (f : List X → Y) {xs : List X} (hx : xs ≠ []) :
    clipOut K S P fill f xs =
      streamOut K S P fill f (xs ++ List.replicate P (fill (xs.getLast hx))) := by
  unfold clipOut streamOut
  rw [padStart_append _ _ _ _ hx]
  congr 1
  unfold padEnd
  have : (padStart P fill xs).getLast? = some (xs.getLast hx) := by
    cases xs with
    | nil => exact absurd rfl hx
    | cons a t =>
      rw [padStart, List.getLast?_append_of_ne_nil _ (by simp), List.getLast?_eq_some_getLast (by simp)]
  simp only [this]

end CoInf
