import Verif.Lemmas.Dilated
import Verif.Lemmas.Observe
import Mathlib.Data.List.Basic

namespace CoInf
open Spec
variable {X Y : Type}

theorem range_get_eq (zs : List X) (K o : Nat) (h : o + K ≤ zs.length) :
    ((List.range K).filterMap fun k => zs[o + k]?) = (zs.drop o).take K := by
  apply List.ext_getElem?
  intro n
  induction K with
  | zero => simp
  | succ K ih =>
    have ih := ih (by omega)
    have hk : zs[o + K]? = some zs[o + K] := List.getElem?_eq_getElem (by omega)
    rw [List.range_succ, List.filterMap_append]
    simp only [List.filterMap_cons, hk, List.filterMap_nil]
    have hl : ((List.range K).filterMap fun k => zs[o + k]?).length = K := by
      have : ∀ K, o + K ≤ zs.length → ((List.range K).filterMap fun k => zs[o + k]?).length = K := by
        intro K
        induction K with
        | zero => intro _; rfl
        | succ K ih2 =>
          intro h
          have hk : zs[o + K]? = some zs[o + K] := List.getElem?_eq_getElem (by omega)
          rw [List.range_succ, List.filterMap_append]
          simp [hk, ih2 (by omega)]
      exact this K (by omega)
    rw [List.getElem?_append, hl, ih]
    by_cases hn : n < K
    · rw [if_pos hn, List.getElem?_take, List.getElem?_take, if_pos hn, if_pos (by omega)]
    · rw [if_neg hn]
      rw [List.getElem?_take]
      by_cases hn2 : n = K
      · subst hn2
        rw [if_pos (by omega), List.getElem?_drop, hk]; simp
      · rw [if_neg (by omega)]
        have : n - K = (n - K - 1) + 1 := by omega
        rw [this]; rfl

theorem window_lt {K S L j : Nat} (h : j < windowCount K S L) : j * S + K ≤ L := by
  unfold windowCount at h
  split at h
  · omega
  · have : j ≤ (L - K) / S := by omega
    have := Nat.mul_le_mul_right S this
    have := Nat.div_mul_le_self (L - K) S
    omega

theorem slideDil_one (K S : Nat) (hK : 1 ≤ K) (f : List X → Y) (zs : List X) :
    slideDil K S 1 f zs = slide K S f zs := by
  unfold slideDil slide
  have hk : 1 * (K - 1) + 1 = K := by omega
  rw [hk]
  apply List.map_congr_left
  intro j hj
  have := window_lt (List.mem_range.1 hj)
  simp only [Nat.mul_one]
  rw [range_get_eq zs K (j * S) this]

theorem slideDil_K1 (S d : Nat) (f : List X → Y) (zs : List X) :
    slideDil 1 S d f zs = slide 1 S f zs := by
  unfold slideDil slide
  have hk : d * (1 - 1) + 1 = 1 := by simp
  rw [hk]
  apply List.map_congr_left
  intro j hj
  have := window_lt (List.mem_range.1 hj)
  rw [← range_get_eq zs 1 (j * S) this]
  simp [List.filterMap_cons]

theorem slideDil_ones (K d n : Nat) : ∀ v ∈ slideDil K 1 d List.sum (List.replicate n (1 : Int)), v = K := by
  intro v hv
  unfold slideDil at hv
  obtain ⟨j, hj, rfl⟩ := List.mem_map.1 hv
  have hj := window_lt (List.mem_range.1 hj)
  simp only [List.length_replicate] at hj
  have : ((List.range K).filterMap fun k => (List.replicate n (1 : Int))[j * 1 + k * d]?) =
      (List.range K).map fun _ => (1 : Int) := by
    rw [← List.filterMap_eq_map]
    apply List.filterMap_congr
    intro k hk
    have hk := List.mem_range.1 hk
    have : k * d ≤ (K - 1) * d := Nat.mul_le_mul_right d (by omega)
    have e : d * (K - 1) = (K - 1) * d := Nat.mul_comm _ _
    rw [List.getElem?_replicate, if_pos (by omega)]; rfl
  rw [this]
  simp

end CoInf
