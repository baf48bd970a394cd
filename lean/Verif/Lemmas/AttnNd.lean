import Verif.Model.AttnNd
import Verif.Spec.AttnNd
import Verif.Lemmas.Retro
import Mathlib.Logic.Equiv.Fin.Basic
import Mathlib.Algebra.BigOperators.Field

set_option autoImplicit false

namespace CoInf.Attn.Nd
open Spec
variable {F : Type} [Field F] {n H D E kd vd : Nat}

/-! ### Splitting into heads -/

/-- Row of batch entry `b` and head `h`. -/
def brow (b : Fin n) (h : Fin H) : Fin (n * H) := Mha.feat b h

theorem heads_apply (x : Mat F n (H * D)) (b : Fin n) (h : Fin H) (d : Fin D) :
    heads x (brow b h) d = x b (Mha.feat h d) := by
  have e : (b.val * H + h.val) * D + d.val = (h.val * D + d.val) + (H * D) * b.val := by ring
  have hlt : h.val * D + d.val < H * D := (Mha.feat h d).isLt
  have hpos : 0 < H * D := by omega
  have e1 : ((b.val * H + h.val) * D + d.val) / (H * D) = b.val := by
    rw [e, Nat.add_mul_div_left _ _ hpos, Nat.div_eq_of_lt hlt, Nat.zero_add]
  have e2 : ((b.val * H + h.val) * D + d.val) % (H * D) = h.val * D + d.val := by
    rw [e, Nat.add_mul_mod_self_left, Nat.mod_eq_of_lt hlt]
  exact congr (congrArg x (Fin.ext e1)) (Fin.ext e2)

theorem unheads_apply (y : Mat F (n * H) D) (b : Fin n) (h : Fin H) (d : Fin D) :
    unheads y b (Mha.feat h d) = y (brow b h) d := by
  have e : b.val * (H * D) + (h.val * D + d.val) = d.val + D * (b.val * H + h.val) := by ring
  have hpos : 0 < D := by have := d.isLt; omega
  have e1 : (b.val * (H * D) + (h.val * D + d.val)) / D = b.val * H + h.val := by
    rw [e, Nat.add_mul_div_left _ _ hpos, Nat.div_eq_of_lt d.isLt, Nat.zero_add]
  have e2 : (b.val * (H * D) + (h.val * D + d.val)) % D = d.val := by
    rw [e, Nat.add_mul_mod_self_left, Nat.mod_eq_of_lt d.isLt]
  exact congr (congrArg y (Fin.ext e1)) (Fin.ext e2)

/-- A sum over the features is a sum over heads and their features. -/
theorem sum_feat (f : Fin (H * D) → F) : ∑ j, f j = ∑ h : Fin H, ∑ d : Fin D, f (Mha.feat h d) := by
  rw [← Fintype.sum_prod_type', ← finProdFinEquiv.sum_comp]
  apply Finset.sum_congr rfl
  rintro ⟨h, d⟩ _
  congr 1
  apply Fin.ext
  show d.val + D * h.val = h.val * D + d.val
  ring

/-! ### The textbook weights of a module -/

variable (p : Params F n H D (H * D) (H * D))

theorem linear_apply {o i : Nat} (w : Mat F o i) (b : Option (Fin o → F)) (x : Mat F n i) (r : Fin n) (c : Fin o) :
    linear w b x r c = ∑ j, w c j * x r j + biasOf b c := by
  unfold linear biasOf
  congr 1
  · exact Finset.sum_congr rfl fun _ _ => mul_comm _ _
  · cases b <;> rfl

theorem chunk_bias (b : Option (Fin (3 * E) → F)) (k : Fin 3) (e : Fin E) :
    biasOf (b.map (chunk3 · k)) e = chunk3 (biasOf b) k e := by
  cases b <;> rfl

theorem chunk0 {α : Type} (w : Fin (3 * E) → α) (e : Fin E) : chunk3 w 0 e = w ⟨e, by omega⟩ := by
  unfold chunk3; congr 1; apply Fin.ext; simp

theorem chunk1 {α : Type} (w : Fin (3 * E) → α) (e : Fin E) : chunk3 w 1 e = w ⟨E + e, by omega⟩ := by
  unfold chunk3; congr 1; apply Fin.ext; simp

theorem chunk2 {α : Type} (w : Fin (3 * E) → α) (e : Fin E) : chunk3 w 2 e = w ⟨2 * E + e, by omega⟩ := rfl

variable {p} {w : Mat F (3 * (H * D)) (H * D)} (hp : p.proj = .packed w)
include hp

theorem q_eq (x : Frame F n (H * D) (H * D) (H * D)) (b : Fin n) (h : Fin H) (d : Fin D) :
    (cfg p).q x (brow b h) d = Mha.affine (weights p w).wq (weights p w).bq (token b x).query (Mha.feat h d) := by
  show heads (qkv p.proj p.inBias x).1 _ _ = _
  rw [heads_apply, hp]
  show linear _ _ _ _ _ = _
  rw [linear_apply, chunk_bias]
  simp only [chunk0]
  rfl

theorem k_eq (x : Frame F n (H * D) (H * D) (H * D)) (b : Fin n) (h : Fin H) (d : Fin D) :
    (cfg p).k x (brow b h) d = Mha.affine (weights p w).wk (weights p w).bk (token b x).key (Mha.feat h d) := by
  show heads (qkv p.proj p.inBias x).2.1 _ _ = _
  rw [heads_apply, hp]
  show linear _ _ _ _ _ = _
  rw [linear_apply, chunk_bias]
  simp only [chunk1]
  rfl

theorem v_eq (x : Frame F n (H * D) (H * D) (H * D)) (b : Fin n) (h : Fin H) (d : Fin D) :
    (cfg p).v x (brow b h) d = Mha.affine (weights p w).wv (weights p w).bv (token b x).value (Mha.feat h d) := by
  show heads (qkv p.proj p.inBias x).2.2 _ _ = _
  rw [heads_apply, hp]
  show linear _ _ _ _ _ = _
  rw [linear_apply, chunk_bias]
  simp only [chunk2]
  rfl

theorem affinity_eq (b : Fin n) (h : Fin H) (x y : Frame F n (H * D) (H * D) (H * D)) :
    affinity (cfg p).ex (cfg p).scale (cfg p).q (cfg p).k (brow b h) x y =
      Mha.score (weights p w) p.ex (p.sqrt D) h (token b x) (token b y) := by
  unfold affinity Mha.score
  show p.ex _ = _
  congr 1
  rw [Finset.sum_div]
  apply Finset.sum_congr rfl
  intro d _
  rw [q_eq hp, k_eq hp]
  show _ * (1 / p.sqrt D) * _ = _
  ring

theorem attention_eq (xs : List (Frame F n (H * D) (H * D) (H * D))) (x : Frame F n (H * D) (H * D) (H * D)) (b : Fin n)
    (h : Fin H) (d : Fin D) :
    attention (cfg p).ex (cfg p).scale (cfg p).q (cfg p).k (cfg p).v xs x (brow b h) d =
      Mha.head (weights p w) p.ex (p.sqrt D) (xs.map (token b)) (token b x) h d := by
  unfold attention Mha.head
  simp only [affinity_eq hp, v_eq hp]
  have hl : (xs.map (token b)).length = xs.length := List.length_map _
  congr 1
  · refine Fintype.sum_equiv (finCongr hl.symm) _ _ fun j => ?_
    simp
  · refine Fintype.sum_equiv (finCongr hl.symm) _ _ fun j => ?_
    simp

/-- An output of the module is textbook multi-head attention, for each batch entry. -/
theorem out_eq (xs : List (Frame F n (H * D) (H * D) (H * D))) (x : Frame F n (H * D) (H * D) (H * D)) (b : Fin n)
    (e : Fin (H * D)) :
    (cfg p).out (attention (cfg p).ex (cfg p).scale (cfg p).q (cfg p).k (cfg p).v xs x) b e =
      Mha.mha (weights p w) p.ex (p.sqrt D) (xs.map (token b)) (token b x) e := by
  show linear p.outW p.outB _ b e = _
  rw [linear_apply, sum_feat]
  unfold Mha.mha
  simp only [unheads_apply, attention_eq hp]
  rfl

/-! ### Supported options -/

variable (hz : p.zeroAttn = false) (hb : p.biasKV = none)
include hz hb

theorem check_ok : check p = .ok () := by
  unfold check
  rw [hz, hp, hb]
  rfl

theorem row_plain (x : Frame F n (H * D) (H * D) (H * D)) (xs : List (Frame F n (H * D) (H * D) (H * D))) :
    row p x xs = fullRow (cfg p) x xs := by
  unfold row keys values fullRow
  rw [hz, hb]
  simp

theorem retroBase_eq : retroBase p = Attn.retroBase (cfg p) := by
  unfold retroBase Attn.retroBase
  rw [check_ok hp hz hb]
  simp only [row_plain hp hz hb]
  rfl

theorem singleBase_eq (qi : Int) (sf : Bool) : singleBase p qi sf = Attn.singleBase (cfg p) qi sf := by
  unfold singleBase Attn.singleBase
  rw [check_ok hp hz hb]
  simp only [row_plain hp hz hb]
  rfl

end CoInf.Attn.Nd
