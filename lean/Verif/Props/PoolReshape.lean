/-
Property C66: the temporal pooling of buffered frames pools each location over time.
-/
import Verif.Lemmas.Reshape

set_option autoImplicit false

namespace CoInf
open Tensor PoolReshape
variable {F : Type} [Zero F]

/-- **C66**, one-dimensional pooling: for `T` buffered frames `(B, C)` of any sizes, the result has the shape of a frame,
and each entry is the pooling (mean or maximum - any function) of the entries of the frames at that location. -/
theorem C66_1d (pool : List F → F) (x : Tensor F) (T B C : Nat) (hx : x.shape = [T, B, C]) :
    ∃ y, temporal 1 pool x = .ok y ∧ y.shape = [B, C] ∧ ∀ b < B, ∀ c < C,
      y.get [b, c] = pool ((List.range T).map fun t => x.get [t, b, c]) := by
  have e := eq_of3 x (fun i j k => x.get [i, j, k]) hx fun _ _ _ _ _ _ => rfl
  refine ⟨of2 B C fun b c => pool ((List.range T).map fun t => x.get [t, b, c]), ?_, rfl, fun b hb c hc => of2_get _ hb hc⟩
  show pool1 pool x = _
  conv_lhs => rw [e]
  simp only [pool1, of3_shape, permute3_120, Except.bind, bind, temporalPool_of3, reshape3_drop]

/-- **C66**, two-dimensional pooling: frames `(B, C, S)`. -/
theorem C66_2d (pool : List F → F) (x : Tensor F) (T B C S : Nat) (hx : x.shape = [T, B, C, S]) :
    ∃ y, temporal 2 pool x = .ok y ∧ y.shape = [B, C, S] ∧ ∀ b < B, ∀ c < C, ∀ s < S,
      y.get [b, c, s] = pool ((List.range T).map fun t => x.get [t, b, c, s]) := by
  have e := eq_of4 x (fun i j k m => x.get [i, j, k, m]) hx fun _ _ _ _ _ _ _ _ => rfl
  refine ⟨of3 B C S fun b c s => pool ((List.range T).map fun t => x.get [t, b, c, s]), ?_, rfl,
    fun b hb c hc s hs => of3_get _ hb hc hs⟩
  show pool2 pool x = _
  conv_lhs => rw [e]
  simp only [pool2, of4_shape, permute4_1320, Except.bind, bind, temporalPool_of3, reshape4_merge, reshape3_split,
    permute3_021]
  congr 1
  refine eq_of3 _ _ rfl fun b hb c hc s hs => ?_
  rw [of3_get _ hb hc hs]
  have hS : 0 < S := by omega
  rw [Nat.mul_comm b, Nat.mul_add_div hS, Nat.mul_add_mod, Nat.div_eq_of_lt hs, Nat.mod_eq_of_lt hs, Nat.add_zero]

/-- **C66**, three-dimensional pooling: frames `(B, C, H, W)`. -/
theorem C66_3d (pool : List F → F) (x : Tensor F) (T B C H W : Nat) (hx : x.shape = [T, B, C, H, W]) :
    ∃ y, temporal 3 pool x = .ok y ∧ y.shape = [B, C, H, W] ∧ ∀ b < B, ∀ c < C, ∀ h < H, ∀ w < W,
      y.get [b, c, h, w] = pool ((List.range T).map fun t => x.get [t, b, c, h, w]) := by
  have e := eq_of5 x (fun i j k m n => x.get [i, j, k, m, n]) hx fun _ _ _ _ _ _ _ _ _ _ => rfl
  refine ⟨of4 B C H W fun b c h w => pool ((List.range T).map fun t => x.get [t, b, c, h, w]), ?_, rfl,
    fun b hb c hc h hh w hw => of4_get _ hb hc hh hw⟩
  show pool3 pool x = _
  conv_lhs => rw [e]
  simp only [pool3, of5_shape, permute5_13420, Except.bind, bind, temporalPool_of3, reshape5_merge, reshape3_split2,
    permute4_0312]
  congr 1
  refine eq_of4 _ _ rfl fun b hb c hc h hh w hw => ?_
  rw [of4_get _ hb hc hh hw]
  have hH : 0 < H := by omega
  have hW : 0 < W := by omega
  have e1 : ((b * H + h) * W + w) / W = b * H + h := by
    rw [Nat.mul_comm _ W, Nat.mul_add_div hW, Nat.div_eq_of_lt hw, Nat.add_zero]
  have e2 : ((b * H + h) * W + w) % W = w := by
    rw [Nat.mul_comm _ W, Nat.mul_add_mod, Nat.mod_eq_of_lt hw]
  rw [e1, e2, Nat.mul_comm b, Nat.mul_add_div hH, Nat.mul_add_mod, Nat.div_eq_of_lt hh, Nat.mod_eq_of_lt hh, Nat.add_zero]

/-! ### Examples -/

/-- Two frames for a batch of two with two channels and positions 2 × 3, all entries different. -/
def exBuf : Tensor Int := Tensor.of [2, 2, 2, 2, 3] fun idx =>
  idx.getD 0 0 * 24 + idx.getD 1 0 * 12 + idx.getD 2 0 * 6 + idx.getD 3 0 * 3 + idx.getD 4 0

example : (temporal 3 List.sum exBuf).toOption.map (fun y => (y.shape, y.get [1, 0, 1, 2])) =
    some ([2, 2, 2, 3], 17 + 41) := by decide +kernel

end CoInf
