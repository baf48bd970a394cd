/-
Model of /repo/continual/positional_encoding.py:12-89, `CyclicPositionalEncoding`: the table of static embeddings, over the
real numbers.  Rounding of floating point numbers is left out; in particular `np.arange(0, L + 0.01, 0.01)` has exactly
`100 L + 1` entries here.
-/
import Verif.Model.PosEnc
import Mathlib.Analysis.SpecialFunctions.Trigonometric.Basic
import Mathlib.Analysis.SpecialFunctions.Pow.Real

set_option autoImplicit false

namespace CoInf.Cyclic

/-- `embedding_dim // 2` -/
def half (dim : Nat) : Nat := dim / 2

/-- Entry `j` of `skip_set`: positional_encoding.py:23-26.  `np.linspace` with one point gives the first bound;
`dtype="int"` rounds down. -/
noncomputable def skipSet (N dim j : Nat) : Nat :=
  let base : ℝ := (N : ℝ) ^ (1 / (half dim : ℝ))
  if half dim = 1 then ⌊base⌋₊
  else ⌊base + j * ((N - base) / ((half dim : ℝ) - 1))⌋₊

/-- `skip` of column `i` as first set: positional_encoding.py:39-43. -/
noncomputable def skip₀ (N dim i : Nat) : Nat :=
  if i / 3 * 3 + 1 < half dim then skipSet N dim (i / 3 * 3 + 1) else skipSet N dim (half dim - 1)

/-- `skip` of column `i` in the end: positional_encoding.py:46-52. -/
noncomputable def skip (N dim i : Nat) : Nat :=
  if N > skip₀ N dim i then skip₀ N dim i else N

/-- The end of `longer_pattern`: positional_encoding.py:46-51.  (`skip₀` is not 0 if `N` is not: `skip₀_pos` in Props/Cyclic.) -/
noncomputable def longer (N dim i : Nat) : Nat :=
  if N > skip₀ N dim i then ⌈(N : ℝ) / skip₀ N dim i⌉₊ * skip₀ N dim i else N

/-- `num`: positional_encoding.py:54. -/
noncomputable def num (N dim i : Nat) : Nat := 100 * longer N dim i

/-- `fai`: positional_encoding.py:58-62. -/
noncomputable def fai (dim i : Nat) : ℝ :=
  if i ≤ half dim then 0 else 2 * Real.pi * ((-(i : ℝ) + half dim) / half dim)

/-- `np.mod` -/
noncomputable def npMod (x m : ℝ) : ℝ := x - m * ⌊x / m⌋

/-- The argument of `sin` and `cos` in `basesin` and `basecos`: positional_encoding.py:29-35. -/
noncomputable def angle (x omiga fai : ℝ) : ℝ :=
  let T := 2 * Real.pi / omiga
  omiga * |npMod x (2 * T) - T| + fai

/-- `x[k, i]`: positional_encoding.py:54-72.  Entry `m` of `longer_pattern` is `0.01 m`, entry `k` of the `linspace` is
`k num / N` rounded down. -/
noncomputable def entry (N dim k i : Nat) : ℝ :=
  let omiga := 2 * Real.pi / skip N dim i
  let x : ℝ := (0.01 : ℝ) * ((k * num N dim i / N : Nat) : ℝ)
  if i % 2 = 1 then Real.cos (angle x omiga (fai dim i)) else Real.sin (angle x omiga (fai dim i))

/-- `pooling`: positional_encoding.py:79. -/
def pooling (mean : Bool) : List Int := if mean then [-2, -1, 0, 1, 2] else [0]

/-- Lines 75-85 for one column `x` of the table: `pattern_sum` is the sum over the neighbours on the circle, `pattern.mean(0)`
the mean of the column. -/
noncomputable def pooled (mean : Bool) (N : Nat) (x : Nat → ℝ) (k : Nat) : ℝ :=
  1.0 / (pooling mean).length * ((pooling mean).map fun i => x (((k : Int) + i + N) % N).toNat).sum -
    ((List.range N).map x).sum / N

/-- The table `pattern`: positional_encoding.py:18-86.  `1 / (embedding_dim // 2)` and `2 * np.pi / skip` raise
`ZeroDivisionError` for less than two channels and without positions. -/
noncomputable def pattern (mean : Bool) (N dim : Nat) : Option (List (List ℝ)) :=
  if half dim = 0 ∨ N = 0 then none
  else some ((List.range N).map fun k => (List.range dim).map fun i => pooled mean N (fun k => entry N dim k i) k)

/-- `RecyclingPositionalEncoding(embed_dim, num_embeds, learned=False, forward_update_index_steps)`:
positional_encoding.py:136-148.  A frame is the list of its channels (at one point of the batch); addition is entrywise. -/
noncomputable def recycling (dim N : Nat) (fwdUpd : Int) : Option (PosEnc.Cfg (List ℝ)) :=
  match pattern true N dim with
  | none => none
  | some emb => some ⟨emb, List.zipWith (· + ·), fwdUpd⟩

end CoInf.Cyclic
