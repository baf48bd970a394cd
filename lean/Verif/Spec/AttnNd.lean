/-
Multi-head attention, entry by entry ("Attention Is All You Need", 3.2.2).
-/
import Verif.Model.AttnNd
import Mathlib.Algebra.Field.Basic
import Mathlib.Algebra.BigOperators.Group.Finset.Basic
import Mathlib.Data.Fintype.Basic

set_option autoImplicit false

namespace CoInf.Spec.Mha

variable {F : Type} [Field F] {H D m : Nat}

/-- Feature `d` of head `h` among the `H * D` features: each head has `D` consecutive ones. -/
def feat (h : Fin H) (d : Fin D) : Fin (H * D) := ⟨h * D + d, by
  have := Nat.mul_le_mul_right D (Nat.succ_le_of_lt h.isLt)
  rw [Nat.succ_mul] at this
  omega⟩

/-- Query, key and value of one sequence element. -/
structure Token (F : Type) (m : Nat) where
  query : Fin m → F
  key : Fin m → F
  value : Fin m → F

/-- Weights and biases. -/
structure Weights (F : Type) (m : Nat) where
  wq : Fin m → Fin m → F
  bq : Fin m → F
  wk : Fin m → Fin m → F
  bk : Fin m → F
  wv : Fin m → Fin m → F
  bv : Fin m → F
  wo : Fin m → Fin m → F
  bo : Fin m → F

/-- `w x + b`. -/
def affine (w : Fin m → Fin m → F) (b : Fin m → F) (x : Fin m → F) (e : Fin m) : F := ∑ j, w e j * x j + b e

variable (W : Weights F (H * D)) (ex : F → F) (sqrtD : F)

/-- `exp (⟨q, k⟩ / √D)` for the query of `x` and the key of `y`, in head `h`. -/
def score (h : Fin H) (x y : Token F (H * D)) : F :=
  ex ((∑ d : Fin D, affine W.wq W.bq x.query (feat h d) * affine W.wk W.bk y.key (feat h d)) / sqrtD)

/-- Feature `d` of head `h`: the values of the sequence `xs`, averaged with the scores as weights. -/
def head (xs : List (Token F (H * D))) (x : Token F (H * D)) (h : Fin H) (d : Fin D) : F :=
  (∑ j : Fin xs.length, score W ex sqrtD h x xs[j] * affine W.wv W.bv xs[j].value (feat h d)) /
    ∑ j : Fin xs.length, score W ex sqrtD h x xs[j]

/-- Multi-head attention of the query of `x` over the sequence `xs`: the heads, concatenated and projected. -/
def mha (xs : List (Token F (H * D))) (x : Token F (H * D)) (e : Fin (H * D)) : F :=
  (∑ h : Fin H, ∑ d : Fin D, W.wo e (feat h d) * head W ex sqrtD xs x h d) + W.bo e

end CoInf.Spec.Mha

/-! ### Reading the parameters of a module -/

namespace CoInf.Attn.Nd
open Spec
variable {F : Type} [Field F] {n H D : Nat}

/-- Bias or zero. -/
def biasOf {m : Nat} (b : Option (Fin m → F)) : Fin m → F := b.getD fun _ => 0

variable (p : Params F n H D (H * D) (H * D))

/-- Query, key and value of batch entry `b`. -/
def token (b : Fin n) (x : Frame F n (H * D) (H * D) (H * D)) : Mha.Token F (H * D) := ⟨x.query b, x.key b, x.value b⟩

/-- The rows of the packed matrix. -/
def weights (w : Mat F (3 * (H * D)) (H * D)) : Mha.Weights F (H * D) where
  wq := fun e => w ⟨e, by omega⟩
  bq := fun e => biasOf p.inBias ⟨e, by omega⟩
  wk := fun e => w ⟨H * D + e, by omega⟩
  bk := fun e => biasOf p.inBias ⟨H * D + e, by omega⟩
  wv := fun e => w ⟨2 * (H * D) + e, by omega⟩
  bv := fun e => biasOf p.inBias ⟨2 * (H * D) + e, by omega⟩
  wo := p.outW
  bo := biasOf p.outB

end CoInf.Attn.Nd
