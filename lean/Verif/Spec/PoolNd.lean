/-
The textbook N-dimensional average and max pooling, written with integer coordinates and without reference to the
model of the code.
-/
import Verif.Spec.ConvNd
import Mathlib.Algebra.Field.Defs
import Mathlib.Data.Finset.Lattice.Fold
import Mathlib.Data.Fintype.Prod

set_option autoImplicit false

namespace CoInf.Spec

/-- Continue an array over a box to all integer positions by the value `z`. -/
def extendWith {R : Type} (z : R) {n : Nat} {h : Fin n → Nat} (x : ((j : Fin n) → Fin (h j)) → R)
    (q : Fin n → Int) : R :=
  if hq : ∀ j, 0 ≤ q j ∧ (q j).toNat < h j then x fun j => ⟨(q j).toNat, (hq j).2⟩ else z

/-- Average over the window at output time `m` and output position `p`:
`(sum over k, κ of x[m S + k - P, b, p s + κ - π]) / (K Π kern)`. -/
def avgAt {R β : Type} [Field R] {n : Nat} (K S P : Nat) (kern str pad : Fin n → Nat)
    (x : Int → β → (Fin n → Int) → R) (m : Nat) (b : β) (p : Fin n → Nat) : R :=
  (∑ k : Fin K, ∑ κ : (j : Fin n) → Fin (kern j), x (m * S + k - P) b fun j => p j * str j + κ j - pad j) /
    (K * ∏ j, (kern j : R))

/-- Maximum over the window at output time `m` and output position `p`: of `x[m S + k - P, b, p s + κ d - π]`
over all `k` and `κ`. -/
def maxAt {R β : Type} [LinearOrder R] [OrderBot R] {n : Nat} (K S P : Nat) (kern str dil pad : Fin n → Nat)
    (x : Int → β → (Fin n → Int) → R) (m : Nat) (b : β) (p : Fin n → Nat) : R :=
  Finset.univ.sup fun κ : Fin K × ((j : Fin n) → Fin (kern j)) =>
    x (m * S + κ.1 - P) b fun j => p j * str j + κ.2 j * dil j - pad j

end CoInf.Spec
