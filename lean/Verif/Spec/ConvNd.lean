/-
The textbook N-dimensional convolution, written with integer coordinates and without reference to the model of
the code.
-/
import Mathlib.Algebra.BigOperators.Pi
import Mathlib.Data.Fintype.Pi
import Mathlib.Algebra.BigOperators.Ring.Finset

set_option autoImplicit false

namespace CoInf.Spec

/-- Ways of continuing a signal beyond its ends. -/
inductive Extend where
  | zeros
  | replicate
  deriving DecidableEq, Repr

/-- Continue a sequence to all integers. -/
def extend1 {α : Type} (e : Extend) (zero : α) (xs : List α) (t : Int) : α :=
  match e with
  | .zeros => if 0 ≤ t then xs.getD t.toNat zero else zero
  | .replicate => xs.getD (min t.toNat (xs.length - 1)) zero

/-- Continue an array over a box to all integer positions. -/
def extendN {R : Type} [Zero R] (e : Extend) {n : Nat} {h : Fin n → Nat} (x : ((j : Fin n) → Fin (h j)) → R)
    (q : Fin n → Int) : R :=
  match e with
  | .zeros => if hq : ∀ j, 0 ≤ q j ∧ (q j).toNat < h j then x fun j => ⟨(q j).toNat, (hq j).2⟩ else 0
  | .replicate =>
    if hq : ∀ j, min (q j).toNat (h j - 1) < h j then x fun j => ⟨min (q j).toNat (h j - 1), hq j⟩ else 0

/-- The cross-correlation at output time `m`, batch entry `b`, output channel `o` and output position `p`:
`sum over c, k, κ of W[o, c, k, κ] * x[m S + k - P, b, C(o, c), p s + κ d - π] + bias[o]`, where `C(o, c)` is the
`c`-th channel of the group of `o`. -/
def convAt {R β : Type} [NonUnitalNonAssocSemiring R] {n cinG coutG groups K : Nat} (S P : Nat)
    {kern : Fin n → Nat} (str dil pad : Fin n → Nat)
    (W : Fin (groups * coutG) → Fin cinG → Fin K → ((j : Fin n) → Fin (kern j)) → R)
    (bias : Fin (groups * coutG) → R)
    (x : Int → β → Nat → (Fin n → Int) → R)
    (m : Nat) (b : β) (o : Fin (groups * coutG)) (p : Fin n → Nat) : R :=
  (∑ c : Fin cinG, ∑ k : Fin K, ∑ κ : (j : Fin n) → Fin (kern j),
    W o c k κ * x (m * S + k - P) b (o / coutG * cinG + c) (fun j => p j * str j + κ j * dil j - pad j)) + bias o

end CoInf.Spec
