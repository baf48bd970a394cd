/-
The networks that the compositional theorems speak about: every nesting of `Sequential` and
`BroadcastReduce` over convolutions, poolings, delays, skips, recurrent and frame-wise modules.

`Net k m φ` lists the admissible constructor arguments and computes the stream function `φ` that the
module `m` is specified to implement.  The class `k` selects additional requirements:
* `k.geo`: the members report their temporal geometry correctly (no `Skip`, no shrinking `Delay`, no
  recurrent module, which reports receptive field 1 but depends on everything it has seen);
* `k.pad = 0`: nothing is assumed of the arithmetic of convolutions (`convRound`), so that the statements hold to the last bit;
* `k.pad ≥ 1`: streaming and `forward` use the same padding;
* `k.pad = 2`: additionally no strided member is followed by another member;
* `k.pad = 3`: additionally all members have stride one.
-/
import Verif.Spec.Geometry
import Verif.Spec.Reduce
import Verif.Spec.Conv
import Verif.Model.Broadcast
import Verif.Model.Pool
import Verif.Model.Closure
import Verif.Model.Rnn
import Verif.Spec.Rnn

namespace CoInf.Spec

/-- Requirement classes, see above. -/
structure Cls where
  geo : Bool
  pad : Nat

/-- Class of the members in front of the last member of a `Sequential` of class `k`. -/
def Cls.front (k : Cls) : Cls := ⟨k.geo, if k.pad = 2 then 3 else k.pad⟩

/-- Admissible convolution arguments. -/
structure ConvOk {X Y : Type} [Zero X] [AddCommMonoid Y] (c : Conv.Cfg X Y) (k : Cls) : Prop where
  K_pos : 1 ≤ c.K
  S_pos : 1 ≤ c.S
  P_lt : c.P < c.K
  K1 : c.K = 1 → c.S = 1
  linear : ∀ j, c.w j 0 = 0
  mode : 1 ≤ k.pad → c.padMode = c.fill
  unit : 3 ≤ k.pad → c.S = 1

/-- Admissible convolution arguments where nothing is known of the arithmetic (floating-point numbers: sums depend on their order), in
which case `forward` is not compared with streaming. -/
structure ConvRoundOk {X Y : Type} [Zero X] [Zero Y] [Add Y] (c : Conv.Cfg X Y) (k : Cls) : Prop where
  K_pos : 1 ≤ c.K
  S_pos : 1 ≤ c.S
  P_lt : c.P < c.K
  K1 : c.K = 1 → c.S = 1
  linear : ∀ j, c.w j 0 = 0
  pad : k.pad = 0

/-- Admissible pooling arguments. -/
structure PoolOk {X Y : Type} (c : Pool.Cfg X Y) (k : Cls) : Prop where
  K_pos : 1 ≤ c.K
  S_pos : 1 ≤ c.S
  P_lt : c.P < c.K
  dil : c.dil = 1
  fill : ∀ x, c.spatial (c.fillIn x) = c.fillOut (c.spatial x)
  order : OrderFree c.pool
  mode : 1 ≤ k.pad → c.P = 0 ∨ ∀ x, c.spatial (c.fillIn x) = c.refPad
  unit : 3 ≤ k.pad → c.S = 1

/-- A function on clips that acts frame by frame. (It may reject a clip without frames.) -/
structure FrameWise {X Y : Type} (g : List X → Except Err (List Y)) (f : X → Y) : Prop where
  eq : ∀ xs, xs ≠ [] → g xs = .ok (xs.map f)
  nil : ∀ ys, g [] = .ok ys → ys = []

/-- A `Lambda` whose function acts frame by frame in every mode. -/
structure LambdaOk {X Y : Type} (c : Lambda.Cfg X Y) (f : X → Y) : Prop where
  fwd : FrameWise (Lambda.forward c) f
  steps : ∀ xs, xs ≠ [] → Lambda.forwardSteps c xs = .ok (xs.map f)
  step : ∀ x, Lambda.stepFn c x = .ok (f x)

/-- Number of suppressed outputs of a shrinking `Delay`. -/
def delayLead {X : Type} (c : Delay.Cfg X) : Nat := if c.shrink = .on then c.d else 0

/-- Frames are reduced by `f`, clips frame by frame; a clip reduction has no frames iff one of its
arguments has none. -/
structure ReduceOk {Y Z : Type} (r : Reducer Y Z) (f : List Y → Z) (n : Nat) : Prop where
  frame : ∀ ys : List Y, ys.length = n → r.frame ys = .ok (f ys)
  clip : ∀ (cs : List (List Y)) (T : Nat), cs.length = n → (∀ c ∈ cs, c.length = T) →
    r.clip cs = .ok (zipReduce f cs)
  nonempty : ∀ {cs zs}, r.clip cs = .ok zs → (∀ c ∈ cs, c ≠ []) → zs ≠ []
  empty : ∀ {cs zs}, r.clip cs = .ok zs → [] ∈ cs → zs = []

/-- Networks and their stream functions. -/
inductive Net : Cls → {X Y : Type} → CoMod (.stream X) (.stream Y) → (List X → List Y) → Prop where
  | conv {k X Y} [Zero X] [AddCommMonoid Y] (c : Conv.Cfg X Y) (h : ConvOk c k) :
      Net k (Conv.mod c) (streamOut c.K c.S c.P (c.fill.make 0) (corr c.w c.bias))
  | convRound {k X Y} [Zero X] [Zero Y] [Add Y] (c : Conv.Cfg X Y) (h : ConvRoundOk c k) :
      Net k (Conv.mod c) (streamOut c.K c.S c.P (c.fill.make 0) (corrSeq c.w c.bias))
  | pool {k X Y} (c : Pool.Cfg X Y) (h : PoolOk c k) :
      Net k (Pool.mod c) (streamOut c.K c.S c.P c.fillIn fun win => c.pool (win.map c.spatial))
  | delay {k X} (c : Delay.Cfg X) (h : k.geo ∨ 1 ≤ k.pad → c.shrink = .off) :
      Net k (Delay.mod c) (delayed c.d (delayLead c))
  | skip {k X} (n : Nat) (h : ¬ k.geo) (h' : k.pad ≤ 2) : Net k (Skip.mod n X) (List.drop n)
  | rnn {k V S} (c : Rnn.Cfg V S) (h : ¬ k.geo) :
      Net k (Rnn.mod c) (recur c.layers (c.layers.map fun _ => c.zero))
  | pointwise {k X Y} (f : X → Y) : Net k (Pointwise.mod f) (List.map f)
  | lambda {k X Y} (c : Lambda.Cfg X Y) (f : X → Y) (h : LambdaOk c f) :
      Net k (Lambda.mod c) (List.map f)
  | stepping {k X Y} (g : List X → Except Err (List Y)) (f : X → Y) (s p : Nat) (h : FrameWise g f)
      (hg : k.geo → s = 1 ∧ p = 0) : Net k (Stepping.mod g s p) (List.map f)
  | single {k X Y} {m : CoMod (.stream X) (.stream Y)} {φ} (h : Net k m φ) :
      Net k (Sequential.mod (.single m)) φ
  | cons {k X Y Z} {m : CoMod (.stream X) (.stream Y)} {c : Chain (.stream Y) (.stream Z)} {φ ψ}
      (h1 : Net k.front m φ) (h2 : Net k (Sequential.mod c) ψ) :
      Net k (Sequential.mod (.cons m c)) (ψ ∘ φ)
  | reduce {k X Y Z} {n : Nat} (r : Reducer Y Z) (f : List Y → Z)
      (ms : Fin n → CoMod (.stream X) (.stream Y)) (φs : Fin n → List X → List Y)
      (hn : 1 ≤ n) (h : ∀ j, Net k (ms j) (φs j)) (hr : ReduceOk r f n)
      (hal : ∀ i j xs, (φs i xs).length = (φs j xs).length)
      (hgeo : k.geo → ∀ i j, (ms i).stride = (ms j).stride ∧ (ms i).delay = (ms j).delay)
      (hpad : 2 ≤ k.pad → ∀ i j {xs ys ys' a b}, (ms i).fwd (ms i).init xs = .ok (ys, a) →
        (ms j).fwd (ms j).init xs = .ok (ys', b) → ys.length = ys'.length) :
      Net k (BroadcastReduce.mod r (List.ofFn ms)) fun xs => zipReduce f (List.ofFn fun j => φs j xs)

end CoInf.Spec
