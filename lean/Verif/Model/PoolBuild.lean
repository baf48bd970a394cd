/-
`build_from` of the pooling classes with its keyword arguments: /repo/continual/pooling.py:305-324 (AvgPool1d), 426-446 (AvgPool2d),
557-577 (AvgPool3d), 660-677 (MaxPool1d), 782-797 (MaxPool2d), 906-921 (MaxPool3d), with the constructors they call: pooling.py:62-106,
275-302, 386-423, 516-554, 630-657, 744-779, 868-903.

The poolings of torch are arbitrary functions here (`Functions`; Model/PoolNd.lean has their entries).  Assumed of torch: `forward` of
`nn.AvgPoolNd` and `nn.MaxPoolNd` calls the function of that name with the attributes of the object; a keyword that a constructor does not
know raises `TypeError`.  The sizes are tuples of the right length (other forms: Model/Args.lean).  The adaptive poolings are in
Model/Convert.lean.
-/
import Verif.Model.Pool

set_option autoImplicit false

namespace CoInf.PoolBuild

/-- The two kinds of pooling. -/
inductive Kind where
  | avg
  | max
  deriving DecidableEq

/-- Attributes of a pooling of torch.  `dilation` and `indices` (`return_indices`) belong to max pooling, `includePad`
(`count_include_pad`) and `divisor` (`divisor_override`) to average pooling. -/
structure Opts where
  kernel : List Nat
  stride : List Nat
  padding : List Nat
  dilation : List Nat
  ceil : Bool
  includePad : Bool
  divisor : Option Nat
  indices : Bool
  deriving DecidableEq

/-- `nn.AvgPoolNd`, `nn.MaxPoolNd` for `n` axes. -/
structure Torch where
  kind : Kind
  n : Nat
  opts : Opts
  deriving DecidableEq

/-- `co.AvgPoolNd`, `co.MaxPoolNd`: the attributes `forward` reads, kernel size, stride, padding and dilation in time, those of
`_spatial_pool_fn` (`none` is `unity`), and the padding in time. -/
structure Co where
  kind : Kind
  n : Nat
  opts : Opts
  time : Nat × Nat × Nat × Nat
  space : Option Opts
  fill : Pool.TFill
  deriving DecidableEq

/-- Keyword arguments of `build_from`; `stride=None` is possible, as is `divisor_override=None`; `unknown` are those that no class has. -/
structure Kw where
  kernel : Option (List Nat) := none
  stride : Option (Option (List Nat)) := none
  padding : Option (List Nat) := none
  dilation : Option (List Nat) := none
  ceil : Option Bool := none
  includePad : Option Bool := none
  divisor : Option (Option Nat) := none
  indices : Option Bool := none
  fill : Option String := none
  unknown : List String := []

/-- `PaddingMode(temporal_fill)`: pooling.py:94-99. -/
def readFill (s : String) : Except Err Pool.TFill :=
  if s = "zeros" then .ok .zeros
  else if s = "replicate" then .ok .replicate
  else if s = "neg_inf" then .ok .negInf
  else .error .value

/-- Attributes set before `_PoolNd.__init__`: `stride` falls back to the kernel size, `return_indices` is `False`, and so on (attributes that
a class lacks are given fixed values here). -/
def attributes (k : Kind) (n : Nat) (kernel : List Nat) (stride : Option (List Nat)) (padding dilation : List Nat) (ceil includePad : Bool)
    (divisor : Option Nat) : Opts where
  kernel := kernel
  stride := stride.getD kernel
  padding := padding
  dilation := dilation
  ceil := ceil
  includePad := match k with | .avg => includePad | .max => true
  divisor := match k with | .avg => if n = 1 then none else divisor | .max => none
  indices := false

/-- The spatial pooling of a class: pooling.py:295 (`unity`), 409-416 (`F.avg_pool1d` lacks `divisor_override`), 539-547, 650, 764-772,
888-896. -/
def spatial (k : Kind) (n : Nat) (o : Opts) : Option Opts :=
  if n = 1 then none
  else some { o with
    kernel := o.kernel.tail, stride := o.stride.tail, padding := o.padding.tail, dilation := o.dilation.tail,
    divisor := if k = .avg ∧ n = 3 then o.divisor else none }

/-- The constructors. -/
def make (k : Kind) (n : Nat) (o : Opts) (fill : String) : Except Err Co :=
  if k = .avg ∧ o.dilation.tail.any (· ≠ 1) then .error .assertion
  else if o.kernel.headD 0 = 0 then .error .assertion
  else match readFill fill with
    | .error e => .error e
    | .ok f => .ok ⟨k, n, o, (o.kernel.headD 0, o.stride.headD 0, o.padding.headD 0, o.dilation.headD 0), spatial k n o, f⟩

/-- Keywords that the constructor of the class lacks. -/
def refuses (k : Kind) (n : Nat) (w : Kw) : Bool :=
  !w.unknown.isEmpty || w.indices.isSome ||
    match k with
    | .avg => n = 1 && w.divisor.isSome
    | .max => w.includePad.isSome || w.divisor.isSome

/-- `dilation` is an argument of its own for average pooling, with default one; that of max pooling is taken from the module. -/
def Torch.dilation (m : Torch) : List Nat :=
  match m.kind with
  | .avg => List.replicate m.n 1
  | .max => m.opts.dilation

/-- `build_from(module, **kwargs)`. -/
def build (m : Torch) (w : Kw) : Except Err Co :=
  if refuses m.kind m.n w then .error .type
  else make m.kind m.n
    (attributes m.kind m.n (w.kernel.getD m.opts.kernel) (w.stride.getD (some m.opts.stride)) (w.padding.getD m.opts.padding)
      (w.dilation.getD m.dilation) (w.ceil.getD m.opts.ceil)
      (w.includePad.getD m.opts.includePad) (w.divisor.getD m.opts.divisor))
    (w.fill.getD "zeros")

variable {X : Type}

/-- The poolings of torch: results, and indices if they are asked for. -/
structure Functions (X : Type) where
  avg : Nat → List Nat → List Nat → List Nat → Bool → Bool → Option Nat → X → Except Err X
  max : Nat → List Nat → List Nat → List Nat → List Nat → Bool → X → Except Err X
  arg : Nat → List Nat → List Nat → List Nat → List Nat → Bool → X → Except Err X

/-- The function with the attributes of an object. -/
def Functions.call (f : Functions X) (k : Kind) (n : Nat) (o : Opts) (x : X) : Except Err (X × Option X) :=
  match k with
  | .avg => (f.avg n o.kernel o.stride o.padding o.ceil o.includePad o.divisor x).map (·, none)
  | .max =>
    match f.max n o.kernel o.stride o.padding o.dilation o.ceil x with
    | .error e => .error e
    | .ok y =>
      if o.indices then (f.arg n o.kernel o.stride o.padding o.dilation o.ceil x).map fun i => (y, some i)
      else .ok (y, none)

/-- `forward` of a module of torch. -/
def Torch.forward (f : Functions X) (m : Torch) (x : X) : Except Err (X × Option X) := f.call m.kind m.n m.opts x

/-- `forward` of a continual module: that of the class of torch. -/
def Co.forward (f : Functions X) (c : Co) (x : X) : Except Err (X × Option X) := f.call c.kind c.n c.opts x

/-- What `_forward_step` does with a frame before it is kept: pooling.py:189. -/
def Co.frame (f : Functions X) (c : Co) (x : X) : Except Err X :=
  match c.space with
  | none => .ok x
  | some o => (f.call c.kind (c.n - 1) o x).map (·.1)

end CoInf.PoolBuild
