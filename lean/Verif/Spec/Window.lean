/-
Specification of windowed stream operators, written without reference to the model.
-/

namespace CoInf.Spec

variable {X Y : Type}

/-- Number of windows of length `K` with hop `S` in a sequence of length `L`. -/
def windowCount (K S L : Nat) : Nat := if L < K then 0 else (L - K) / S + 1

/-- The textbook strided sliding window: the `j`-th output is `f` of frames `jS, ..., jS+K-1`. -/
def slide (K S : Nat) (f : List X → Y) (zs : List X) : List Y :=
  (List.range (windowCount K S zs.length)).map fun j => f ((zs.drop (j * S)).take K)

/-- `P` copies of the fill of the first frame are put in front of a stream. -/
def padStart (P : Nat) (fill : X → X) : List X → List X
  | [] => []
  | x :: xs => List.replicate P (fill x) ++ x :: xs

/-- `P` copies of the fill of the last frame are put behind a clip. -/
def padEnd (P : Nat) (fill : X → X) (xs : List X) : List X :=
  match xs.getLast? with
  | none => xs
  | some x => xs ++ List.replicate P (fill x)

/-- What a windowed operator has emitted after the frames `xs` were streamed to it. -/
def streamOut (K S P : Nat) (fill : X → X) (f : List X → Y) (xs : List X) : List Y :=
  slide K S f (padStart P fill xs)

/-- What a windowed operator computes for the whole clip `xs` (both ends padded). -/
def clipOut (K S P : Nat) (fill : X → X) (f : List X → Y) (xs : List X) : List Y :=
  slide K S f (padEnd P fill (padStart P fill xs))

/-- The last `K` elements of a list. -/
def lastN (K : Nat) (l : List X) : List X := l.drop (l.length - K)

/-- Emission schedule: at 0-based step `t` an output appears. -/
def emits (delay stride t : Nat) : Prop := delay ≤ t ∧ (t - delay) % stride = 0

instance (d s t : Nat) : Decidable (emits d s t) := by unfold emits; infer_instance

/-- Number of outputs emitted during the first `n` steps. -/
def emitted (delay stride n : Nat) : Nat := if n ≤ delay then 0 else (n - 1 - delay) / stride + 1

end CoInf.Spec

namespace CoInf.Spec
variable {X : Type}

/-- A stream delayed by `d` frames, of which the first `e` outputs are suppressed: after `n` input
frames the outputs are frames `e, ..., n-d-1`. -/
def delayed (d e : Nat) (xs : List X) : List X := (xs.take (xs.length - d)).drop e

end CoInf.Spec

namespace CoInf.Spec
variable {X Y : Type}

/-- The textbook dilated sliding window: the `j`-th output is `f` of frames
`jS, jS+d, ..., jS+(K-1)d`. -/
def slideDil (K S d : Nat) (f : List X → Y) (zs : List X) : List Y :=
  (List.range (windowCount (d * (K - 1) + 1) S zs.length)).map fun j =>
    f ((List.range K).filterMap fun k => zs[j * S + k * d]?)

end CoInf.Spec
