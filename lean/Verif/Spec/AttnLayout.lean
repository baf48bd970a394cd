/-
Which axis of a clip is time, and feeding a clip frame by frame.
-/
import Verif.Model.AttnLayout

set_option autoImplicit false

namespace CoInf.Layout
variable {F S : Type} [Zero F]

/-- The time axis of a clip: `(T, N, E)`, with `batch_first` `(N, T, E)`, and `(N, E, T)` with `embed_dim_second`. -/
def Lay.time (l : Lay) : Nat := if l.batchFirst then (if l.embedSecond then 2 else 1) else 0

/-- The shape of a clip of `T` frames for a batch of `N` and `E` features. -/
def Lay.clip (l : Lay) (N T E : Nat) : List Nat :=
  match l.batchFirst, l.embedSecond with
  | true, false => [N, T, E]
  | true, true => [N, E, T]
  | false, false => [T, N, E]
  | false, true => [T, E, N]

/-- `forward_step` on the frames `ts` of a clip, one after the other. -/
def frameByFrame (l : Lay) (core : Core F S) (q k v : Tensor F) : S → List Nat →
    Except Err (List (Option (Tensor F)) × S)
  | s, [] => .ok ([], s)
  | s, t :: ts => do
    let qt ← q.select l.time t
    let kt ← k.select l.time t
    let vt ← v.select l.time t
    let (o, s') ← forwardStep l core s qt kt vt
    let (os, s'') ← frameByFrame l core q k v s' ts
    return (o :: os, s'')

end CoInf.Layout
