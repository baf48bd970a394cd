/-
The textbook recurrence: time is the outer loop, the layers are the inner loop.
-/
set_option autoImplicit false

namespace CoInf.Spec
variable {V S : Type}

/-- One frame passes through all layers. -/
def tick : List (V → S → V × S) → List S → V → V × List S
  | f :: fs, s :: ss, x =>
    let r := f x s
    let q := tick fs ss r.1
    (q.1, r.2 :: q.2)
  | _, _, x => (x, [])

/-- State of all layers after the frames. -/
def stateAfter (fs : List (V → S → V × S)) (ss : List S) (xs : List V) : List S := xs.foldl (fun s x => (tick fs s x).2) ss

/-- The outputs, frame by frame. -/
def recur (fs : List (V → S → V × S)) : List S → List V → List V
  | _, [] => []
  | ss, x :: xs => (tick fs ss x).1 :: recur fs (tick fs ss x).2 xs

end CoInf.Spec
