/-
The step of the convolutions in C++: /repo/continual/conv.cpp, and its call in conv.py:24-38, 178-197.

The call is commented out in this version; `dispatch` is `_forward_step` with these lines as they stand there.  The code falls back to
`_forward_step_py` if the C++ file cannot be compiled, so both have to compute the same.

Simplifications: the batch is there (`batchify` does nothing then); all rows of the buffer have the shape of `x_rest`; integers do not
overflow.  Left out: that pybind11 is given tensors for the indices and returns numbers for them.
-/
import Verif.Model.ConvNd

set_option autoImplicit false

namespace CoInf.Cpp

open ConvNd

variable {R β : Type} [NonUnitalNonAssocSemiring R]

/-- The result: as large as it should be, or with a last axis of size 1 stretched to the number of channels. -/
inductive Result (β : Type) (c : ConvNd.Cfg R) where
  | frame (y : OutFrame β c)
  | wide (y : β → Fin (c.groups * c.coutG) → ((j : Fin c.n) → Fin (c.hout j)) → Fin (c.groups * c.coutG) → R)

/-- `result.value() + bias_opt.value()`: conv.cpp:131-132.  Torch adds along the last axis: a bias for each channel (`n = 0`) if there are
no spatial axes, for each position of the last of them otherwise. -/
def addBias (c : ConvNd.Cfg R) (y : OutFrame β c) : Except Err (Result β c) :=
  match c.bias with
  | none => .ok (.frame y)
  | some v =>
    if hn : 0 < c.n then
      if hw : c.hout ⟨c.n - 1, by omega⟩ = c.groups * c.coutG then .ok (.frame fun b o p => y b o p + v (Fin.cast hw (p ⟨c.n - 1, by omega⟩)))
      else if h1 : c.groups * c.coutG = 1 then .ok (.frame fun b o p => y b o p + v ⟨0, by omega⟩)
      else if c.hout ⟨c.n - 1, by omega⟩ = 1 then .ok (.wide fun b o p q => y b o p + v q)
      else .error .runtime
    else .ok (.frame fun b o p => y b o p + v o)

/-- `init_state`: conv.cpp:37-61. -/
def initState (c : ConvNd.Cfg R) (rest : List (OutFrame β c)) : Conv.St (OutFrame β c) where
  buffer := List.replicate (c.K - 1) (rest.map fun _ => 0)
  index := 0
  strideIndex := (c.S : Int) - c.K + c.P

/-- The result: conv.cpp:119-133. -/
def output (c : ConvNd.Cfg R) (st : Conv.St (OutFrame β c)) (xOut : OutFrame β c) : Except Err (Option (Result β c)) :=
  if st.strideIndex = (c.S : Int) - 1 then
    match Conv.pick st st.buffer.length with
    | .error e => .error e
    | .ok ps =>
      match addBias c (xOut + ps.sum) with
      | .error e => .error e
      | .ok r => .ok (some r)
  else .ok none

/-- `stride_index`: conv.cpp:141-143 (`%` of C++). -/
def nextStride (S : Nat) (si : Int) : Int := if si + 1 > 0 then (si + 1).tmod S else si + 1

/-- `coconv_forward_step`: conv.cpp:63-146.  The frame is convolved with `stride`, all of it, temporal padding `K - 1`, and zero padding in
space. -/
def step (c : ConvNd.Cfg R) (x : Frame β c) (s : Option (Conv.St (OutFrame β c))) :
    Except Err (Option (Result β c) × Option (Conv.St (OutFrame β c))) :=
  match convFunc c c.S (c.K - 1) none [padFrame c x] with
  | .error e => .error e
  | .ok ys => match pyGet ys 0 with
    | .error e => .error e
    | .ok xOut =>
      let st := match s with
        | some st => st
        | none => initState c (ys.drop 1)
      match output c st xOut with
      | .error e => .error e
      | .ok out =>
        -- `buffer[state_index] = x_rest`
        match pySet st.buffer st.index (ys.drop 1) with
        | .error e => .error e
        | .ok b => .ok (out, some ⟨b, (st.index + 1).tmod st.buffer.length, nextStride c.S st.strideIndex⟩)

/-- What `_forward_step_py` returns, as such a result. -/
def ofPy {c : ConvNd.Cfg R} (r : Option (OutFrame β c) × Option (Conv.St (OutFrame β c))) :
    Option (Result β c) × Option (Conv.St (OutFrame β c)) := (r.1.map .frame, r.2)

/-- `_forward_step` with the call: conv.py:178-198. -/
def dispatch (c : ConvNd.Cfg R) (training : Bool) (x : Frame β c) (s : Option (Conv.St (OutFrame β c))) :
    Except Err (Option (Result β c) × Option (Conv.St (OutFrame β c))) :=
  if training = false ∧ c.padMode = .zeros then step c x s else (pstep c x s).map ofPy

end CoInf.Cpp
