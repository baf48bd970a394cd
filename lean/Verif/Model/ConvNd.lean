/-
The convolution of /repo/continual/conv.py with all its axes: batch, channels, groups, and any number of spatial
axes with kernel size, stride, dilation and padding.

`Verif.Model.Conv` treats the temporal axis and leaves the map `w k` applied by the `k`-th temporal slice of the
kernel to a frame abstract.  Here the calls of `F.conv1d/conv2d/conv3d` made by the code are written out, so that
`w k` need not be assumed.
-/
import Verif.Model.Conv
import Mathlib.Algebra.BigOperators.Pi
import Mathlib.Data.Fintype.Pi
import Mathlib.Algebra.BigOperators.Ring.Finset

set_option autoImplicit false

namespace CoInf.ConvNd

/-- Constructor arguments of `_ConvCoNd` (conv.py:44-123) together with the spatial shape `h` of the frames.
`n` is the number of spatial axes (0, 1, 2 for `Conv1d`, `Conv2d`, `Conv3d`).  There are `groups * cinG` input
and `groups * coutG` output channels (torch requires both to be divisible by the number of groups). -/
structure Cfg (R : Type) where
  n : Nat
  groups : Nat
  cinG : Nat
  coutG : Nat
  K : Nat
  S : Nat
  P : Nat
  kern : Fin n → Nat
  str : Fin n → Nat
  dil : Fin n → Nat
  pad : Fin n → Nat
  h : Fin n → Nat
  fill : Fill
  padMode : Fill
  weight : Fin (groups * coutG) → Fin cinG → Fin K → ((j : Fin n) → Fin (kern j)) → R
  bias : Option (Fin (groups * coutG) → R)

variable {R β : Type}

/-- Spatial size of the output: the formula of the torch documentation,
`(h + 2 pad - dil (kern - 1) - 1) / str + 1`. -/
def Cfg.hout (c : Cfg R) (j : Fin c.n) : Nat := (c.h j + 2 * c.pad j - c.dil j * (c.kern j - 1) - 1) / c.str j + 1

/-- One input frame `(B, C, H, W)`; `β` indexes the batch. -/
abbrev Frame (β : Type) (c : Cfg R) : Type := β → Fin (c.groups * c.cinG) → ((j : Fin c.n) → Fin (c.h j)) → R

/-- One output frame. -/
abbrev OutFrame (β : Type) (c : Cfg R) : Type :=
  β → Fin (c.groups * c.coutG) → ((j : Fin c.n) → Fin (c.hout j)) → R

/-- A frame padded in space, addressed by positions in the padded frame. -/
abbrev Padded (β : Type) (c : Cfg R) : Type := β → Fin (c.groups * c.cinG) → (Fin c.n → Nat) → R

section
variable [NonUnitalNonAssocSemiring R] (c : Cfg R)

/-- Spatial padding of a frame by `pad j` on both sides of axis `j`: zeros (the `padding` argument of
`self._conv_func`, conv.py:209-218, 302-311) or `F.pad(mode="replicate")` (conv.py:219-228, 312-323). -/
def padFrame (x : Frame β c) : Padded β c := fun b ch q =>
  match c.padMode with
  | .zeros =>
    if hq : ∀ j, c.pad j ≤ q j ∧ q j - c.pad j < c.h j then x b ch fun j => ⟨q j - c.pad j, (hq j).2⟩ else 0
  | .replicate =>
    if hq : ∀ j, min (q j - c.pad j) (c.h j - 1) < c.h j then x b ch fun j => ⟨min (q j - c.pad j) (c.h j - 1), hq j⟩
    else 0

/-- The input channel read by output channel `o` for the `ci`-th channel of its group. -/
def chan (o : Fin (c.groups * c.coutG)) (ci : Fin c.cinG) : Nat := o / c.coutG * c.cinG + ci

/-- `F.convNd` over the time axis and all spatial axes, with temporal stride `st`, temporal zero padding `pt`,
spatial strides and dilations of the module, on frames already padded in space: the formula of the torch
documentation (cross-correlation within groups).  torch raises if the kernel does not fit. -/
def convFunc (st pt : Nat) (bias : Option (Fin (c.groups * c.coutG) → R)) (zs : List (Padded β c)) :
    Except Err (List (OutFrame β c)) :=
  if zs.length + 2 * pt < c.K ∨ ∃ j, c.h j + 2 * c.pad j < c.dil j * (c.kern j - 1) + 1 then .error .runtime
  else .ok ((List.range ((zs.length + 2 * pt - c.K) / st + 1)).map fun t b o p =>
    (∑ ci : Fin c.cinG, ∑ kt : Fin c.K, ∑ ks : (j : Fin c.n) → Fin (c.kern j),
      c.weight o ci kt ks *
        (if pt ≤ t * st + kt then
          match zs[t * st + kt - pt]? with
          | some z =>
            if hc : chan c o ci < c.groups * c.cinG then
              z b ⟨chan c o ci, hc⟩ fun j => p j * c.str j + ks j * c.dil j
            else 0
          | none => 0
        else 0)) +
      match bias with
      | some v => v o
      | none => 0)

/-- `forward`: conv.py:288-325.  Zero padding is left to torch; other modes pad the time axis as well as the
spatial axes beforehand. -/
def forward (xs : List (Frame β c)) : Except Err (List (OutFrame β c)) :=
  match c.padMode, xs.head?, xs.getLast? with
  | .zeros, some _, _ => convFunc c c.S c.P c.bias (xs.map (padFrame c))
  | .replicate, some a, some b =>
    convFunc c c.S 0 c.bias
      ((List.replicate c.P a ++ xs ++ List.replicate c.P b).map (padFrame c))
  | _, _, _ => .error .runtime

/-- The parts of the configuration the temporal machinery uses; the map `w k` is not used by the code below. -/
def temporal : Conv.Cfg (Frame β c) (OutFrame β c) where
  K := c.K
  S := c.S
  P := c.P
  fill := c.fill
  padMode := c.padMode
  w := fun _ _ => 0
  bias := c.bias.map fun v _ o _ => v o

/-- `_forward_step_py`: conv.py:200-278.  The frame is convolved with temporal stride 1, temporal zero padding
`K - 1` (`_step_stride`, `_step_padding`, `_step_time_pad`, conv.py:112-119) and without bias. -/
def pstep (x : Frame β c) (s : Option (Conv.St (OutFrame β c))) :
    Except Err (Option (OutFrame β c) × Option (Conv.St (OutFrame β c))) :=
  if Conv.stateless (temporal (β := β) c) then
    match forward c [x] with
    | .error e => .error e
    | .ok ys => match pyGet ys 0 with
      | .error e => .error e
      | .ok y => .ok (some y, s)
  else
    match convFunc c 1 (c.K - 1) none [padFrame c x] with
    | .error e => .error e
    | .ok ys => match pyGet ys 0 with
      | .error e => .error e
      | .ok xOut =>
        let st := match s with
          | some st => st
          | none => Conv.initState (temporal (β := β) c) (ys.drop 1)
        match Conv.output (temporal (β := β) c) st xOut with
        | .error e => .error e
        | .ok out => match Conv.writeBack (temporal (β := β) c) st (ys.drop 1) with
          | .error e => .error e
          | .ok next => .ok (out, some ⟨next.1, next.2, Conv.nextStride c.S st.strideIndex⟩)

/-- State handling: conv.py:121-123, 157-168. -/
@[reducible] def leaf : Leaf (Frame β c) (OutFrame β c) where
  Inst := Conv.St (OutFrame β c)
  St := Conv.St (OutFrame β c)
  init := ⟨[], 0, 0⟩
  clean := fun _ => ⟨[], 0, 0⟩
  get := fun i => if i.buffer.length > 0 then some i else none
  set := fun st _ => st
  pstep := pstep c
  padding := c.P
  makePad := c.fill.make 0

/-- `Conv1d`, `Conv2d`, `Conv3d`: conv.py:332-629 (one class per number of spatial axes). -/
@[reducible] def mod : CoMod (.stream (Frame β c)) (.stream (OutFrame β c)) where
  Inst := Conv.St (OutFrame β c)
  init := (leaf c).init
  clean := (leaf c).clean
  fwd := fun i xs => (forward c xs).map fun ys => (ys, i)
  step := (leaf c).forwardStep
  steps := (leaf c).forwardSteps
  St := Conv.St (OutFrame β c)
  pstep := pstep c
  rf := c.K
  stride := c.S
  padding := c.P
  delay := (c.K : Int) - 1 - c.P

end

end CoInf.ConvNd
