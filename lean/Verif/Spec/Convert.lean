/-
What the torch modules themselves compute for a clip, which of them `continual` is able to convert, and the arguments for
which a converted network streams correctly.  Written without reference to the model of the conversion.
-/
import Verif.Model.Convert
import Verif.Spec.Net
import Verif.Spec.Window
import Verif.Spec.Rnn

set_option autoImplicit false

namespace CoInf.Spec
open Convert
variable {X Y : Type}

/-- The clip with `P` frames added on both sides; torch raises when the clip is too short for the mode. -/
def padBoth [Zero X] (mode : TorchPad) (P : Nat) (xs : List X) : Except Err (List X) :=
  match mode, xs.head?, xs.getLast? with
  | _, none, _ => .error .runtime
  | _, _, none => .error .runtime
  | .zeros, some _, some _ => .ok (List.replicate P 0 ++ xs ++ List.replicate P 0)
  | .replicate, some a, some b => .ok (List.replicate P a ++ xs ++ List.replicate P b)
  | .reflect, some _, some _ =>
    if P < xs.length then .ok ((xs.tail.take P).reverse ++ xs ++ (xs.reverse.tail.take P)) else .error .runtime
  | .circular, some _, some _ =>
    if P ≤ xs.length then .ok (lastN P xs ++ xs ++ xs.take P) else .error .runtime

/-- A dilated sliding window that raises when no window fits. -/
def slideOrRaise {Z : Type} (K S d : Nat) (f : List Z → Y) (zs : List Z) : Except Err (List Y) :=
  if zs.length < d * (K - 1) + 1 then .error .runtime else .ok (slideDil K S d f zs)

/-- `nn.ConvNd.forward` on the time axis. -/
def torchConvClip [Zero X] [AddCommMonoid Y] (c : TorchConv X Y) (xs : List X) : Except Err (List Y) :=
  match padBoth c.mode c.P xs with
  | .error e => .error e
  | .ok zs => slideOrRaise c.K c.S c.dil (corr c.w c.bias) zs

/-- `nn.AvgPoolNd.forward`, `nn.MaxPoolNd.forward` on the time axis. -/
def torchPoolClip (c : TorchPool X Y) (xs : List X) : Except Err (List Y) :=
  if xs = [] then .error .runtime
  else slideOrRaise c.K c.S c.dil c.pool
    (List.replicate c.P c.refPad ++ xs.map c.spatial ++ List.replicate c.P c.refPad)

/-- One recurrent layer over a clip; a bidirectional layer also reads the clip backwards. -/
def torchRnnLayer {V S : Type} (z : S) (cat : V → V → V) (l : (V → S → V × S) × Option (V → S → V × S)) (xs : List V) :
    List V :=
  match l.2 with
  | none => recur [l.1] [z] xs
  | some r => List.zipWith cat (recur [l.1] [z] xs) (recur [r] [z] xs.reverse).reverse

/-- The output sequence of `nn.RNN`, `nn.GRU`, `nn.LSTM`. -/
def torchRnnClip {V S : Type} (c : TorchRnn V S) (xs : List V) : Except Err (List V) :=
  if xs = [] then .error .runtime
  else .ok (c.layers.foldl (fun zs l => torchRnnLayer c.zero c.cat l zs) xs)

mutual
/-- `module(x)` of the original module for a clip. -/
def torchClip : {X Y : Type} → Src X Y → List X → Except Err (List Y)
  | _, _, .co m, xs => (m.fwd m.init xs).map Prod.fst
  | _, _, .naive g, xs => g xs
  | _, _, .instanceNorm _ _ g, xs => g xs
  | _, _, @Src.conv _ _ zx ay c, xs => @torchConvClip _ _ zx ay c xs
  | _, _, @Src.pool _ _ _ _ c, xs => torchPoolClip c xs
  | _, _, .linear f, xs => .ok (xs.map f)
  | _, _, .function f, xs => if xs = [] then .error .runtime else .ok (xs.map f)
  | _, _, .rnn c, xs => torchRnnClip c xs
  | _, _, .adaptivePool g, xs => g xs
  | _, _, .transformer g, xs => g xs
  | _, _, .sequential ms, xs => torchMembers ms xs
  | _, _, .other g, xs => g xs

/-- `nn.Sequential.forward`: the members one after the other. -/
def torchMembers : {X Y : Type} → Members X Y → List X → Except Err (List Y)
  | _, _, .single m, xs => torchClip m xs
  | _, _, .cons m ms, xs =>
    match torchClip m xs with
    | .error e => .error e
    | .ok ys => torchMembers ms ys
end

mutual
/-- The modules for which a conversion is implemented. -/
def Convertible : {X Y : Type} → Src X Y → Prop
  | _, _, .co _ => True
  | _, _, .naive _ => True
  | _, _, .instanceNorm affine track _ => affine = true ∧ track = true
  | _, _, @Src.conv _ _ _ _ c => c.dil = 1 ∧ (c.mode = .zeros ∨ c.mode = .replicate)
  | _, _, @Src.pool _ _ _ _ c => 1 ≤ c.K
  | _, _, .linear _ => True
  | _, _, .function _ => True
  | _, _, .rnn _ => True
  | _, _, .adaptivePool _ => False
  | _, _, .transformer _ => False
  | _, _, .sequential ms => AllConvertible ms
  | _, _, .other _ => False

def AllConvertible : {X Y : Type} → Members X Y → Prop
  | _, _, .single m => Convertible m
  | _, _, .cons m ms => Convertible m ∧ AllConvertible ms
end

mutual
/-- No member is a bidirectional recurrent module. -/
def OneDirection : {X Y : Type} → Src X Y → Prop
  | _, _, .rnn c => ∀ l ∈ c.layers, l.2 = none
  | _, _, .sequential ms => AllOneDirection ms
  | _, _, _ => True

def AllOneDirection : {X Y : Type} → Members X Y → Prop
  | _, _, .single m => OneDirection m
  | _, _, .cons m ms => OneDirection m ∧ AllOneDirection ms
end

mutual
/-- The arguments for which a converted network is in the class `k` of `Net`: kernels larger than the padding, poolings
that are not dilated and pad with the value torch pads with, naively mapped modules that really act frame by frame. -/
def Admissible (k : Cls) : {X Y : Type} → Src X Y → Prop
  | _, _, .co m => ∃ φ, Net k m φ
  | _, _, .naive g => ∃ f, FrameWise g f
  | _, _, .instanceNorm _ _ g => ∃ f, FrameWise g f
  | _, _, @Src.conv _ _ zx ay c => 1 ≤ c.K ∧ 1 ≤ c.S ∧ c.P < c.K ∧ (c.K = 1 → c.S = 1) ∧
      (∀ j, c.w j 0 = 0) ∧ (3 ≤ k.pad → c.S = 1)
  | _, _, @Src.pool _ _ zx zy c => 1 ≤ c.K ∧ 1 ≤ c.S ∧ c.P < c.K ∧ c.dil = 1 ∧ c.spatial 0 = 0 ∧
      OrderFree c.pool ∧ (1 ≤ k.pad → c.P = 0 ∨ c.refPad = 0) ∧ (3 ≤ k.pad → c.S = 1)
  | _, _, .linear _ => True
  | _, _, .function _ => True
  | _, _, .rnn c => ¬ k.geo ∧ ∀ l ∈ c.layers, l.2 = none
  | _, _, .sequential ms => AllAdmissible k ms
  | _, _, _ => False

def AllAdmissible (k : Cls) : {X Y : Type} → Members X Y → Prop
  | _, _, .single m => Admissible k m
  | _, _, .cons m ms => Admissible k.front m ∧ AllAdmissible k ms
end

end CoInf.Spec
