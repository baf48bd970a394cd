/-
Sizes of the state tensors of the modules for a batch size, and the axes that an exported model declares as dynamic:
/repo/continual/onnx.py:219-223, 276-281.
-/
import Verif.Model.Onnx

set_option autoImplicit false

namespace CoInf.Onnx

/-- Modules with a state.  `rest` are the sizes of a frame after its batch axis, for convolutions and poolings those of the output
of the spatial operation. -/
inductive Kind where
  | delay (d : Nat) (rest : List Nat)
  | skip
  | conv (K S P Cout : Nat) (space : List Nat)
  | pool (K dil : Nat) (rest : List Nat)
  | rnn (layers hidden : Nat)
  | lstm (layers hidden proj : Nat)
  | posEnc
  | single (N E H : Nat) (query : Int)
  | retro (N E H : Nat)

/-- Sizes of the state tensors for batch size `B`; a tensor of one number has no axes.
`Delay`: delay.py:70 (`torch.stack(.., dim=0)` of frames `(B, ..)`); `Skip`: skip.py:33; convolutions: conv.py:147-150 for
`x_rest` of sizes `(B, C, K - 1, ..)` (conv.py:230); pooling: pooling.py:157-162; recurrent modules: the hidden states of torch,
rnn.py:50, 272 and `(num_layers, N, proj_size)`, `(num_layers, N, hidden_size)` for `LSTM`; positional encoding:
positional_encoding.py:193-195; attention: single_output_mha.py:36-44, retroactive_mha.py:36-45. -/
def Kind.dims (B : Nat) : Kind → List (List Nat)
  | .delay d rest => if d = 0 then [] else [d :: B :: rest, []]
  | .skip => [[]]
  | .conv K S P C space => if K = 1 ∧ P = 0 ∧ S = 1 then [] else [(K - 1) :: B :: C :: (K - 1) :: space, [], []]
  | .pool K dil rest => [(dil * (K - 1) + 1) :: B :: rest, [], []]
  | .rnn layers hidden => [[layers, B, hidden]]
  | .lstm layers hidden proj => [[layers, B, if proj = 0 then hidden else proj], [layers, B, hidden]]
  | .posEnc => [[]]
  | .single N E H q =>
    let Nq := (if q ≥ 0 then (N : Int) - q - 1 else -q - 1).toNat
    [[B * H, Nq, E / H], [B * H, E / H, N], [B * H, N, E / H], []]
  | .retro N E H => [[B * H, N - 1, 1], [B * H, N - 1, E / H], [B * H, N - 1, E / H], [B * H, E / H, N], [B * H, N, E / H], []]

/-- `_dynamic_state_inds`: delay.py:43-44, skip.py:25-26, conv.py:137-141, pooling.py:60, rnn.py:117, 335, 589,
positional_encoding.py:134, single_output_mha.py:182, retroactive_mha.py:207. -/
def Kind.flags : Kind → List Bool
  | .delay d _ => if d = 0 then [] else [true, false]
  | .skip => [false]
  | .conv K S P _ _ => if K = 1 ∧ P = 0 ∧ S = 1 then [] else [true, false, false]
  | .pool _ _ _ => [true, false, false]
  | .rnn _ _ => [true]
  | .lstm _ _ _ => [true, true]
  | .posEnc => [false]
  | .single _ _ _ _ => [true, true, true, false]
  | .retro _ _ _ => [true, true, true, true, true, false]

/-- The dynamic axes of the state tensors: `{0: "batch"}` for the flagged ones (onnx.py:279), the others are fixed. -/
def dynamicAxes (k : Kind) : List (List Nat) := k.flags.map fun b => if b then [0] else []

end CoInf.Onnx
