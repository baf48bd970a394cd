/-
Validation of the model against the project's own test suite: assertions of /repo/tests/continual whose expected values are
literals or small integer computations, evaluated on the model.  These are tests of the *model* (is it faithful on the cases the
authors wrote down?), not proofs of properties; no claim of MANIFEST.json rests on this file.

Frames are integers: the tests use one batch entry, one channel and no space.  "Steps" below means `forward_step` on one frame
after another from a new object; `None` outputs are shown as `none`.
The values of attention are left out: what those tests check on random tensors is what C32 and C33 prove for all inputs.
-/
import Verif.Model.Parallel
import Verif.Model.Conditional
import Verif.Model.Pool
import Verif.Model.Conv
import Verif.Model.StateDict
import Verif.Model.Repr
import Verif.Model.Logging
import Verif.Model.TempAttr
import Verif.Model.Flops
import Verif.Model.PosEnc
import Verif.Model.Rnn

set_option autoImplicit false

namespace CoInf.Suite

/-- One call of the three modes, or `clean_state`. -/
inductive Act (I : Sig) where
  | forward (x : I.Clip)
  | step (x : I.Step) (upd : Bool := true)
  | steps (x : I.Clip) (padEnd : Bool := false) (upd : Bool := true)
  | clean

/-- What a call returned. -/
inductive Ret (O : Sig) where
  | clip (y : O.Clip)
  | step (y : Option O.Step)
  | steps (y : Option O.Clip)
  | done
  | raised (e : Err)

/-- The results of a script of calls on one object (it stops at an exception). -/
def script {I O : Sig} (m : CoMod I O) (i : m.Inst) : List (Act I) → List (Ret O)
  | [] => []
  | .forward x :: as => match m.fwd i x with
    | .ok (y, i') => .clip y :: script m i' as
    | .error e => [.raised e]
  | .step x u :: as => match m.step i u x with
    | .ok (y, i') => .step y :: script m i' as
    | .error e => [.raised e]
  | .steps x p u :: as => match m.steps i p u x with
    | .ok (y, i') => .steps y :: script m i' as
    | .error e => [.raised e]
  | .clean :: as => .done :: script m (m.clean i) as

/-- The script on a new object, if its constructor does not raise. -/
def run {I O : Sig} (m : Except Err (CoMod I O)) (as : List (Act I)) : List (Ret O) :=
  match m with
  | .ok m => script m m.init as
  | .error e => [.raised e]

/-- `co.Conv1d(1, 1, K, padding=P, stride=S, bias=False)` with all weights one, on integers. -/
abbrev ones (K P : Nat) (S : Nat := 1) : CoMod (.stream Int) (.stream Int) :=
  Conv.mod { K := K, S := S, P := P, fill := .zeros, padMode := .zeros, w := fun _ x => x, bias := none }

/-- Zero padding of integer frames. -/
abbrev zeros : Int → Int := fun _ => 0

/-- `co.Delay(d)`, filled with zeros. -/
abbrev delay (d : Nat) (shrink : Shrink := .off) : CoMod (.stream Int) (.stream Int) :=
  Delay.mod { d := d, fill := zeros, shrink := shrink }

/-- `(receptive_field, stride[0], padding[0], delay)`. -/
def geometry {I O : Sig} (m : CoMod I O) : Nat × Nat × Nat × Int := (m.rf, m.stride, m.padding, m.delay)

/-! ### test_delay.py -/

/-- test_delay.py:8-46 (`test_delay_3d`, `test_delay_2d`). -/
example : script (delay 2) (delay 2).init
    [.clean, .step 10, .step 11, .step 12, .step 13, .step 1, .step 1, .step 1] =
    [.done, .step none, .step none, .step (some 10), .step (some 11), .step (some 12), .step (some 13), .step (some 1)] := rfl

/-- test_delay.py:49-54 (`test_delay_forward`). -/
example : script (delay 2) (delay 2).init [.forward [10, 11, 12, 13], .steps [10, 11, 12, 13] true] =
    [.clip [10, 11, 12, 13], .steps (some [10, 11, 12, 13])] := rfl

/-- test_delay.py:57-87 (`test_state`): the attributes `state_buffer` and `state_index`. -/
example : (delay 2).init = ([], 0) ∧
    ((delay 2).step (delay 2).init true 10).map Prod.snd = .ok ([10, 0], -1) ∧
    ((delay 2).step (delay 2).init true 10).map (fun q => (delay 2).clean q.2) = .ok ([], 0) ∧
    ((delay 2).steps (delay 2).init true true [10, 11, 12, 13]).map (fun q => (q.1, q.2.1)) =
      .ok (some [10, 11, 12, 13], [12, 13]) := ⟨rfl, rfl, rfl, rfl⟩

/-- test_delay.py:90-96 (`test_zero_delay`). -/
example : script (delay 0) (delay 0).init [.forward [1, 2, 3], .steps [1, 2, 3], .step 3] =
    [.clip [1, 2, 3], .steps (some [1, 2, 3]), .step (some 3)] := rfl

/-- test_delay.py:107-117 (`test_auto_shrink`). -/
example : script (delay 1 .on) (delay 1 .on).init [.forward [1, 2, 3, 4, 5], .steps [1, 2, 3, 4, 5]] =
    [.clip [2, 3, 4], .steps (some [2, 3, 4])] := rfl

/-! ### test_container.py -/

/-- Ten convolutions of kernel size 9. -/
abbrev ten (P : Nat) : Chain (.stream Int) (.stream Int) :=
  .cons (ones 9 P) (.cons (ones 9 P) (.cons (ones 9 P) (.cons (ones 9 P) (.cons (ones 9 P) (.cons (ones 9 P)
    (.cons (ones 9 P) (.cons (ones 9 P) (.cons (ones 9 P) (.single (ones 9 P))))))))))

/-- test_container.py:103-120 (`test_sequential_receptive_field`): the geometry without and with padding. -/
example : (Sequential.mod (ten 0)).rf = 9 + 8 * 9 ∧ (Sequential.mod (ten 4)).rf = 9 + 8 * 9 ∧
    (Sequential.mod (ten 4)).padding = 40 := by decide

/-- test_container.py:122-147: the same with strides, without and with padding. -/
example :
    geometry (Sequential.mod (.cons (ones 3 0) (.cons (ones 3 0 2) (.cons (ones 3 0 3) (.single (ones 3 0)))))) =
      (21, 6, 0, 20) ∧
    geometry (Sequential.mod (.cons (ones 3 1) (.cons (ones 3 1 2) (.cons (ones 3 1 3) (.single (ones 3 1)))))) =
      (21, 6, 1 + 1 + 2 + 2 * 3, 10) := by decide

/-- test_container.py:110-111: the number of outputs of `forward` for a clip of 100 frames. -/
example : ((Conv.forward { K := 9, S := 1, P := 0, fill := .zeros, padMode := .zeros, w := fun _ x => x, bias := none }
    (List.replicate 100 (1 : Int))).map List.length) = .ok 92 := by decide +kernel

/-- `co.MaxPool1d(2, stride=2)` on non-negative integers (with padding zero the fill is never used). -/
abbrev max2 : CoMod (.stream Int) (.stream Int) :=
  Pool.mod { K := 2, S := 2, P := 0, dil := 1, spatial := id, pool := fun l => l.foldr max 0, fillIn := fun _ => 0,
             fillOut := fun _ => 0, refPad := 0 }

/-- The network of `test_sequential_with_None`. -/
abbrev withNone : Chain (.stream Int) (.stream Int) :=
  .cons (ones 3 1) (.cons max2 (.single (ones 3 1 2)))

/-- test_container.py:178-183: its geometry. -/
example : geometry (Sequential.mod withNone) = (8, 4, 3, 4) := by decide

/-- The frames `0, …, n - 1`. -/
abbrev arange (n : Nat) : List Int := (List.range n).map Int.ofNat

/-- The tensors among the results of single steps. -/
def tensors {O : Sig} (rs : List (Ret O)) : List O.Step :=
  rs.filterMap fun r => match r with
    | .step y => y
    | _ => none

/-- test_container.py:185-204 (`test_sequential_with_None`): `forward_steps` with end padding gives what `forward` gives, single
steps give all but the last output.  (The expected values are those of `torch.nn`, computed by hand.) -/
example :
    run (.ok (Sequential.mod withNone)) [.forward (arange 32), .steps (arange 32) true] =
      [.clip [12, 45, 81, 117, 153, 189, 225, 258], .steps (some [12, 45, 81, 117, 153, 189, 225, 258])] ∧
    tensors (run (.ok (Sequential.mod withNone)) ((arange 32).map fun x => .step x)) =
      [12, 45, 81, 117, 153, 189, 225] := by
  constructor
  · rfl
  · rfl

/-- test_container.py:207-211 (`test_sum_reduce`), 214-220 (`test_concat_reduce`). -/
example : (foldReducer (· + ·)).clip [[1, 1, 1, 1], [1, 1, 1, (1 : Int)]] = .ok [2, 2, 2, 2] ∧
    (catReducer (List.flatten)).clip [[[1, 1], [1, 1]], [[2, 2], [2, (2 : Int)]]] = .ok [[1, 1, 2, 2], [1, 1, 2, 2]] :=
  ⟨rfl, rfl⟩

/-- `co.Residual(conv, residual_shrink=sh)` with a sum. -/
abbrev residual (sh : Residual.Mode) (P : Nat) : Except Err (CoMod (.stream Int) (.stream Int)) :=
  Residual.make zeros (foldReducer (· + ·)) sh (ones 3 P)

/-- test_container.py:223-249 (`test_residual`): the target is `conv(input) + input = [1, 4, 8, 12, 16, 14]`. -/
example : run (residual .off 1) [.forward (arange 6), .steps (arange 5), .step 5] =
    [.clip [1, 4, 8, 12, 16, 14], .steps (some [1, 4, 8, 12]), .step (some 16)] := rfl

/-- test_container.py:252-289 (`test_residual_shrink_centered`): the target is `[3, 6, 9, 12] + [1, 2, 3, 4]`. -/
example : run (residual .on 0) [.forward (arange 6), .step 0, .step 1, .step 2, .step 3, .step 4, .step 5, .clean,
      .step 0, .steps [1, 2, 3, 4], .step 5] =
    [.clip [4, 8, 12, 16], .step none, .step none, .step (some 4), .step (some 8), .step (some 12), .step (some 16), .done,
     .step none, .steps (some [4, 8, 12]), .step (some 16)] := rfl

/-- test_container.py:292-322 (`test_residual_shrink_lagging`): the target is `[3, 6, 9, 12] + [0, 1, 2, 3]`. -/
example : run (residual .lagging 0) [.forward (arange 6), .step 0, .step 1, .step 2, .step 3, .step 4, .step 5, .clean,
      .step 0, .steps [1, 2, 3, 4], .step 5] =
    [.clip [3, 7, 11, 15], .step none, .step none, .step (some 3), .step (some 7), .step (some 11), .step (some 15), .done,
     .step none, .steps (some [3, 7, 11]), .step (some 15)] := rfl

/-- test_container.py:325-365 (`test_residual_shrink_leading`): the target is `[3, 6, 9, 12] + [2, 3, 4, 5]`. -/
example : run (residual .leading 0) [.forward (arange 6), .step 0, .step 1, .step 2, .step 3, .step 4, .step 5, .clean,
      .steps [0, 1, 2, 3], .step 4, .step 5] =
    [.clip [5, 9, 13, 17], .step none, .step none, .step (some 5), .step (some 9), .step (some 13), .step (some 17), .done,
     .steps (some [5, 9]), .step (some 13), .step (some 17)] := rfl

/-- The module of `test_broadcast_reduce`. -/
abbrev three : Except Err (CoMod (.stream Int) (.stream Int)) :=
  BroadcastReduce.make zeros true (foldReducer (· + ·)) [ones 5 2, ones 3 1, ones 1 0]

/-- test_container.py:379-383 (`test_broadcast_reduce`): the geometry. -/
example : three.map geometry = .ok (5, 1, 2, 2) := by rfl

/-- test_container.py:385-413: the values. -/
example : run three
    [.forward (arange 7),
     .step 0, .step 1, .step 2, .step 3, .step 4, .step 5, .step 6, .clean,
     .steps (arange 6) false false, .steps (arange 6), .step 6 false, .step 6, .clean,
     .steps (arange 7) true] =
    [.clip [4, 10, 18, 27, 36, 38, 32],
     .step none, .step none, .step (some 4), .step (some 10), .step (some 18), .step (some 27), .step (some 36), .done,
     .steps (some [4, 10, 18, 27]), .steps (some [4, 10, 18, 27]), .step (some 36), .step (some 36), .done,
     .steps (some [4, 10, 18, 27, 36, 38, 32])] := by rfl

/-- test_container.py:519-530 (`test_conditional_delay`). -/
example (p : Conditional.Pred Int) :
    (Conditional.make 0 p (delay 2) (some (delay 3))).delay = 3 ∧ (Conditional.make 0 p (delay 3) (some (delay 2))).delay = 3 ∧
    (Conditional.align 0 3 (delay 2)).delay = 3 ∧ (Conditional.align 0 3 (delay 3)).delay = 3 := by
  refine ⟨?_, ?_, ?_, ?_⟩ <;> rfl

/-- test_container.py:545-552 (`test_broadcast`). -/
example : (Broadcast.mod Int (some 2)).delay = 0 ∧
    run (.ok (Broadcast.mod Int (some 2))) [.step 42] = [.step (some [some 42, some 42])] := ⟨rfl, rfl⟩

/-- The module of `test_parallel`. -/
abbrev two : Except Err (CoMod (.multi Int) (.multi Int)) := Parallel.make zeros true [ones 3 1, ones 1 0]

/-- test_container.py:555-579 (`test_parallel`), for the input `[1, 2, 4]`. -/
example : two.map geometry = .ok (3, 1, 1, 1) ∧
    run two
      [.forward [some [1, 2, 4], some [1, 2, 4]],
       .steps [some [1, 2, 4], some [1, 2, 4]] true false, .clean,
       .step [some 1, some 1], .step [some 2, some 2] false] =
      [.clip [some [3, 7, 6], some [1, 2, 4]],
       .steps (some [some [3, 7, 6], some [1, 2, 4]]), .done,
       .step (some [none, none]), .step (some [some 3, some 1])] := ⟨rfl, rfl⟩

/-- test_container.py:582-597 (`test_reduce`). -/
example : run (.ok (Reduce.mod (foldReducer (fun a b : Int => a + b))))
      [.forward [some [1, 2], some [1, 2]], .steps [some [1, 2], some [1, 2]], .step [some 1, some 1]] =
      [.clip [2, 4], .steps (some [2, 4]), .step (some 2)] ∧
    run (.ok (Reduce.mod (foldReducer (fun a b : Int => max a b)))) [.forward [some [1], some [2]]] = [.clip [2]] :=
  ⟨rfl, rfl⟩

/-- test_container.py:600-632 (`test_parallel_sequential`): the container spelled out gives what `BroadcastReduce` gives. -/
example : run (do
      let p ← Parallel.make zeros true [ones 5 2, ones 3 1, ones 1 0]
      pure (Sequential.mod (.cons (Broadcast.mod Int (some 3)) (.cons p (.single (Reduce.mod (foldReducer (· + ·))))))))
      [.forward (arange 7)] = run three [.forward (arange 7)] := rfl

/-- test_container.py:635-651 (`test_parallel_dispatch`). -/
example : Dispatch.forward [.id 2, .id 0, .group [.id 0, .id 2], .id 2] [10, 11, (12 : Int)] =
    .ok [.one 12, .one 10, .many [.one 10, .one 12], .one 12] := rfl

/-- Parts of keys that consist of digits, as far as the tests use them. -/
abbrev digit (p : String) : Bool := p = "0" || p = "1"

/-- The names of the parameters of `nested` in `test_flat_state_dict`. -/
abbrev nested (a b c d : Int) : StateDict.Dict String Int :=
  [(["0", "0", "weight"], a), (["0", "0", "bias"], b), (["1", "c1", "weight"], c), (["1", "c1", "bias"], d)]

/-- test_container.py:416-438 (`test_flat_state_dict`, part 1): the keys of flat dictionaries. -/
example : (StateDict.stateDict digit [(["0", "weight"], 5), (["0", "bias"], (6 : Int))] false).map (·.1) =
      [["0", "weight"], ["0", "bias"]] ∧
    (StateDict.stateDict digit [(["0", "weight"], 5), (["0", "bias"], (6 : Int))] true).map (·.1) = [["weight"], ["bias"]] ∧
    (StateDict.stateDict digit [(["c1", "weight"], 5), (["c1", "bias"], (6 : Int))] true).map (·.1) =
      [["c1", "weight"], ["c1", "bias"]] ∧
    (StateDict.stateDict digit (nested 1 2 3 4) true).map (·.1) =
      [["weight"], ["bias"], ["c1", "weight"], ["c1", "bias"]] := by decide +kernel

/-- test_container.py:440-456 (part 2): a flat dictionary is loaded into a module with other parameters. -/
example : (match StateDict.loadStateDict digit (nested 5 6 7 8) (StateDict.stateDict digit (nested 1 2 3 4) true) true true with
    | .ok d => d
    | .error _ => []) = nested 1 2 3 4 := by decide +kernel

/-! ### test_closure.py, test_utils.py, test_logging.py -/

/-- The text as Python prints it, if nothing was raised. -/
def text : Except Err (List Char) → Option String
  | .ok s => some (String.ofList s)
  | .error _ => none

/-- test_closure.py:81-91: `Lambda.__repr__`; the sources are the lines of the test. -/
example :
    text (Repr.lambdaRepr (some (.lambda
      "    mod = Lambda.build_from(lambda x: torch.ones_like(x) * 42, takes_time=True)\n".toList)) none none none true) =
      some "Lambda(lambda x: torch.ones_like(x) * 42, takes_time=True)" ∧
    text (Repr.lambdaRepr (some (.lambda
      "    modules.append((\"view\", Lambda(lambda x: x.view(x.shape[0], -1))))\n".toList)) none none none false) =
      some "Lambda(lambda x: x.view(x.shape[0], -1))" := by decide +kernel

/-- test_closure.py:97-112 (`test_lambda_call_specific_fns`). -/
example :
    text (Repr.lambdaRepr (some (.lambda "        fn=lambda x: x + 1,\n".toList))
      (some (.lambda "        forward_only_fn=lambda x: x + 2,\n".toList))
      (some (.lambda "        forward_step_only_fn=lambda x: x + 3,\n".toList))
      (some (.lambda "        forward_steps_only_fn=lambda x: x + 4,\n".toList)) false) =
      some "Lambda(lambda x: x + 1, lambda x: x + 2, lambda x: x + 3, lambda x: x + 4)" := by decide +kernel

/-- What a block of reads saw, as numbers. -/
def saw (e : TempAttr.End Nat) : List (Option Nat) :=
  e.seen.map fun r => match r with
    | .ok (.data n) => some n
    | _ => none

/-- test_utils.py:4-22 (`test_temporary_parameter`): an object with `x = 0`. -/
example : saw (TempAttr.run
    (.read 0 ["x"] (.temp 0 ⟨[], "x"⟩ (.data 42) (.read 0 ["x"] .done)
      (.read 0 ["x"] (.temp 0 ⟨[], "y"⟩ (.data 42) (.read 0 ["y"] .done) (.read 0 ["y"] .done)))))
    (fun _ => ⟨fun n => if n = "x" then some (.data 0) else none, fun _ => none⟩)) =
    [some 0, some 42, some 0, some 42, none] := by decide +kernel

/-- test_logging.py:6-15 (`test_log_once`). -/
example : Logging.acts (N := Nat) true (fun m : String => m) Logging.start
    [.get 0 true, .log 0 "Hey", .log 0 "There", .log 0 "Hey"] = [false, true, true, false] := by decide +kernel

/-! ### multihead_attention: the counts of operations -/

/-- test_retroactive_mha.py:164-239 (`test_flops`): a step counts less than half of what the continual module counts for `forward`
(which the test compares within ten percent to a regular module), and counting additions and exponentials gives more. -/
example : (∃ f s a, Flops.retroFlops ⟨10, 4, 2, true⟩ (.tok .forward) .default = .ok f ∧
      Flops.retroFlops ⟨10, 4, 2, true⟩ (.tok .step) .default = .ok s ∧
      Flops.retroFlops ⟨10, 4, 2, true⟩ (.tok .step) ⟨true, true, true⟩ = .ok a ∧ 0 < s ∧ 2 * s < f ∧ s < a) :=
  ⟨_, _, _, rfl, rfl, rfl, by decide, by decide, by decide⟩

/-- test_single_output_mha.py:152-228 (`test_flops`). -/
example : (∃ s a, Flops.singleOutputFlops ⟨10, 4, 2, true⟩ true (.tok .step) .default = .ok s ∧
      Flops.singleOutputFlops ⟨10, 4, 2, true⟩ true (.tok .step) ⟨true, true, true⟩ = .ok a ∧ 0 < s ∧ s < a) :=
  ⟨_, _, rfl, rfl, by decide, by decide⟩

/-! ### test_positional_encoding.py, test_rnn.py -/

/-- test_positional_encoding.py:6-25: four embeddings, `forward_update_index_steps=0`. -/
example : run (.ok (PosEnc.mod { emb := [5, 6, 7, 8], add := fun a b : Int => a + b, fwdUpd := 0 }))
    [.forward [0, 0, 0, 0], .steps [0, 0, 0], .step 0, .clean, .forward [0, 0, 0, 0]] =
    [.clip [5, 6, 7, 8], .steps (some [5, 6, 7]), .step (some 8), .done, .clip [5, 6, 7, 8]] := rfl

/-- Two recurrent layers `h' = x + 2 h`. -/
abbrev rnn2 : Rnn.Cfg Int Int := ⟨[fun x h => (x + 2 * h, x + 2 * h), fun x h => (x + 2 * h, x + 2 * h)], 0⟩

/-- test_rnn.py:7-40 (`test_rnn`): with the hidden state of a first pass set, `forward_steps` and `forward_step` continue like
`forward` given that state; after `clean_state` the hidden state after `forward_steps` is that of `forward`. -/
example :
    Rnn.forward rnn2 [1, 2, 3] none = .ok ([1, 6, 23], [11, 23]) ∧
    Rnn.forward rnn2 [1, 2, 3] (some [11, 23]) = .ok ([69, 186, 471], [99, 471]) ∧
    script (Rnn.mod rnn2) (Rnn.setState none [11, 23]) [.steps [1, 2], .step 3] =
      [.steps (some [69, 186]), .step (some 471)] ∧
    (Rnn.mod rnn2).delay = 0 ∧
    ((Rnn.mod rnn2).steps none false true [1, 2, 3]).map Prod.snd = .ok (some [11, 23]) := ⟨rfl, rfl, rfl, rfl, rfl⟩

/-! ### test_conv.py -/

/-- test_conv.py:125-152 (`test_Conv1d_stride`): the target is `[1, 6, 7]`. -/
example : tensors (run (.ok (ones 3 1 2)) ((arange 5).map fun x => .step x)) = [1, 6] ∧
    run (.ok (ones 3 1 2)) [.forward (arange 5)] = [.clip [1, 6, 7]] ∧
    run (.ok (ones 3 1 2)) [.steps (arange 5) true] = [.steps (some [1, 6, 7])] := ⟨rfl, rfl, rfl⟩

/-- A convolution with different weights and a bias, `out[t] = x[t] + 10 x[t+1] + 100 x[t+2] + 1000`. -/
abbrev digits (P : Nat) (S : Nat := 1) (pm : Fill := .zeros) : CoMod (.stream Int) (.stream Int) :=
  Conv.mod { K := 3, S := S, P := P, fill := pm, padMode := pm, w := fun k x => 10 ^ k * x, bias := some 1000 }

/-- test_conv.py:10-46, 90-122, 310-328 (`test_Conv1d`, `test_forward_long_kernel`): the first two outputs are `None`, the rest match. -/
example : run (.ok (digits 0)) [.step 1, .step 2, .step 3, .step 4, .clean, .steps [1, 2, 3, 4], .forward [1, 2, 3, 4]] =
    [.step none, .step none, .step (some 1321), .step (some 1432), .done, .steps (some [1321, 1432]), .clip [1321, 1432]] := rfl

/-- test_conv.py:189-224 (`test_Conv2d_stride`): every second output is `None`. -/
example : run (.ok (digits 0 2)) [.step 1, .step 2, .step 3, .step 4, .step 5, .clean, .steps [1, 2, 3, 4, 5]] =
    [.step none, .step none, .step (some 1321), .step none, .step (some 1543), .done, .steps (some [1321, 1543])] := rfl

/-- test_conv.py:399-426 (`test_forward_continuation`): the clip `[1, 2, 3, 4]`, then the next clip `[2, 3, 4, 5]`. -/
example : run (.ok (digits 1)) [.steps [1, 2, 3, 4] true, .step 5, .step 0 false] =
      [.steps (some [1210, 1321, 1432, 1043]), .step (some 1543), .step (some 1054)] ∧
    run (.ok (digits 1)) [.forward [1, 2, 3, 4], .forward [2, 3, 4, 5]] =
      [.clip [1210, 1321, 1432, 1043], .clip [1320, 1432, 1543, 1054]] := ⟨rfl, rfl⟩

/-- test_conv.py:525-552 (`test_update_state_false`). -/
example : run (.ok (digits 1)) [.clean, .forward [1, 2, 3, 4, 5], .steps [1, 2, 3, 4] false false, .steps [1, 2, 3, 4],
      .step 5 false, .step 5] =
    [.done, .clip [1210, 1321, 1432, 1543, 1054], .steps (some [1210, 1321, 1432]), .steps (some [1210, 1321, 1432]),
     .step (some 1543), .step (some 1543)] := rfl

/-- test_conv.py:372-396 (`test_complex`): replicated padding, in `forward` and at the end of `forward_steps`. -/
example : run (.ok (digits 1 1 .replicate)) [.forward [1, 2, 3, 4], .steps [1, 2, 3, 4] true] =
    [.clip [1211, 1321, 1432, 1443], .steps (some [1211, 1321, 1432, 1443])] := rfl

/-- test_conv.py:480-522 (`test_stacked_no_pad`), test_container.py:45-100 (`test_sequential`): two layers; `forward_steps` on all
but the last frame, a step without and a step with update, a restart. -/
example : run (.ok (Sequential.mod (.cons (digits 0) (.single (ones 3 0)))))
    [.forward [1, 2, 3, 4, 5, 6], .steps [1, 2, 3, 4, 5] false false, .steps [1, 2, 3, 4, 5], .step 6 false, .step 6, .clean,
     .steps [1, 2, 3, 4, 5]] =
    [.clip [4296, 4629], .steps (some [4296]), .steps (some [4296]), .step (some 4629), .step (some 4629), .done,
     .steps (some [4296])] := rfl

/-! ### test_example.py -/

/-- test_example.py:9-16 (`test_paper_example`). -/
example : geometry (Sequential.mod (.cons (ones 3 2 2) (.single (ones 3 0)))) = (7, 2, 2, 4) := by decide

/-- test_example.py:19-41 (`test_readme_example`): a convolution of kernel size three on five frames. -/
example : run (.ok (ones 3 0)) [.forward [1, 2, 4, 8, 16], .steps [1, 2, 4, 8], .step 16] =
    [.clip [7, 14, 28], .steps (some [7, 14]), .step (some 28)] ∧ geometry (ones 3 0) = (3, 1, 0, 2) := ⟨rfl, rfl⟩

/-! ### test_pool.py (average pooling scaled by the window, so that values are integers) -/

/-- `co.AvgPool1d(3, stride=1, padding=1)`, times three. -/
abbrev avg3 : CoMod (.stream Int) (.stream Int) :=
  Pool.mod { K := 3, S := 1, P := 1, dil := 1, spatial := id, pool := List.sum, fillIn := fun _ => 0, fillOut := fun _ => 0,
             refPad := 0 }

/-- test_pool.py:33-62 (`test_AvgPool1d_padded`): the target is `[1, 3, 6, 9, 7] / 3`. -/
example : run (.ok avg3) [.clean, .forward (arange 5), .steps (arange 5) true, .clean, .steps [0, 1, 2], .step 3,
      .steps [4] true] =
    [.done, .clip [1, 3, 6, 9, 7], .steps (some [1, 3, 6, 9, 7]), .done, .steps (some [1, 3]), .step (some 6),
     .steps (some [9, 7])] := rfl

/-- `co.MaxPool1d(3, dilation=2)`. -/
abbrev maxDil : CoMod (.stream Int) (.stream Int) :=
  Pool.mod { K := 3, S := 3, P := 0, dil := 2, spatial := id, pool := fun l => l.foldr max 0, fillIn := fun _ => 0,
             fillOut := fun _ => 0, refPad := 0 }

/-- test_pool.py:97-111 (`test_MaxPool1d_dilation`): one window, `max(0, 2, 4)`. -/
example : run (.ok maxDil) [.forward (arange 7)] = [.clip [4]] ∧
    run (.ok maxDil) [.steps (arange 7)] = [.steps (some [4])] := ⟨rfl, rfl⟩

end CoInf.Suite
