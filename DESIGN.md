# Formal model of continual-inference: design

## Approach

The library turns temporal neural network modules into stream processors.  Every module offers
`forward(clip)`, `forward_step(frame, update_state)`, `forward_steps(clip, pad_end, update_state)`
and the functional `_forward_step(frame, state)`.  We model the *control, buffer and bookkeeping
logic* of these functions in Lean 4, function by function, with frames as elements of an arbitrary
type and frame arithmetic as parameters.

* `lean/Verif/Model/*.lean`: the model.  Every definition cites the file and lines it models and says
  where it simplifies.
* `lean/Verif/Spec/*.lean`: specifications, written without the model's helpers: textbook sliding
  windows, delayed streams, softmax attention on a window, recurrences, call scripts, geometry.
* `lean/Verif/Lemmas/*.lean`: invariants, refinement relations, list arithmetic.
* `lean/Verif/Props/*.lean`: the property theorems (`Cnn_...`), each beside an `example` in which a
  concrete non-trivial case meets its hypotheses.
* `lean/Verif/Suite.lean`: validation of the model only.  Assertions of the project's own tests
  (/repo/tests/continual) with literal or small integer expectations, evaluated on the model.  These are tests, not
  proofs; no claim rests on them.
* `MANIFEST.json`: which theorems belong to which property of `properties.jsonl`.
* `seeded/LOG.jsonl`: the wrong programs the theorems were tested against.

Conventions of the model (also in the header of `Model/Core.lean`):

* A tensor is modelled along its temporal axis: a *clip* is a `List` of frames.  Batch, channel and
  spatial axes live inside the frame type, on which theorems quantify.
* A Python object with attributes is a value of a type `Inst` threaded through the calls; the heap
  models (`Model/Heap.lean`, `Model/AttnHeap.lean`) instead give tensors addresses so that aliasing and
  in-place writes are visible.
* `None` is `Option.none`; a raised exception is `Except.error e` with `e` one of
  assertion, index, key, unbound, attribute, runtime, type, value.  What the attributes are after an exception is
  modelled in `Model/Shape.lean`, `Model/ShapeRnn.lean`, `Model/AttnShape.lean` (frames of varying size) and
  `Model/CallMode.lean` only.
* A module is a record `CoMod I O` with `step`, `steps`, `fwd`, `pstep` (the functional
  `_forward_step`), `clean`, reported geometry, and its own types of objects and states.  Containers
  take and return such records, so theorems about containers hold for arbitrary members.

The central proof device is a simulation relation (`Spec.SimRel`, and `Spec.SoftRel` for modules whose
probes may raise): "this object has consumed exactly the frames `h` since it was cleaned, and it
implements the stream function `φ`", where `φ h` is the list of everything emitted for `h`.  It is
proved once per leaf (ring buffer invariants, closed form of the stride counter) and closed under the
containers; C08-C11, C13-C17, C25, C26, C45, C55 are corollaries for every nesting (`Spec.Net`).

## Trusted base

* Lean 4.33.0's kernel.  No axioms of our own, no `sorry`, no `native_decide`, no `bv_decide`.
  Theorems depend on at most `propext`, `Classical.choice`, `Quot.sound`; the exact set for each
  theorem is listed at the end of this file.
* The reading of `/repo` that produced the model.  Nothing was executed; torch itself is not available.
* The modelled meaning of torch operators on the time axis: `stack`, slicing, `cat`, `zeros_like`,
  `clone`, `remainder`, in-place item assignment, `conv{1,2,3}d` as a sum over kernel slices,
  `softmax` as exponentials divided by their sum, `nn.RNN/GRU/LSTM` as layer-wise scans.
* Exact arithmetic instead of floating point.  Claims of equality are claims about exact values.  Exceptions: C73, where `+`, `0` and
  all products are arbitrary functions (the model of the convolution asks for no laws of `+`; `Verif.Model.AttnAny` for attention);
  C96 and the claims about networks (`Spec.Net`), which admit convolutions over any `+` without laws; C127, where `+` rounds with a
  relative error and the distance to exact arithmetic is bounded.

## What is modelled, file by file

| file in /repo/continual | modelled in | not modelled |
|---|---|---|
| module.py | Copies (`copy.copy` and `copy.deepcopy` of modules), Core (`forward_step`, `forward_steps`, `_forward_steps_impl`), Threads (the process-wide context), Hooks (pre- and forward hooks in `_call_impl`), Shape (`forward_step` with frames of varying size), CallMode (`_callmode`, `_CallModeContext`, `call_mode`, mode dispatch of `_call_impl`), WarmUp, Heap (`_clone_first`), Registry (`_validate_class`, `is_valid`, `__init_subclass__`) | hooks for all modules, backward hooks and `torch.jit` in `_call_impl` |
| delay.py, skip.py | Delay, Heap, Faults (`temporary_parameter` around `forward_steps` and exceptions), Device (devices of the tensors in `forward_step`, also of conv.py, pooling.py, rnn.py, positional_encoding.py, attention, `Sequential`, `BroadcastReduce` and `Conditional`; torch's rules are stated in the header of the file), Typed (types and devices of frames, `warm_up`) | types of frames for positional encodings, devices in `forward_steps` and `Parallel` |
| conv.py | Conv (abstract linear maps per kernel slice), ConvNd (batch, channels, groups, spatial axes), Args (forms of the sizes), Heap, Convert (`build_from`), BuildOpt (its options), Work (counting the products of the calls) | `torch.jit` (padding modes other than zeros and replicate are refused by `PaddingMode` or torch) |
| conv.cpp | Cpp (with the call in conv.py that is commented out) | unbatched input, conversion of the indices between tensors and numbers |
| pooling.py | Pool (spatial pooling an arbitrary function of a frame), PoolNd (all axes, `ceil_mode`, `count_include_pad`, `divisor_override`), PoolReshape (the reshapes around the temporal pooling), PoolBuild (`build_from` with options), Args (forms of the sizes), Heap, Adaptive, Convert | indices of max pooling |
| closure.py, linear.py, shape.py | Closure, LinearNd (any rank and `channel_dim`), BuildOpt (options of `build_from`), ReshapeNd (any rank and shape), ReshapeArgs (arguments of the constructor) | `contiguous` (memory layout only) |
| rnn.py | Rnn, RnnLayout (axes), Convert, BuildOpt (options of `build_from`), Dropout (training mode), ShapeRnn (frames of other batch sizes), Packed (sequences of different lengths) | |
| positional_encoding.py | PosEnc (arbitrary table), Cyclic (the static table, over the real numbers) | rounding of the entries, how learned tables are initialised |
| multihead_attention/* | Attention (projections and heads abstract), AttnNd (written out, with `add_bias_kv`, `add_zero_attn`, `kdim`, `vdim`), AttnLayout (axis orders), AttnHeap, AttnMask (masks), Flops, Dropout (one entry of the result in training mode), AttnBuild (`build_from`), AttnShape (frames of other batch sizes) | |
| transformer.py | Transformer, EncoderBuild (`build_from`, names of the parameters), EncoderArgs (arguments of the layer functions), EncoderBlock | dropout in training mode beyond single layers (Dropout) |
| container.py | Types (the type checks of `Sequential`), Container, Nest, Append, Broadcast, Parallel, Conditional, CallMode, Onnx, StateDict, InPlace (tensors shared between members), NaiveNd (the torch modules mapped naively, as documented by torch, on tensors of any rank; `forward_stepping`'s `forward_step` and `forward_steps`), Grad (the autograd graph of streams through convolutions, poolings, delays, attention and their containers: which nodes a step makes, what they save, when `backward` raises; torch's part is stated in the header of the file), Adopt (what the constructors do with modules that are not continual), Edit (assignment, deletion and slices inherited from torch) | values of gradients |
| convert.py | Convert, Closure, CallMode, InPlace (in-place layers), Enhance (the attributes that `forward_stepping` sets, arguments of `forward` behind it), Registry (`register`, the tables), Dropout (dropout layers in training mode), Carry (types, devices, modes and sharing of parameters) | `kwargs` passed through `continual` |
| logging.py | Logging | formatting and handlers of the standard library |
| utils.py | CallMode, Faults, TempAttr (`temporary_parameter`, `rgetattr`/`rsetattr`), StateDict, Onnx (`flatten`), Repr (`function_repr`), Adopt (`num_from`) | lazy imports |
| onnx.py | Onnx (state flattening, names, wrapper), OnnxNet (networks with their exports), OnnxAxes (dynamic axes), Export (names and axes handed to torch), OnnxTrace (what tracing makes of the branches on states; assumed: a Python `if` on a tensor and `int(tensor)` become constants of the graph, indexing by tensors and arithmetic remain) | `torch.onnx.export` itself, tracing of attention, the operator registrations |
| ptflops.py | Ptflops | the hooks of ptflops itself are assumed; missing package |
| `__init__`, `__about__` | - | all (no observable behaviour of modules) |

Further simplifications are stated in the comment of the definition they concern.

## Findings: where the code and the property disagree

Each is proved as a negation (`..._refuted`, for all parameters where the statement says so) beside a
positive part (`..._partial`) where one exists.

1. **Pooling with dilation > 1** (C05): the ring index wraps modulo `kernel_size` instead of the buffer
   length, so part of the buffer is never written; `forward_step` differs from `forward` for every
   `K >= 2`, `d >= 2`.  The reported receptive field is `d*K` instead of `d*(K-1)+1`.
2. **RetroactiveUnity** (C35, hence C36, C37): the index wraps modulo `delay` although the buffer has
   `delay + 1` slots.  Correct up to frame `2D` since `clean_state`, wrong from `2D+1` on forever, so
   retroactive transformer layers add the residual of the wrong token.
3. **Conv with kernel 1 and stride > 1** (C47): `get_state` returns `None`, so `forward_step` forgets the
   stride and emits at every frame.
4. **Conv with padding >= kernel size** (C48): streaming gives strictly fewer outputs than `forward`;
   `warm_up` raises because the delay is negative.
5. **forward_steps(update_state=False, pad_end=True)** (C17): on a module holding a state, the end
   padding runs from the state *before* the call instead of the state after the clip.
6. **Sequential.forward_steps(pad_end=True)** (C16): downstream members save the outputs that upstream
   end padding caused, although end padding must not be saved.
7. **Sequential.forward_steps(pad_end=True), strided members** (C15): if a member emits nothing in the
   last chunk, `None` is returned early and downstream end padding is skipped.
8. **auto_delay with stride > 1** (C19): the added `Delay` counts output frames of the branch instead of
   input frames.
9. **Residual** (C21): `forward_steps` in "centered" mode raises or silently broadcasts; `pad_end=True`
   mismatches lengths; "leading" with delay 0 and non-equal padding asserts.
10. **Parallel after Parallel** (C23): a delaying branch hands `None` to the next `Parallel`, which raises.
11. **Conditional** (C24, C39, C41): `forward_steps` drops `pad_end` and `update_state`; `clean_state` does
    not reach the branches; `_forward_step` returns the state of one branch instead of the pair; the
    call mode is not propagated in `forward`.
12. **State aliasing** (C27, C29): `get_state` returns the live buffers and `_forward_step` writes into the
    state it is given (Delay, pooling, conv in evaluation mode, the attention's stride index), so a
    checkpoint is overwritten by the next step unless it is copied.  `set_state(get_state())` on a
    fresh module raises.  Positive: `update_state=False` never leaks (C28).
13. **Max pooling** (C44): `MaxPool2d/3d` and `build_from` pad with zeros instead of minus infinity.
    `AvgPool` steps ignore `divisor_override` / `count_include_pad`.
14. **Attention** (C32, C34, C42): `update_state=False` on a fresh module raises `UnboundLocalError`, clips
    without frames raise, `sequence_len=1` raises `IndexError` in the retroactive module;
    `SingleOutputMultiheadAttention.delay` is 0 by default though the first output appears at step
    `sequence_len`.
15. **Transformer** (C36, C37): `TransformerEncoder` with three or more layers always raises an
    `AssertionError`; `num_layers <= 0` builds two layers; `activation="gelu"` gives relu;
    `SingleOutputTransformerEncoderLayer` with `query_index != -1` and the default
    `single_output_forward=False` adds the residual of the newest token to the output of another one.
16. **Call modes** (C38, C39): nested `co.call_mode` blocks lose the outer override, and later blocks have
    no effect; an invalid mode raises but leaves the context half entered; explicit container methods
    inside a block dispatch their children by the block's mode; `temporary_parameter` does not restore
    on exceptions; restoring a container's mode overwrites differing modes of its children.
17. **Naive members** (C50): a `BroadcastReduce`/`Residual` with a plain `nn.Module` as direct child raises
    `KeyError` because the module gets a raw string as call mode.
18. **Deep copies** (C51): after an assignment to `call_mode`, a deep copy or unpickled module raises
    `KeyError` when called.
19. **State dicts** (C52, C53, C54): loading a regular state dict with `flatten=True` raises (strict) or
    silently skips parameters (non-strict), so do partial flat dicts; nested `flat_state_dict` blocks
    switch flattening off too early.
20. **Converting twice** (C57): `forward_stepping` applied twice to an object (for instance a shared
    activation) recurses without bound in the step modes.
21. **Registered but inconvertible** (C49): `nn.AdaptiveAvgPool*`, `nn.AdaptiveMaxPool*` and
    `nn.TransformerEncoder` are registered for conversion but always raise `TypeError`.
22. **Bidirectional RNN/GRU/LSTM** (C49): silently converted to the forward direction only.
23. **nn.GroupNorm** (C49): mapped naively, although its statistics run over the time axis.
24. **Adaptive pooling** (C56): `forward` pools the whole clip, streaming pools windows of `kernel_size`.
25. **warm_up** (C42): with delay 0 it raises for `Lambda` on frames; it raises for recurrent modules.
26. **Skip / shrinking Delay** (C11, C12, C42): `Skip` reports delay 0 but emits first at step `n`;
    `Delay(auto_shrink=True)` emits first at step `2d` but reports `d`; `Delay` reports receptive field
    `d+1` although its `forward` is the identity.
27. **RNN/GRU/LSTM** report receptive field 1 although their outputs depend on the whole past.
28. **Positional encoding** (C25, C31): `forward` depends on and may move the position of the stream;
    `_forward_step(x, None)` rewinds the stream of the module itself.
29. **ParallelDispatch** with a string in the mapping recurses without bound; negative ids wrap around.
30. **append** (C59): `Sequential.append` replaces a member when the members are named and one is called
    `str(len)`; it does not infer `Broadcast.num_streams`; on a `BroadcastReduce` (or `Parallel`) it leaves the
    reported delay and receptive field stale and does not delay branches.
31. **Shared modules** (C60): one stateful module object used at two positions of a `Sequential` mixes its
    streams in `forward_step(s)`; `forward` and `_forward_step` are fine.
32. **Pooling options** (C62, C63): `ceil_mode=True` makes `forward` return one frame more than the steps whenever the
    windows do not fill the clip; `count_include_pad=False` with temporal padding and `divisor_override` change
    `forward` but not the temporal part of the steps; `AvgPool*` accepts a temporal `dilation` which `forward` ignores.
33. **Attention options** (C64): the constructors accept `add_bias_kv`, `add_zero_attn`, `kdim` and `vdim`, and `forward`
    honours them, but with any of them every step raises (an assertion, a shape error in the attention step, or an
    attribute error on `in_proj_weight=None`, since the separate projection weights are never passed on).
34. **Axis order of single-output attention** (C65): without `batch_first`, `forward_steps` stacks frames `(1, N, E)` and then
    squeezes axis 2, which is the batch: the result is `(T, 1, N, E)` instead of `(T, N, E)` (and for a batch of one, the
    batch axis is dropped instead). `embed_dim_second` without `batch_first` is accepted, but `forward_step` and
    `forward_steps` then disagree about where the features are.
35. **`Linear.channel_dim` from the wrong end** (C67): frames lack the time axis, so a negative `channel_dim` before time (or
    a positive one behind it) denotes different axes for clips and frames. `channel_dim=-2` on `(B, C, T)` raises on every
    `forward_step`, or - if `B` equals `in_features` - silently mixes the batch entries.
36. **`Reshape` to one axis** (C69): `co.Reshape(40)` (or `-1`, the flattening) works with `forward_step`, but `forward` and
    `forward_steps` raise on every clip, since time is moved to position 2 of a tensor with two axes. (The assertions of
    /repo/tests/continual/test_shape.py:13-19 are comparisons without `assert`.)
37. **`TransformerEncoder.build_from` drops `norm_first`** (C70): a torch encoder with `norm_first=True` is converted without any
    message into one that normalises after the residual sums; the outputs differ.
38. **`activation="gelu"` gives relu** (C70): `TransformerEncoderLayerFactory` maps both names to `nn.functional.relu`
    (transformer.py:472-476).
39. **Two-layer encoders inside `with co.call_mode(...)`** (C71): the second layer is called through `__call__`, so the block also
    changes what the encoder does inside. In `forward_step` blocks each call raises AssertionError once there are `sequence_len`
    frames; in `forward_steps` blocks the second layer accumulates state over calls and returns several tokens.
40. **Retroactive attention keeps NaN for up to twice the window** (C73): the sums of old queries are updated by subtracting what
    leaves the window, and `nan - nan` is `nan`. One frame whose key is NaN (or overflows `exp`) makes the output contain NaN for
    `2 * sequence_len - 2` further frames, though the window has `sequence_len` frames; all other modules recover when the
    frame leaves the window (`C73_retro_nan_refuted`).
41. **A frame with a single entry is broadcast silently** (C75): `buffer[index] = x` (delay.py:106, pooling.py:191, conv.py:266) and the sum of conv.py:244-255 broadcast. In a stream with batch size n >= 2 a frame with batch size 1 is not refused but taken for n copies, and the output has batch size n.
42. **An exception for the first frame can leave a network unusable until `clean_state`** (C75): `Sequential.forward_step` updates member after member (container.py:643-647). If a later member refuses the first frame, the earlier ones keep buffers of its size and refuse all frames of another size from then on.
43. **A residual connection around an in-place layer differs between `forward` and streaming** (C76): `BroadcastReduce` passes one tensor to all branches (container.py:871-896), and `Delay.forward` returns its input itself (delay.py:128-131) while `forward_step` copies (delay.py:101, 106). `co.Residual(co.Sequential(nn.ReLU(inplace=True), conv))` computes `relu(x) + conv(relu(x))` in `forward` and `x + conv(relu(x))` in `forward_step(s)`. With the delay in the second place, as in the docstring of `Residual`, the input is lost in every mode. torch does not object: the sum needs no saved tensor.
44. **`co.call_mode` is not thread-safe** (C77): `call_mode` is one object with the two attributes `cur` and `prev` (module.py:75-92). While one thread is inside a block, `module(x)` in every other thread runs the method of that block. If the blocks of two threads overlap (enter, enter, leave, leave), both attributes are `None` in the end, and from then on `with co.call_mode(...)` has no effect in any thread: `module(x)` runs `forward`.
45. **Hooks run twice, once or never, depending on the mode** (C78): a module made by `forward_stepping` (such as `nn.ReLU` in a `co.Sequential`) is called through torch's `__call__`, which runs the hooks around `forward_with_callmode`, which for steps calls `CoModule._call_impl` (convert.py:110), which runs them again: a hook that adds 1 to the output adds 2 per step, but 1 in `forward`. Hooks of recurrent members do not run in `forward` (`apply_forward` calls the method, container.py:58-61), and those of the branches of a `Conditional` not in steps (container.py:1048-1070).
46. **Static positional encodings vanish for `num_embeds=5`** (C79): the rows are averaged over the five neighbours `[-2, -1, 0, 1, 2]` on the circle of positions (positional_encoding.py:79-84), and the mean over all positions is subtracted (85). With five positions both are the same, so that the whole table is 0 and `RecyclingPositionalEncoding(embed_dim, 5, learned=False)` returns its input.
47. **Masks are ignored by steps** (C80): `forward_step(..., *args, **kwargs)` of the attention modules (mha_base.py:430-438) accepts `attn_mask` and `key_padding_mask` and drops them, while `multi_head_attention_forward_step` has assertions against masks (98-99) that are never reached with one. Outputs then differ from those of `forward` with the same masks. With `single_output_forward=True`, `forward` selects the query first (single_output_mha.py:288-294) and then passes the mask on, so that a mask of the documented shape (L, S) raises a RuntimeError; the mask must have a single row.
48. **`flops()` is off in several places** (C81): `scaled_dot_prod_attn_flops` with additions lacks a factor (mha_base.py:606: `2*n*n - n*d - n` where `2*n*n*d - n*d - n` are done), so that for head sizes `d >= 2n` including additions lowers the count; with `single_output_forward=True` one key and one value projection are counted though all `n` are projected (single_output_mha.py:406-420); projections are counted even with `include_muls=False`, and the bias counts as a multiplication *and*, with additions, a second time; `forward_steps` raises KeyError (both dictionaries lack it), and the attribute `call_mode` is read instead of the effective mode, so that under `with co.call_mode("forward_step")` ptflops counts `forward`. The default count of a retroactive step is `2n` too high per head and of `forward` off by `n*n - n*d`.
49. **A bare attention module cannot be exported** (C82): `OnnxWrapper.forward` calls `self.model._forward_step(x, shaped_state)` (onnx.py:261); the second parameter of `_forward_step` of attention is `key` (single_output_mha.py:302-308, retroactive_mha.py:286-292), so that the tuple of states is used as keys and `key.shape` raises AttributeError. Inside containers the state is passed as `prev_state=`. Besides, `export` with its default `input_names=None` raises TypeError at `None + list` (onnx.py).
50. **The dynamic axis of state buffers is the wrong one** (C83): `{0: "batch"}` (onnx.py:279) is declared for buffers of shape `(delay, batch, ...)`, `(kernel - 1, batch, ...)` and `(layers, batch, hidden)`, whose axis 0 has a fixed size and whose axis 1 is the batch: an exported model with a Delay, convolution, pooling or recurrent module accepts only the batch size it was exported with. The buffers of attention have batch times heads on axis 0, which is given the same name as the batch axis of the input.
51. **Tracing freezes the branches on state tensors** (C84): `if output_is_valid`, `if next_stride_index > 0` (conv.py:240-278), `if stride_index == ...` (pooling.py:195-201), `if index >= 0` (delay.py:100, skip.py) are decided by the state the model is exported with. Exported with a temporal stride of at least 2 the graph gives an output at every step or at none; exported with a fresh state a delay never gives one. `RetroactiveUnity` turns its index into a Python int (`roll(shifts=int(-index - 1))`, transformer.py:100), so that the exported residual branch of a retroactive encoder is rotated by a constant.
52. **New weights mix with old ones for a while** (C85): the buffer of a convolution holds partial results `w_j x` rather than frames (conv.py:224-228, 263-270), and keys and values are remembered after their projections. After `load_state_dict` or an optimiser step in the middle of a stream, the next `receptive_field - 1` outputs combine old and new weights and are those of neither network; nothing resets or flags the state.
53. **Max pooling overwrites what its backward pass needs** (C86): `buffer[index] = pooled_frame` (pooling.py:191) writes into the tensor that `AdaptiveMaxPool1d` saved at the previous step; the clone that conv.py:265 makes in training mode is commented out here (pooling.py:193). A loss over two outputs, or over one that was followed by another step, raises `RuntimeError`. Average pooling is not affected, nor max pooling whose `reshape` or `index_select` copies.
54. **The streaming state is never detached** (C87): it refers to the graph of all earlier frames. A second `backward` in the same stream raises ("backward through the graph a second time"), and with `retain_graph=True` it raises after the first step of an optimiser, because the weights saved with the first frame have changed. Training needs `clean_state()` between backward passes.
55. **Streaming without `torch.no_grad()` leaks** (C88): for the same reason every frame keeps its input (and more) alive for as long as the state is not cleaned; the README's streaming examples do not switch gradients off.
56. **Naively mapped layers may mix times** (C89): besides GroupNorm (finding 23), `continual` accepts `nn.Softmax`/`Softmin`/`LogSoftmax` with `dim` = time (for 1d networks that includes `dim=-1`; `forward_step` returns constant ones), `nn.GLU` over time (always raises; `dim=-1` is its default, so `nn.GLU()` in a 1d network cannot be stepped), `nn.LayerNorm` whose normalised shape includes time (always raises), and `nn.BatchNorm*d(track_running_stats=False)`. A condition like `_instance_norm_condition` exists for instance normalisation only, and it does not help in training mode, where the accepted ones use the statistics of the input as well: per frame they differ from those of the clip, and in 1d networks `forward_step` raises `ValueError` on every frame.
57. **Batch normalisation in training mode** (C90): `forward_step` with batch size one (and one place per frame) raises `ValueError`; otherwise each frame is normalised with its own statistics and counted as a batch of its own, so the running mean after a clip is weighted towards its last frames.
58. **Networks with naively mapped layers cannot be copied** (C91): `forward_stepping` stores a `staticmethod` object as the attribute `build_from` of the module (convert.py:79-81, 92), so `copy.deepcopy` (and pickling) of any network with an activation or normalisation in it raises `TypeError: cannot pickle 'staticmethod' object`.  Shallow copies share the buffers, that is, the stream.  Copies of networks whose state was computed with gradients raise `RuntimeError`.
59. **Exceptions change the padding of a Delay for good** (C92): `temporary_parameter` (utils.py:40-58) restores the attribute only if its block returns.  `Delay.forward_steps` sets `padding` this way; if it raises (say `IndexError`, when a frame of shape (B, C) is passed to `forward_steps`), the Delay keeps `padding = (delay,)`, and no later call repairs it.  A `Sequential` around it then reports a `delay` that is too small (`warm_up` passes too few frames).  A `try … finally` in `temporary_parameter` would repair this and the call modes of C39.
60. **Sequential drops inputs that are not exactly of type Tensor** (C93): `type(input) in {Tensor, list}` (container.py:648, 670) is false for `nn.Parameter` and other subclasses of `Tensor`: `forward_steps` of a Sequential then returns `None` at once, and `forward_step` returns `None` behind the first member that keeps the subclass, whose state has moved on while the others' has not.  `len(input) == 0` does the same to empty batches in `forward_steps`.  `isinstance` would repair the first.
61. **Plain loggers are deduplicated too** (C94): single_output_mha.py:14-15 and retroactive_mha.py:13-14 make `logger = getLogger(__name__)` and `logger_once = getLogger(__name__, log_once=True)`; `logging.getLogger` returns one object for one name, so the second call wraps the methods of the first as well, and `logger.warning` repeats nothing either.  Deduplication is by `hash` of the message: of two messages with the same hash the second is lost.
62. **`repr` of lambdas** (C95): `function_repr` counts parentheses but not brackets or braces, so `lambda x: x[:, 0]` shows as `lambda x: x[:`; it takes the first `lambda` of the statement, so of two lambdas in one line both show as the first; a colon in the default of an argument shifts the start of the body.  `co.Lambda` of a callable object without `__name__` can be run, but `repr` of it, and of each network around it, raises AttributeError.
63. **Averages depend on the phase of the ring buffer** (C96): pooling hands the ring buffer to `AdaptiveAvgPool1d` as it lies (pooling.py:202), so that the frames are summed in an order rotated by the number of the step; in floating-point numbers the average of one and the same window differs in its last bits between positions of the stream.  Convolutions gather their partial sums from the oldest on (conv.py:246-252) and have no such effect.
64. **Devices** (C97): (a) the index of a convolution is made on the CPU and combined with `torch.arange(tot)` (conv.py:248); `to(gpu)` in the middle of a stream moves the index, and each output raises from then on, while a convolution moved before its first frame works; (b) the hidden state of recurrent layers is an ordinary attribute, which `to` leaves behind (rnn.py:194, 409, 666); (c) `_frame_index_selection` of dilated poolings is an ordinary attribute as well (pooling.py:140), so `index_select` raises on every GPU; (d) `clean_state` and `init_state` of the positional encoding make the index on the CPU (positional_encoding.py:192, 196), where `nn.Embedding` on a GPU does not find it.
65. **Automatic conversion** (C98): `Parallel`, `BroadcastReduce` (container.py:277, 820) and `Residual` (957) read `module.delay` before `co_add_module` converts the module, so each plain torch module raises `AttributeError` with the default `auto_delay=True`; with `auto_delay=False` the test of strides sees the raw attribute, which `nn.Sequential` does not have, and lets branches of different strides pass; `Conditional` asks `isinstance(…, CoModule)` instead of `is_valid`, and refuses modules that were enhanced with `forward_stepping` (or enhances them a second time, finding on C57).
66. **`forward_stepping` and `forward`** (C99): `orig_forward(*args, *kwargs)` (convert.py:109) unpacks the keyword arguments with one asterisk, so the *names* are passed by position; `tuple(getattr(module, "stride", [1]))` (88-89) raises for numbers (`nn.MaxPool2d(2)`) after half of the attributes are set, and makes `('s','a','m','e')` of `padding="same"`.
67. **Editing containers** (C100): `append` names the new member `str(len(self))` (container.py:725); slices keep the names of the members, so `net[1:].append(m)` silently replaces a member of the slice instead of adding `m` (of four members, the slice has `"1"`, `"2"`, `"3"`, and the name is `"3"`).  `net[i] = m` uses `setattr` and bypasses `co_add_module`, so a torch module stays unconverted and `forward_step` raises `TypeError`.  A slice of a `BroadcastReduce` is `BroadcastReduce(OrderedDict(...))` and loses the argument `reduce`.
68. **Dropout in training mode** (C101): `Dropout2d`, `Dropout3d` and `FeatureAlphaDropout` are in `NAIVE_MAPPING` although a draw covers the whole clip in `forward` and one frame in `forward_step`.  Retroactive attention skips `dropout_p` in steps (retroactive_mha.py:74-75).  Single-output attention logs the same warning (single_output_mha.py:75-78) but does apply dropout (lines 103-104).
69. **Registration and class checks** (C102, C103): `register` accepts types of `NAIVE_MAPPING` and `CONDITIONAL_MAPPING` although `continual` looks there first, so the registration has no effect.  `continual` tests `isinstance(module, CoModule)` rather than `CoModule.is_valid`, so `continual(forward_stepping(MyModule()))` raises.  `CoModule` 'enforces the implementation of necessary methods' (module.py:103-104) only in name: `_validate_class` finds the defaults of `CoModule`, hence a subclass without any method is accepted.
70. **Forms of sizes** (C104): `co.Conv2d(1, 1, 3, stride=(2,), padding=(1,))` is accepted, `forward` uses stride 2 and padding 1 on both axes, `forward_step` stride 1 and padding 2 in space, because `(1, *stride[1:])` and `(K - 1, *padding[1:])` (conv.py:112-118) have length one and are repeated.  Pooling with a stride of length one uses the kernel size as the spatial stride in steps.  `continual(nn.Conv1d(..., padding="valid"))` gives a module whose `padding` is `('v', 'a', 'l', 'i', 'd')` and which raises on use.
71. **What conversion loses** (C105, C106): `build_from` of the convolutions passes neither `dtype` nor `device` (conv.py:407-423, 507-523, 607-623; those of Linear and the recurrent modules do), so that `continual(net.double())` rounds the weights of convolutions to single precision and then refuses inputs in double precision, and `continual(net.cuda())` is a network with convolutions on the CPU.  All new modules are in training mode, whatever the mode of the original: `continual(lstm.eval())` applies dropout, and `continual(net.eval()).training` is `True` while its batch normalisation is in evaluation mode.  Frozen parameters become trainable, tied weights and repeated members get copies of their own.  Activations, normalisations and dropout are shared with the original: `continual(net).train()` switches the batch normalisation of `net`, also if it is the only thing the networks have in common, and a conversion that raises has changed those before the refused member.
72. **`warm_up` is for single precision on the CPU** (C107): it feeds `torch.zeros(..., dtype=torch.float)` whatever the type and device of the module (module.py:325-327).  The buffers of delays and poolings are made like the first frame and converted to by later ones (delay.py:94-105, pooling.py:189-191), so that after `warm_up` their results are in single precision and on the CPU for the rest of the stream: `Residual(conv)` on a GPU raises at the first result, after a silent `warm_up`; a pooling in double precision quietly rounds.  A convolution in double or half precision raises within `warm_up`.  In the same way a stream the first frame of which is in half precision is rounded to half precision for ever.
73. **`temporary_parameter`** (C108): there is no `try ... finally` (utils.py:40-58), all values in force when an exception is raised stay.  The previous value of an attribute of the class is stored in the object: after one call of `Delay.forward_steps` (delay.py:123) the delay has a `padding` of its own, and assignments to `Delay.padding` do not reach it any more.  `temporary_parameter(o, "a.a", v)` for `o.a is o` raises on leaving.
74. **`MultiheadAttentionBase.build_from`** (C109): neither `training` nor `requires_grad` are taken over; `add_bias_kv=True` for a module without gives random keys and values that change the result, without a message; `bias=False` and `add_bias_kv=False` for a module with them raise `AttributeError` on `None.copy_`.
75. **Chunks without frames** (C110): `forward_steps(x[:, :, :0])` is `None` for convolutions and poolings, an empty clip for pointwise modules, and raises for recurrent modules, attention and `Lambda`s of frames (`torch.stack` of no tensors); with `pad_end=True` the padding is made like the last frame, `input[:, :, -1]`, and raises IndexError, so that the end of a stream cannot be flushed once its last frame is in.
76. **conv.cpp** (C111, commented out at conv.py:24-38, 178-197): it convolves a frame with all of `stride` instead of `_step_stride`, so that with a temporal stride the buffer has too few entries and the first result raises; kernels of size 1 raise (`_stateless` is not looked at, and the write to the buffer is not guarded); biases are added along the last axis (wrong values, a wrong shape, or an exception for Conv2d and Conv3d); `temporal_fill="replicate"` is ignored.
77. **The squeeze-and-excitation block** (C112, README.md:247-258) works with `forward_steps(pad_end=True)` for clips of exactly `kernel_size` frames only; longer clips raise (the residual branch gives T frames, the pooled one T-K+1), shorter ones give `None`, and `forward` scales by the pooling of the whole clip, whatever its length.
78. **The spelled-out residual of the documentation** (C113, README.md:192-202) has `Delay(2)` where the short-hand next to it uses `Delay(1)`: `auto_delay` then delays the convolution as well, and every result comes one call later.
79. **`RNN.build_from(module, bias=False)`** (C114, rnn.py:173-176) pairs the weights of both modules by position: with two layers or more, every row of `weight_ih_l1` of the result is `bias_ih_l0` of the original (`copy_` broadcasts), layer 2 gets the weights of layer 1, and so on, without an error. GRU and LSTM raise `RuntimeError`. `num_layers` larger than that of the original leaves the added layers random.
80. **`build_from` of convolutions with options** (C114, conv.py:404-429): `bias=True` for a module without bias leaves a random bias; `bias=False` for one with bias raises `AttributeError`; another `kernel_size` for a pointwise convolution repeats its weight at all places.
81. **Recurrent modules take any keyword argument** (C114, rnn.py:131-132): `co.RNN(..., bidirectional=True)` or a misspelled option is ignored without an error.
82. **Geometry of `Conditional`** (C115, container.py:1021-1024, 1080-1086): `stride` and `padding` are the defaults of the class whatever the branches are. A `Sequential` around a `Conditional` therefore reports a delay that is too large by the padding of the branch, `Residual(Sequential(Conditional(p, conv)))` with a 'same' convolution adds the frame before the right one, and strided branches pass the checks for stride one.
83. **Delay of single-output attention** (C116, single_output_mha.py:260-266): `delay` is the age of the query, not the step of the first result. For the default query (the newest frame) it is 0, although the first result comes at step sequence_len - 1. `Sequential(mha)` reports sequence_len - 1 again, so `Residual(mha)` and `Residual(Sequential(mha))` add different frames, the latter the wrong one; and `Residual(mha).forward_steps` raises on the first chunk, because the branches give different numbers of frames.
84. **`return_indices` is dropped** (C117, pooling.py:660-677, 782-797, 906-921): `build_from` (hence `convert`) of a max pooling with `return_indices=True` gives a module that returns no indices, without a warning; code that unpacks the pair fails, or, for a batch of two, unpacks the batch.
85. **`Reshape(shape, True)`** (C118, shape.py:22-40): the first overload documents `contiguous` as a positional argument, but the implementation takes it for a part of `*shape` and ignores everything behind a sequence. Sizes after the first are not checked: `Reshape(2, None)` is made and raises `TypeError` at every call.
86. **Activations of encoder layers** (C70, C119, transformer.py:238-263, convert.py:237): single-output layers convert the activation through `co.continual`, which knows `types.FunctionType` only. Functions of torch written in C++ (`torch.tanh`, `torch.relu`, and `nn.functional.gelu` since torch 1.12) raise `AssertionError`, so no encoder made of `nn.TransformerEncoderLayer(activation="gelu")` can be converted. The names "relu" and "gelu", documented for the layer functions too, raise there. `factory("regular")` returns `None`.
87. **Operations counted by ptflops** (C120, ptflops.py:52-82): in a step, members made by `forward_stepping` (norms, ...) inside a container are counted twice, since `forward_step` calls the hooks a second time; a step of a convolution without output raises `AttributeError` in the hook of ptflops, so `get_model_complexity_info` in steps needs a warmed-up network; `RNN`, `GRU`, `LSTM` are not registered and reported as 0; `Linear(..., channel_dim=1)` in `forward` is counted with the numbers of frames in place of the channels; the count of attention is divided by the batch size though it is for one entry.
88. **Names in `co.onnx.export`** (C121, onnx.py:219-226): the documented defaults of `input_names` and `output_names` (empty lists) are `None`, and `None + list` raises `TypeError`; with explicit empty lists the input is called `s0` and every state tensor gets the name and the dynamic axis of its successor, silently; an input called `s1`, say, makes axis 0 of the second state tensor dynamic although it has none. Modules made by `forward_stepping` are refused since they are not instances of `CoModule`.
89. **A step of a convolution carries out K times the products it needs.** `_forward_step_py` (conv.py:209-228) convolves the new frame between `K - 1` zero frames on each side: `K` frames of result with `K` products each, of which one is with the frame. Products with frames are as few as the README says (`C123_step`, `C123_clip`), but counting all products of the convolution that is called, a step of a network of one or two convolutions takes more than `forward` over the whole window, with three as many (`C123_window_partial`, `C123_products_refuted`); applying the `K` slices as a pointwise convolution with `K` times the channels would avoid this.
90. **A query with a single entry is broadcast silently by single-output attention** (C125): with one head and a query index other than the newest token, `Q_new[:, -1] = q_step`, `K_T_new[:, :, -1] = k_step` and `V_new[:, -1] = v_step` (single_output_mha.py:95-111) broadcast a frame of batch size 1 in a stream of batch size n >= 2; the query of the product comes from the state, so nothing raises. The result has shape (n, 1, E) instead of (n, E). With several heads, with the newest token as query, and in the retroactive module the same frame raises.
91. **Packed sequences raise in recurrent modules** (C126): the documentation (rnn.py:45-47, 65-67 and the same for GRU and LSTM) and the annotations (rnn.py:197, 412, 670) admit `PackedSequence`, but `forward` begins with `input.swapaxes(1, 2)` (rnn.py:199, 414, 673), which a packed sequence does not have. With padding instead, the outputs are right and the final hidden state of the shorter sequences includes the padding.
92. **Every process logs if Lightning is not installed** (C94): `_process_rank` (logging.py:10-24) asks horovod for the rank only after `pytorch_lightning` was imported; without Lightning the rank is 0 on every process, also under horovod or `torch.distributed`.
93. **Conditional keeps its states when a network is cleaned and moved** (C97): `Conditional` inherits the `clean_state` that does nothing (module.py:184-186), so `net.clean_state(); net.to("cuda")`, which is right for convolutions and recurrent layers elsewhere, leaves a convolution in a branch with the state of the old stream, and its next output raises.
## Properties

The statements are in `properties.jsonl`, what each theorem covers is in `MANIFEST.json`.

| id | property | status | file in Props |
|---|---|---|---|
| C01 | Streaming convolution equals the textbook convolution | proved | Leaf.lean |
| C02 | Convolution: forward_steps(pad_end=True) equals forward | proved | Leaf.lean |
| C03 | Streaming pooling equals sliding-window pooling | proved | Leaf.lean |
| C04 | Pooling: forward_steps(pad_end=True) equals forward | proved | Leaf.lean |
| C05 | Dilated pooling pools the frames the reference pools | partial | Corner.lean |
| C06 | Delay delays by exactly d frames | proved | Leaf.lean |
| C07 | Skip drops exactly the first n frames | proved | Leaf.lean |
| C08 | Chunking independence | proved | ChunkAttn.lean, Net.lean |
| C09 | update_state=False is a pure probe | proved | Net.lean |
| C10 | clean_state restores a fresh module | proved | Attention.lean, Net.lean |
| C11 | Outputs appear at step `delay` and then every `stride` steps | proved | Instant.lean, Net.lean |
| C12 | Sequential reports the temporal geometry of its forward | proved | Count.lean |
| C13 | Receptive field is sound | proved | Net.lean |
| C14 | Sequential streams the composition of its members | proved | Net.lean |
| C15 | Streaming a clip and padding the last chunk reproduces forward | partial | Pad.lean |
| C16 | End padding is not saved | partial | Pad.lean |
| C17 | pad_end with update_state=False matches pad_end with update_state=True | partial | Pad.lean |
| C18 | BroadcastReduce reduces its branches frame by frame | proved | Branches.lean, Parallel.lean |
| C19 | auto_delay aligns parallel branches | partial | Parallel.lean |
| C20 | Residual adds the right frame | proved | Residual.lean |
| C21 | Residual shrink modes agree between forward and streaming | partial | Residual.lean |
| C22 | Parallel streams are routed as the mapping says | proved | Branches.lean, Routing.lean |
| C23 | A missing frame passes through consecutive Parallel stages | partial | Routing.lean |
| C24 | Conditional behaves as the selected branch | partial | Conditional.lean |
| C25 | forward does not disturb a running stream | partial | Net.lean, PosEnc.lean |
| C26 | The functional step equals the stateful step | proved | Attention.lean, Pad.lean, ThreadNest.lean |
| C27 | get_state/set_state is a checkpoint | partial | AttnHeap.lean, Heap.lean |
| C28 | In-place buffer updates never leak | proved | AttnHeap.lean, Heap.lean |
| C29 | The functional step does not modify its argument | partial | AttnHeap.lean, Heap.lean |
| C30 | Recurrent modules stream exactly | proved | Rnn.lean |
| C31 | Positional encodings recycle | proved | PosEnc.lean |
| C32 | Retroactive attention equals full attention on the window | partial | Attention.lean |
| C33 | Single-output attention equals one row of full attention | proved | Attention.lean |
| C34 | Attention probes are pure | partial | Attention.lean |
| C35 | The retroactive residual returns the last window in order | partial | Transformer.lean |
| C36 | Transformer encoder layers stream what forward computes | partial | Transformer.lean |
| C37 | A TransformerEncoder can be built for every number of layers | partial | Instant.lean, Transformer.lean |
| C38 | call_mode contexts nest and restore | partial | CallMode.lean |
| C39 | Explicit method calls run their own mode | partial | CallMode.lean, CallModeSig.lean |
| C40 | Flattened state dicts round-trip | proved | StateDict.lean, StrictLoad.lean |
| C41 | ONNX state flattening round-trips | partial | Onnx.lean |
| C42 | warm_up makes the next step produce an output | partial | Attention.lean, WarmUp.lean |
| C43 | Pointwise modules agree in all modes | proved | Count.lean, LambdaModes.lean |
| C44 | Max pooling with padding matches torch for all inputs | partial | Corner.lean |
| C45 | Finite memory | proved | Pad.lean |
| C46 | State size is constant | proved | Attention.lean, Corner.lean |
| C47 | Stride is honoured for kernel size 1 | partial | Corner.lean |
| C48 | Padding at least the kernel size | partial | Corner.lean |
| C49 | continual() converts faithfully | partial | Convert.lean, ConvertErrors.lean |
| C50 | Reducing containers run wrapped members | partial | CallMode.lean |
| C51 | Copies dispatch like the original | partial | CallMode.lean |
| C52 | Regular state dicts load under flattening | partial | StateDict.lean |
| C53 | Part of a flattened state dict can be loaded non-strictly | partial | StateDict.lean |
| C54 | flat_state_dict blocks nest | partial | StateDict.lean |
| C55 | Outputs depend on the content of their window only | proved | WarmUp.lean |
| C56 | Adaptive pooling streams windows of kernel_size frames | partial | Adaptive.lean |
| C57 | Converting a converted module is harmless | partial | Convert.lean |
| C58 | Nesting of Sequentials is irrelevant | proved | Nest.lean |
| C59 | append is construction with one more member | partial | Nest.lean |
| C60 | One module object in two positions | partial | Nest.lean |
| C61 | Continual convolutions compute the N-dimensional convolution | proved | ConvNd.lean, PoolNdSize.lean |
| C62 | Average pooling computes N-dimensional averages | partial | PoolNd.lean, PoolNdSize.lean |
| C63 | Max pooling computes N-dimensional maxima | partial | PoolNd.lean, PoolNdSize.lean |
| C64 | Continual attention is textbook multi-head attention | partial | AttnNd.lean, AttnOptions.lean |
| C65 | Axis order of the attention modules | partial | AttnLayout.lean, AttnOptions.lean |
| C66 | Temporal pooling pools each location over time | proved | PoolReshape.lean |
| C67 | Linear along any channel_dim, on clips and frames | partial | LinearNd.lean |
| C68 | One module object serves many streams | proved | Mux.lean |
| C69 | Reshape on clips and frames | partial | ReshapeNd.lean |
| C70 | A converted torch TransformerEncoder computes what the torch encoder computes | partial | EncoderBuild.lean |
| C71 | A TransformerEncoder works the same inside a call_mode block | partial | EncoderBlock.lean |
| C72 | Recurrent modules keep the axis order of clips and frames | proved | RnnLayout.lean |
| C73 | Wrong values are forgotten | partial | Forget.lean |
| C74 | A batch is processed like its entries on their own | proved | Batch.lean |
| C75 | A frame of another size is refused and leaves the stream as it was | partial | Shape.lean, ShapeRnn.lean |
| C76 | In-place members do not change what a network computes | partial | InPlace.lean |
| C77 | Threads that use different networks do not disturb each other | partial | Threads.lean |
| C78 | Hooks of the members of a network run once per execution, in every mode | partial | Hooks.lean |
| C79 | Static positional encodings tell the positions apart | partial | Cyclic.lean |
| C80 | Masks restrict attention | partial | AttnMask.lean |
| C81 | flops() reports the operations that are done | partial | Flops.lean |
| C82 | An exported ONNX model streams like the module | partial | OnnxStream.lean |
| C83 | Dynamic axes of the states of exported models | partial | OnnxAxes.lean |
| C84 | The traced graph computes what the module computes | partial | OnnxTrace.lean |
| C85 | New weights in the middle of a stream | partial | Reweigh.lean |
| C86 | Backward through a stream | partial | Grad.lean, GradOut.lean |
| C87 | Training on a running stream | partial | Grad.lean |
| C88 | Memory held over a stream | partial | Grad.lean |
| C89 | Layers mapped as they are work frame by frame | partial | NaiveNd.lean |
| C90 | Running statistics over a stream | partial | NaiveNd.lean |
| C91 | Copies in the middle of a stream | partial | Copies.lean |
| C92 | Exceptions leave the reported geometry as it was | partial | Faults.lean |
| C93 | Subclasses of Tensor and empty batches | partial | Types.lean |
| C94 | Which log messages are emitted | partial | Logging.lean |
| C95 | Texts of functions in repr | partial | Repr.lean |
| C96 | Streams are reproducible to the last bit | partial | Rounding.lean |
| C97 | A module may be moved to another device | partial | Device.lean |
| C98 | Containers convert the modules they are given | partial | Adopt.lean |
| C99 | forward_stepping leaves the module's own forward alone | partial | Enhance.lean |
| C100 | Networks can be edited like lists | partial | Edit.lean |
| C101 | Dropout in a stream is distributed as dropout on the clip | partial | Dropout.lean |
| C102 | continual uses what was registered last and keeps what is continual | partial | Registry.lean |
| C103 | Classes that lack a part of the interface are refused | partial | Registry.lean |
| C104 | Sizes may be given in every form that torch accepts | partial | Args.lean |
| C105 | Conversion keeps the parameters as they are | partial | Carry.lean |
| C106 | Conversion leaves the original network alone | partial | Carry.lean |
| C107 | Streams keep the type and device of their frames | partial | Typed.lean |
| C108 | temporary_parameter sets an attribute for the time of a block | partial | TempAttr.lean |
| C109 | A continual attention module built from a torch one computes the same | partial | AttnBuild.lean |
| C110 | A chunk without frames is no input | partial | Empty.lean |
| C111 | The C++ step of the convolutions computes what the Python step computes | partial | Cpp.lean |
| C112 | The squeeze-and-excitation block of the documentation | partial | Docs.lean |
| C113 | The short-hand and the spelled-out residual connection of the documentation are the same | partial | Docs.lean |
| C114 | Options of build_from change what they name and nothing else | partial | BuildOpt.lean, BuildOptRnn.lean |
| C115 | A Conditional reports the geometry of the branch that runs | partial | CondGeo.lean |
| C116 | Attention modules report when their results come and which frame they belong to | partial | AttnGeo.lean |
| C117 | Pooling modules built from those of torch | partial | PoolBuild.lean |
| C118 | The ways of calling Reshape | partial | ReshapeArgs.lean |
| C119 | Arguments of the functions that make encoder layers | partial | EncoderArgs.lean |
| C120 | Operations reported by ptflops | partial | Ptflops.lean |
| C121 | Names and axes handed to the ONNX exporter | partial | Export.lean |
| C122 | Branches that keep the number of frames; Inception module and inverted residual block of the documentation | proved | Docs2.lean |
| C123 | Work of streaming: constant per frame, and fewer products per prediction than on sliding windows | partial | Work.lean |
| C124 | Superposition: linear networks combine streams linearly | proved | Superpose.lean |
| C125 | Attention refuses queries, keys and values of other batch sizes | partial | AttnShape.lean |
| C126 | Sequences of different lengths in recurrent modules | partial | Packed.lean |
| C127 | Rounding errors do not accumulate over a stream | proved | RoundErr.lean |
| C128 | Disturbances of a stream are amplified by a fixed factor | proved | Gain.lean |

## Axioms of each theorem

From `#print axioms`, all names in the namespace `CoInf`.

### no axioms (7)

`C30_rnn_probe`, `C30_rnn_clean`, `C93_forward`, `Adopt.C98_conditional_refuted`, `Registry.C103_override_partial`, `C108_direct`, `C126_packed_refuted`

### `Quot.sound` (2)

`C60_functional`, `C60_stateless_partial`

### `propext` (84)

`C09_probe`, `C10_attention`, `C10_clean_state`, `C11_instant`, `C15_chunked_forward_refuted`, `C16_padEnd_not_saved_partial`, `C16_sequential_padEnd_refuted`, `C17_padEnd_probe_refuted`, `C18_lengths`, `C19_strided_data_refuted`, `C21_padEnd_refuted`, `C24_clean_refuted`, `C24_flags_refuted`, `C24_data_refuted`, `C24_functional_refuted`, `C25_forward_pure`, `C26_attention`, `C27_fresh_refuted`, `C27_inplace_refuted`, `C29_conv_refuted`, `C34_empty_refuted`, `C38_nested_refuted`, `C38_invalid_refuted`, `C39_exception_refuted`, `C39_block_refuted`, `C39_block_raises_refuted`, `CallMode.C39_signatures`, `CallMode.C39_conditional_direct_refuted`, `Onnx.C41_leaves`, `C43_pointwise_modes_agree`, `C43_steps_eq_forward`, `C43_functions`, `C43_constructor`, `C49_unchanged`, `C49_bidirectional_refuted`, `C49_registered_refuted`, `C49_exceptions`, `C49_bidirectional_layers_refuted`, `C51_deepcopy_refuted`, `StateDict.C54_unnested_partial`, `StateDict.C54_nested_refuted`, `C58_nesting`, `C58_same_members`, `C59_infer_refuted`, `C59_reduce_refuted`, `C60_shared_refuted`, `RnnLayout.C72_probe`, `C77_overlap_refuted`, `C78_executions`, `C78_recurrent_refuted`, `C78_conditional_refuted`, `C78_raises`, `Onnx.C82_attention_refuted`, `C88_clean_partial`, `C92_attributes_partial`, `C92_stuck_refuted`, `C94_once_partial`, `C94_plain_refuted`, `Enhance.C99_keywords_refuted`, `Enhance.C99_numbers_refuted`, `Edit.C100_reduce_refuted`, `Registry.C102_continual_partial`, `C107_first_exact`, `C107_warm_refuted`, `C108_raised_refuted`, `C108_loop_refuted`, `C108_class_refuted`, `C110_exact`, `C110_dropped_partial`, `C110_refuted`, `C110_flush_refuted`, `C114_unknown_raises`, `C115_stride_padding_refuted`, `C115_data_refuted`, `C118_contiguous_partial`, `C118_position_refuted`, `C118_rest_ignored`, `C120_recurrent_refuted`, `C120_convolutions`, `C120_pools`, `C120_linear_partial`, `C121_defaults_refuted`, `C121_converted_refuted`, `C125_first_state`

### `Quot.sound`, `propext` (121)

`C06_delay_zero`, `C07_skip`, `C08_attention`, `C08_attention_chunkings`, `C12_members`, `C12_nonmembers`, `C14_sequential_composes`, `C18_eq_sequential`, `C18_geometry`, `C19_strided_refuted`, `C24_branch_partial`, `C24_alignment`, `C25_posenc_refuted`, `C27_clone_partial`, `C29_attention_partial`, `C29_attention_refuted`, `C29_linear_partial`, `C29_delay_refuted`, `C29_pool_refuted`, `C31_functional`, `C34_probe_partial`, `C38_unnested_partial`, `C38_dead_refuted`, `C39_explicit_mode_partial`, `C39_attributes_after`, `C39_restores_partial`, `C39_overwrites_refuted`, `C39_conditional_refuted`, `StateDict.C40_roundtrip`, `StateDict.C40_keys`, `StateDict.C40_regular`, `StateDict.C40_strict`, `StateDict.C40_strict_refuses`, `C46_conv_state_size`, `C46_pool_state_size`, `C49_converts_iff`, `C50_naive_member_refuted`, `C50_naive_member_partial`, `C51_deepcopy_partial`, `StateDict.C52_regular_strict_refuted`, `StateDict.C52_regular_lax_refuted`, `StateDict.C52_regular_partial`, `StateDict.C53_part_refuted`, `StateDict.C53_part_partial`, `C56_constructor`, `C57_once_partial`, `C57_twice_refuted`, `C58_geometry`, `C59_named_partial`, `C59_reduce_partial`, `C65_single_forward`, `C65_functional`, `ReshapeNd.C69_one_axis_refuted`, `ForgetExample.C73_retro_rf_refuted`, `C75_one_size`, `C77_exclusive_partial`, `C77_no_blocks_partial`, `C77_block_refuted`, `C78_once_partial`, `C78_values_partial`, `C78_stepping_refuted`, `Onnx.C82_ready`, `Onnx.C83_flags`, `Onnx.C83_axes_refuted`, `Onnx.C83_name_refuted`, `Onnx.C84_stride_refuted`, `Onnx.C84_warmup_refuted`, `C86_max_pool_refuted`, `C88_no_grad_partial`, `NaiveNd.C89_frames_partial`, `NaiveNd.C89_chunks_partial`, `NaiveNd.C89_instance_norm`, `NaiveNd.C89_instance_norm_frames`, `NaiveNd.C89_legacy_softmax`, `NaiveNd.C89_stream_partial`, `NaiveNd.C89_instance_norm_1d_refuted`, `NaiveNd.C90_eval_partial`, `NaiveNd.C90_clip`, `C92_forever_refuted`, `C93_plain_partial`, `C93_parameter_partial`, `C93_step_refuted`, `C94_exact`, `C94_hash_refuted`, `C94_processes_partial`, `C97_conv_refuted`, `C97_conditional_refuted`, `C97_rnn_refuted`, `C97_dilated_refuted`, `C97_learned_partial`, `C97_learned_refuted`, `Adopt.C98_sequential`, `Adopt.C98_sequential_raises`, `Adopt.C98_append`, `Adopt.C98_conditional_partial`, `Adopt.C98_parallel_partial`, `Adopt.C98_parallel_refuted`, `Adopt.C98_residual_refuted`, `Enhance.C99_positional_partial`, `Enhance.C99_string_padding_refuted`, `Registry.C102_naive_refuted`, `Registry.C102_enhanced_refuted`, `Registry.C103_enhanced`, `Registry.C103_define_partial`, `Registry.C103_unimplemented_refuted`, `C107_stream_partial`, `C107_front`, `C107_warmed_exact`, `C107_strict_exact`, `C108_restored_partial`, `C108_raised_exact`, `C108_layered`, `C109_other_size`, `C110_reductions`, `C114_linear_exact`, `C118_shape`, `C118_accepts`, `C119_regular_refuted`, `C119_default_refuted`, `C120_channels_refuted`, `C125_single_entry_refuted`

### `Classical.choice`, `Quot.sound`, `propext` (410)

`C01_conv_streams_textbook`, `C02_conv_padEnd_eq_forward`, `C03_pool_streams_windows`, `C04_pool_padEnd_eq_forward`, `C05_dilated_pool_refuted`, `C05_dilated_pool_partial`, `C06_delay_steps`, `C06_delay_padEnd`, `C08_chunking_independence`, `C11_emission_schedule`, `C12_sequential_length`, `C13_receptive_field`, `C14_padEnd_eq_forward`, `C15_chunked_forward_partial`, `C17_padEnd_probe_partial`, `C18_sum`, `C18_mul`, `C18_max`, `C18_concat`, `C18_constructor`, `C18_framewise`, `C19_auto_delay_partial`, `C20_residual`, `C20_residual_contract`, `C21_shrink_partial`, `C21_centered_step_partial`, `C21_centered_steps_refuted`, `C22_members`, `C22_dispatch`, `C22_out_of_range`, `C22_commutes`, `C22_parallel`, `C23_none_refuted`, `C23_two_stages_partial`, `C25_posenc_forward`, `C26_functional_step`, `C26_nested`, `C27_attention_partial`, `C27_attention_refuted`, `C27_conv_training`, `C27_clone_modules_partial`, `C27_delay_refuted`, `C28_attention`, `C28_delay`, `C28_pool`, `C28_conv`, `C29_conv_training`, `C30_rnn_chunking`, `C31_scripts`, `C31_recycling`, `C31_too_long`, `C32_window_partial`, `C32_chunks_partial`, `C32_length_one_refuted`, `C33_row`, `C33_chunks`, `C34_fresh_refuted`, `C34_fresh_single_refuted`, `C35_window_partial`, `C35_chunks_partial`, `C35_stale_refuted`, `C36_retroactive_partial`, `C36_retroactive_refuted`, `C36_single_output`, `C36_last_query_partial`, `C36_single_output_refuted`, `C37_geometry`, `C37_geometry_in`, `C37_many_layers_refuted`, `C37_one_layer_partial`, `C37_two_layers_partial`, `C37_two_layers_refuted`, `Onnx.C41_flat_roundtrip`, `Onnx.C41_nested_roundtrip`, `Onnx.C41_names`, `Onnx.C41_wrapper_partial`, `Onnx.C41_conditional_refuted`, `Onnx.C41_dynamic`, `C42_retro`, `C42_single_refuted`, `C42_warm_up_partial`, `C42_exact`, `C42_no_delay`, `C42_warm_up_refuted`, `C44_maxpool_partial`, `C44_maxpool_default_refuted`, `C45_finite_memory`, `C46_retro_state_size`, `C46_single_state_size`, `C46_delay_state_size`, `C47_kernel1_step_ignores_stride`, `C47_kernel1_stride_refuted`, `C47_kernel1_partial`, `C48_wide_padding_refuted`, `C48_padding_partial`, `C49_forward_partial`, `C49_streams_torch`, `C49_clip_torch`, `C49_group_norm_refuted`, `C55_window`, `C56_window`, `C56_average`, `C56_maximum`, `C56_clip_partial`, `C56_longer_clip_refuted`, `C59_append`, `C59_append_all`, `C59_named_refuted`, `C59_infer`, `C61_streams`, `C61_forward`, `C61_independent`, `C61_size`, `C62_streams`, `C62_options_partial`, `C62_forward`, `C62_ceil_refuted`, `C62_count_refuted`, `C62_divisor_refuted`, `C62_dilation_refuted`, `C62_size`, `C62_streams_options`, `C62_forward_options`, `C62_rejects`, `C62_accepts`, `C63_streams_partial`, `C63_forward_partial`, `C63_ceil_refuted`, `C63_rejects`, `C63_forward_dilated`, `C64_retroactive`, `C64_single`, `C64_independent`, `C64_projection`, `C64_options_refuted`, `C64_forward_options`, `C65_clips_partial`, `C65_forward`, `C65_batch_second_refuted`, `Layout.C65_lengths`, `C66_1d`, `C66_2d`, `C66_3d`, `LinearNd.C67_forward`, `LinearNd.C67_frames_partial`, `LinearNd.C67_negative_refuted`, `LinearNd.C67_refuted`, `C68_delay`, `C68_pool`, `C68_conv`, `C68_functional`, `ReshapeNd.C69_frames_partial`, `C70_one_layer_partial`, `C70_two_layers_partial`, `C70_many_layers_refuted`, `C70_builtin_refuted`, `C70_norm_first_refuted`, `C70_gelu_refuted`, `C71_outside_partial`, `C71_step_block_refuted`, `C71_steps_block_refuted`, `C71_clean_refuted`, `RnnLayout.C72_layout`, `C73_network`, `C73_conv_fresh`, `C73_pool_fresh`, `C73_delay_fresh`, `C73_chain_fresh`, `C73_single_attention`, `C73_single_attention_rf`, `C73_retro_attention_partial`, `C73_retro_nan_refuted`, `C74_network`, `C74_other_entries`, `C74_conv`, `C74_attention`, `C74_mixing`, `C75_bad_frames_partial`, `C75_single_entry_refuted`, `C75_first_frame_refuted`, `C75_recurrent`, `C75_recurrent_entries`, `C76_session_partial`, `C76_safe_partial`, `C76_frame_partial`, `C76_residual_streaming`, `C76_residual_refuted`, `C76_order_refuted`, `C79_distinct_partial`, `C79_five_refuted`, `C79_centred`, `C79_rejects`, `C79_stream_partial`, `C79_stream_refuted`, `C79_closed`, `C80_forward`, `C80_visible`, `C80_hidden`, `C80_one_partial`, `C80_one_refuted`, `C80_refuses`, `C80_steps`, `C80_steps_refuted`, `C81_counted`, `C81_single_partial`, `C81_retro_partial`, `C81_forward_partial`, `C81_adds_refuted`, `C81_step_retro`, `C81_step_single`, `C81_projection_refuted`, `C81_kinds_refuted`, `C81_mode_refuted`, `Onnx.C82_streams`, `Onnx.C82_continues`, `Onnx.C83_axes_partial`, `Onnx.C84_traced_partial`, `Onnx.C84_steady`, `Onnx.C84_continues_partial`, `Onnx.C84_unity_refuted`, `C85_network_partial`, `C85_conv_partial`, `C85_pool_partial`, `C85_retro_attention_partial`, `C85_single_attention_partial`, `C85_conv_mixture`, `C85_conv_next`, `C85_conv_next_iff`, `C85_refuted`, `C86_network_partial`, `C86_first_frame`, `C86_every_frame`, `C86_outputs`, `C87_refuted`, `C87_retained_refuted`, `C87_clips_partial`, `C87_stateless_partial`, `C88_refuted`, `NaiveNd.C89_softmax_refuted`, `NaiveNd.C89_glu_refuted`, `NaiveNd.C89_layer_norm_refuted`, `NaiveNd.C89_group_norm_refuted`, `NaiveNd.C89_batch_norm_refuted`, `NaiveNd.C89_instance_norm_refuted`, `NaiveNd.C90_single_refuted`, `NaiveNd.C90_running_mean`, `NaiveNd.C90_cumulative_partial`, `NaiveNd.C90_refuted`, `C91_deep_partial`, `C91_shallow_refuted`, `C91_modules_partial`, `C91_network_refuted`, `C92_delay_refuted`, `C93_steps_refuted`, `C94_processes_refuted`, `Repr.C95_text_partial`, `Repr.C95_brackets_refuted`, `Repr.C95_second_refuted`, `Repr.C95_named`, `Repr.C95_object_refuted`, `Repr.C95_roles_refuted`, `C96_conv`, `C96_net_partial`, `C96_pool_exact`, `C96_pool_refuted`, `C96_pool_partial`, `C97_moved_partial`, `Adopt.C98_parallel_converted`, `Adopt.C98_stride_refuted`, `Edit.C100_edits_partial`, `Edit.C100_no_append_partial`, `Edit.C100_slice_append_refuted`, `Edit.C100_delete_append_refuted`, `Edit.C100_stages`, `Edit.C100_assign_refuted`, `Dropout.C101_elements_partial`, `Dropout.C101_features_frame_partial`, `Dropout.C101_features_refuted`, `Dropout.C101_attention_mean_partial`, `Dropout.C101_attention_refuted`, `Dropout.C101_recurrent`, `Registry.C102_last_registered_partial`, `Registry.C102_other_types`, `Registry.C103_register`, `Registry.C103_is_valid`, `Args.C104_conv_partial`, `Args.C104_conv_single_refuted`, `Args.C104_string_refuted`, `Args.C104_pool_partial`, `Args.C104_pool_single_refuted`, `Carry.C105_values_partial`, `Carry.C105_dtype_refuted`, `Carry.C105_device_refuted`, `Carry.C105_frozen_exact`, `Carry.C105_modes_exact`, `Carry.C105_tied_refuted`, `Carry.C105_distinct`, `Carry.C106_untouched_partial`, `Carry.C106_independent_partial`, `Carry.C106_shared_refuted`, `Carry.C106_raised_refuted`, `C107_warm_raises`, `C107_warm_attention_raises`, `C107_warm_residual_raises`, `C109_kept_partial`, `C109_function`, `C109_stream`, `C109_single`, `C109_less_bias`, `C109_more_bias`, `C109_mode_refuted`, `C109_initial_refuted`, `C111_step_partial`, `C111_stream_partial`, `C111_stride_refuted`, `C111_kernel_one_refuted`, `C111_bias_refuted`, `C111_fill_refuted`, `C112_stream`, `C112_forward`, `C112_clip_partial`, `C112_longer_refuted`, `C112_shorter_refuted`, `C113_explicit`, `C113_readme_refuted`, `C114_conv_exact`, `C114_conv_bias_added`, `C114_conv_bias_dropped`, `C114_conv_kernel_repeated`, `C114_initial_refuted`, `C114_rnn_exact`, `C114_rnn_fewer`, `C114_rnn_more`, `C114_rnn_bias_as_weight`, `C114_rnn_bias_raises`, `C114_rnn_more_bias_raises`, `C114_names_refuted`, `C114_unknown_refuted`, `C115_delay_partial`, `C115_rf_partial`, `C115_schedule_refuted`, `C115_sequential_refuted`, `C116_retro`, `C116_age_partial`, `C116_first_refuted`, `C116_residual_partial`, `C116_residual_refuted`, `C116_chunk_refuted`, `C117_accepts`, `C117_forward_partial`, `C117_frames_partial`, `C117_indices_refuted`, `C119_layers`, `C119_factory_partial`, `C119_names_refuted`, `C119_builtin_refuted`, `C119_unknown_names`, `C119_texts`, `C120_report`, `C120_once_partial`, `C120_stepping_refuted`, `C120_conditional_refuted`, `C120_entries_refuted`, `C120_frames`, `C121_accepts`, `C121_names_partial`, `C121_count`, `C121_empty_refuted`, `C121_clash_refuted`, `C122_branches`, `C122_inception`, `C122_mobilenet`, `C123_counted`, `C123_step`, `C123_stream`, `C123_clip`, `C123_window_partial`, `C123_products_refuted`, `C124_network`, `C124_superposition`, `C124_zero`, `C124_bias_needed`, `C125_refused_partial`, `C125_first`, `C125_accepted`, `C125_steps`, `C125_steps_lengths`, `C125_steps_refused_partial`, `C126_padded_partial`, `C126_final`, `C126_final_refuted`, `C127_step`, `C127_steps`, `C127_forward`, `C127_agree`, `C127_noisy`, `C127_noisy_forward`, `C127_average`, `C127_max`, `C127_relu`, `C128_step`, `C128_steps`, `C128_forward`, `C128_average`, `C128_max`, `C128_relu`, `C128_fades`, `C128_past_fades`, `C128_forgets`, `C128_needs_contraction`
