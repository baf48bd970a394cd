{"id": "C01", "title": "Streaming convolution equals the textbook convolution", "statement": "Feeding frames one at a time to co.Conv1d/2d/3d.forward_step on a clean module yields, in order, exactly the outputs of the ordinary strided, start-padded cross-correlation of the frames fed so far (None at every step at which no new output exists).", "quantifier": "every kernel size K>=1, stride S>=1, temporal padding P<=K-1 (with K>1 or S=1), both temporal fills, every weight/bias, every frame sequence of every length", "why_tests_cant": "The ring buffer wraps with period K-1 and the stride counter with period S; a test exercises a few (K,S,P,T) and cannot cover all wrap phases or unbounded streams.", "anchors": ["continual/conv.py:_ConvCoNd.init_state", "continual/conv.py:_ConvCoNd._forward_step_py", "continual/conv.py:_ConvCoNd.receptive_field"]}
{"id": "C02", "title": "Convolution: forward_steps(pad_end=True) equals forward", "statement": "On a clean conv module forward_steps(x, pad_end=True) returns exactly forward(x), i.e. the textbook two-sided padded convolution; with pad_end=False it returns the prefix of forward(x) whose windows do not reach into the end padding.", "quantifier": "every K, S, P<=K-1 (K>1 or S=1), both fills with padding_mode = temporal_fill, every non-empty clip on which forward is defined, both update_state flags", "why_tests_cant": "Equality of two differently ordered algorithms for all shapes and clip lengths, including clips shorter than the kernel.", "anchors": ["continual/module.py:CoModule._forward_steps_impl", "continual/conv.py:_ConvCoNd.forward", "continual/conv.py:_ConvCoNd.forward_steps"]}
{"id": "C03", "title": "Streaming pooling equals sliding-window pooling", "statement": "Feeding frames one at a time to a pooling module with temporal dilation 1 on a clean state yields, in order, exactly the pooled windows of the start-padded history.", "quantifier": "every K>=1, S>=1, P<=K-1, every fill, every order-insensitive temporal pooling function (mean, max, sum), every frame sequence", "why_tests_cant": "Output is computed from an unordered ring buffer; correctness depends on all residues of time modulo K and S.", "anchors": ["continual/pooling.py:_PoolNd.init_state", "continual/pooling.py:_PoolNd._forward_step"]}
{"id": "C04", "title": "Pooling: forward_steps(pad_end=True) equals forward", "statement": "On a clean pooling module with dilation 1 and a fill equal to the padding value of the reference pooling, forward_steps(x, pad_end=True) = forward(x).", "quantifier": "every K, S, P<=K-1, every clip on which forward is defined, both update_state flags", "why_tests_cant": "Same as C02 for pooling.", "anchors": ["continual/pooling.py:_PoolNd.forward_steps", "continual/module.py:CoModule._forward_steps_impl"]}
{"id": "C05", "title": "Dilated pooling pools the frames the reference pools", "statement": "With temporal dilation d>1 the streaming outputs are the pools of frames t-(K-1)d, ..., t-d, t.", "quantifier": "every K, d, S, P and every stream", "why_tests_cant": "The shipped test uses increasing data, on which max hides which frames were selected; only reasoning over all indices settles it.", "anchors": ["continual/pooling.py:_PoolNd._forward_step", "continual/pooling.py:_PoolNd.receptive_field"]}
{"id": "C06", "title": "Delay delays by exactly d frames", "statement": "On a clean Delay(d), the t-th forward_step returns None for t<d and frame t-d afterwards, for ever; forward_steps(x, pad_end=True) on a clean module returns x; Delay(0) is the identity in all modes.", "quantifier": "every d>=0, both fills, every stream and clip length", "why_tests_cant": "Ring index arithmetic (negative start index, wrap modulo d) over unbounded time.", "anchors": ["continual/delay.py:Delay._forward_step", "continual/delay.py:Delay.forward_steps", "continual/delay.py:Delay.init_state"]}
{"id": "C07", "title": "Skip drops exactly the first n frames", "statement": "On a clean Skip(n), the t-th forward_step returns None for t<n and frame t itself afterwards; forward(x) and forward_steps(x) on a clean module both return x without its first n frames.", "quantifier": "every n>=1, every stream and clip", "why_tests_cant": "Unbounded streams.", "anchors": ["continual/skip.py:Skip._forward_step", "continual/skip.py:Skip.forward"]}
{"id": "C08", "title": "Chunking independence", "statement": "However a stream is cut into forward_step calls and forward_steps calls (pad_end=False, update_state=True), the concatenated outputs are the same and the module ends in the same observable state.", "quantifier": "every partition of every stream into chunks, every module kind (conv, pool, delay, skip, lambda, linear, RNN, attention) and every nesting of Sequential/BroadcastReduce of them", "why_tests_cant": "Exponentially many partitions, unbounded streams and unbounded nesting.", "anchors": ["continual/module.py:CoModule.forward_step", "continual/module.py:CoModule._forward_steps_impl", "continual/container.py:Sequential.forward_step", "continual/container.py:Sequential.forward_steps"]}
{"id": "C09", "title": "update_state=False is a pure probe", "statement": "A call with update_state=False (pad_end=False) returns what the same call with update_state=True would return and leaves every later result unchanged.", "quantifier": "every reachable state, every input, every module kind and nesting", "why_tests_cant": "All histories before and after the probe.", "anchors": ["continual/module.py:CoModule.forward_step", "continual/module.py:CoModule._forward_steps_impl", "continual/module.py:_clone_first"]}
{"id": "C10", "title": "clean_state restores a fresh module", "statement": "After clean_state() every later sequence of calls returns what it would return on a newly constructed module.", "quantifier": "every history before the clean, every sequence of calls after it, every module kind and nesting", "why_tests_cant": "Quantifies over all histories and futures.", "anchors": ["continual/module.py:CoModule.clean_state", "continual/container.py:Sequential.clean_state", "continual/conv.py:_ConvCoNd.clean_state", "continual/delay.py:Delay.clean_state"]}
{"id": "C11", "title": "Outputs appear at step `delay` and then every `stride` steps", "statement": "From a clean state the t-th forward_step (t=0,1,...) returns a tensor iff t >= delay and (t - delay) mod stride = 0, where delay and stride are the values the module reports.", "quantifier": "every conv (P<=K-1, K>1 or S=1), dilation-1 pool, Delay, and every Sequential of modules with this property; every stream", "why_tests_cant": "Nested strides and delays over unbounded time and unbounded depth.", "anchors": ["continual/module.py:CoModule.delay", "continual/container.py:Sequential.receptive_field", "continual/container.py:Sequential.stride", "continual/container.py:Sequential.padding"]}
{"id": "C12", "title": "Sequential reports the temporal geometry of its forward", "statement": "forward on T frames produces floor((T + 2*padding - receptive_field)/stride)+1 frames where padding, receptive_field and stride are the values reported by Sequential.", "quantifier": "every Sequential of any length whose members satisfy the formula, every T for which each stage is defined", "why_tests_cant": "Nested floors over arbitrary depth; the shipped tests check four fixed stacks.", "anchors": ["continual/container.py:Sequential.receptive_field", "continual/container.py:Sequential.stride", "continual/container.py:Sequential.padding"]}
{"id": "C13", "title": "Receptive field is sound", "statement": "The j-th output emitted by a module depends only on the input frames with index in [j*stride - padding, j*stride - padding + receptive_field - 1] (reported values).", "quantifier": "every conv/pool/delay/pointwise module and every Sequential of them, every pair of streams agreeing on that range", "why_tests_cant": "A non-interference statement over pairs of streams.", "anchors": ["continual/container.py:Sequential.receptive_field", "continual/conv.py:_ConvCoNd.receptive_field", "continual/delay.py:Delay.receptive_field"]}
{"id": "C14", "title": "Sequential streams the composition of its members", "statement": "The stream of outputs of Sequential(m1..mn) is the composition of the members' stream functions; forward_steps(x, pad_end=True) on a clean Sequential equals forward(x).", "quantifier": "every list of members (any length, nested), every stream/clip on which forward is defined", "why_tests_cant": "Induction over arbitrary depth; None outputs short-circuit the chain.", "anchors": ["continual/container.py:Sequential.forward", "continual/container.py:Sequential.forward_step", "continual/container.py:Sequential.forward_steps"]}
{"id": "C15", "title": "Streaming a clip and padding the last chunk reproduces forward", "statement": "If a clip is streamed in chunks and the last chunk is passed with pad_end=True, the concatenated outputs equal forward of the whole clip.", "quantifier": "every split of every clip, every leaf module and Sequential of them", "why_tests_cant": "All splits; interaction of None short-circuit and end padding.", "anchors": ["continual/module.py:CoModule._forward_steps_impl", "continual/container.py:Sequential.forward_steps"]}
{"id": "C16", "title": "End padding is not saved", "statement": "forward_steps(x, pad_end=True) leaves the module in the same observable state as forward_steps(x, pad_end=False).", "quantifier": "every reachable state and clip, leaf modules and containers", "why_tests_cant": "Statement about all later calls; the source promises it in a comment ('Don't save state for the end-padding').", "anchors": ["continual/module.py:CoModule._forward_steps_impl", "continual/container.py:Sequential.forward_steps"]}
{"id": "C17", "title": "pad_end with update_state=False matches pad_end with update_state=True", "statement": "forward_steps(x, pad_end=True, update_state=False) returns the same outputs as forward_steps(x, pad_end=True, update_state=True).", "quantifier": "every reachable state, every clip, every leaf module", "why_tests_cant": "Requires all histories; it holds on clean modules, which is what tests use.", "anchors": ["continual/module.py:CoModule._forward_steps_impl"]}
{"id": "C18", "title": "BroadcastReduce reduces its branches frame by frame", "statement": "If all branches emit at the same steps, then BroadcastReduce emits at exactly those steps the reduction of the branches' outputs, in all of forward, forward_step and forward_steps, and behaves identically to Sequential(Broadcast, Parallel(branches), Reduce).", "quantifier": "every number of branches >=2, every branch kind, every stream and reduction", "why_tests_cant": "Unbounded number of branches, nesting and streams.", "anchors": ["continual/container.py:BroadcastReduce.forward_step", "continual/container.py:BroadcastReduce.forward_steps", "continual/container.py:Parallel.forward_step", "continual/container.py:Reduce.forward_step", "continual/container.py:Broadcast.forward"]}
{"id": "C19", "title": "auto_delay aligns parallel branches", "statement": "With auto_delay=True all branches of Parallel/BroadcastReduce report the same delay and emit at the same steps, and the j-th emission of every branch is the j-th emission of the branch without the added delay.", "quantifier": "every list of branches with stride 1 and any delays; for stride>1 the claim is part of the documented behaviour too", "why_tests_cant": "All delay vectors and streams.", "anchors": ["continual/container.py:Parallel.__init__", "continual/container.py:BroadcastReduce.__init__", "continual/delay.py:Delay"]}
{"id": "C20", "title": "Residual adds the right frame", "statement": "For a stride-1 module with 'same' padding, Residual(module) returns module(x)[j] + x[j] as j-th output in forward, in forward_steps(pad_end=True) and, at step j+delay, in forward_step.", "quantifier": "every module meeting its streaming contract with receptive_field - 2*padding = 1, every stream", "why_tests_cant": "Alignment of two independently buffered branches over unbounded time.", "anchors": ["continual/container.py:Residual", "continual/container.py:BroadcastReduce.forward_step", "continual/delay.py:Delay"]}
{"id": "C21", "title": "Residual shrink modes agree between forward and streaming", "statement": "For residual_shrink in {True,'centered','lagging','leading'} the outputs of forward_step and of forward_steps on a clean module equal forward.", "quantifier": "every stride-1 un-padded module meeting its streaming contract (even delay for centered), every stream", "why_tests_cant": "Off-by-delay errors only show on particular stream lengths; broadcasting can hide them.", "anchors": ["continual/container.py:Residual", "continual/delay.py:Delay.forward", "continual/delay.py:Delay.init_state", "continual/skip.py:Skip"]}
{"id": "C22", "title": "Parallel streams are routed as the mapping says", "statement": "ParallelDispatch(mapping) places input stream mapping[i] at position i (recursively for nested groups); routing commutes with stepping; an out-of-range stream index raises instead of returning data of another stream.", "quantifier": "every mapping tree and every list of streams", "why_tests_cant": "Recursive mappings of unbounded depth.", "anchors": ["continual/container.py:ParallelDispatch.forward", "continual/container.py:Parallel.forward_step"]}
{"id": "C23", "title": "A missing frame passes through consecutive Parallel stages", "statement": "In Sequential(Broadcast, Parallel(..), Parallel(..), Reduce) forward_step returns None (and does not fail) while any branch is still warming up.", "quantifier": "every list of branches with delays, every stream", "why_tests_cant": "Needs reasoning about None flowing through lists; documented compositions use two Parallel stages.", "anchors": ["continual/container.py:Sequential.forward_step", "continual/container.py:Parallel.forward_step", "continual/container.py:Reduce.forward_step"]}
{"id": "C24", "title": "Conditional behaves as the selected branch", "statement": "With a predicate that is constantly true (false), Conditional(p, a, b) returns in every mode and for all flags what the delay-aligned branch a (b) returns, including pad_end, update_state and clean_state.", "quantifier": "every pair of branches, every flag combination and every sequence of calls", "why_tests_cant": "All flag combinations and histories.", "anchors": ["continual/container.py:Conditional.forward_step", "continual/container.py:Conditional.forward_steps", "continual/container.py:Conditional._forward_step", "continual/module.py:CoModule.clean_state"]}
{"id": "C25", "title": "forward does not disturb a running stream", "statement": "Interleaving forward(x) calls with forward_step/forward_steps calls does not change any streaming output, and forward's result does not depend on the streaming state.", "quantifier": "every interleaving, every module kind and nesting except positional encoding with a non-zero forward_update_index_steps", "why_tests_cant": "All interleavings.", "anchors": ["continual/conv.py:_ConvCoNd.forward", "continual/container.py:Sequential.forward", "continual/rnn.py:RNN.forward", "continual/positional_encoding.py:RecyclingPositionalEncoding.forward"]}
{"id": "C26", "title": "The functional step equals the stateful step", "statement": "Threading the state returned by _forward_step from None yields the same outputs as calling forward_step on a clean module.", "quantifier": "every stream; every module kind and nesting of Sequential/BroadcastReduce/Parallel", "why_tests_cant": "This is the contract ONNX export relies on; unbounded streams and nesting.", "anchors": ["continual/container.py:Sequential._forward_step", "continual/container.py:BroadcastReduce._forward_step", "continual/container.py:Conditional._forward_step", "continual/onnx.py:OnnxWrapper.forward"]}
{"id": "C27", "title": "get_state/set_state is a checkpoint", "statement": "Saving s = m.get_state(), running any calls, then m.set_state(s) makes all later outputs equal to those that would have followed the save.", "quantifier": "every history, every intermediate calls, every future; tensors are mutable", "why_tests_cant": "Aliasing: whether the saved tuple shares memory with the live buffer depends on all intermediate calls.", "anchors": ["continual/delay.py:Delay.get_state", "continual/delay.py:Delay._forward_step", "continual/conv.py:_ConvCoNd._forward_step_py", "continual/pooling.py:_PoolNd._forward_step"]}
{"id": "C28", "title": "In-place buffer updates never leak", "statement": "Although buffers are written in place, any sequence of forward_step/forward_steps/clean_state calls with any flags returns the same outputs as if all tensors were immutable values.", "quantifier": "every sequence of public calls with every flag combination, Delay, pool and conv in train and eval mode", "why_tests_cant": "Aliasing between saved state, clones and returned outputs over all call sequences.", "anchors": ["continual/module.py:_clone_first", "continual/module.py:CoModule._forward_steps_impl", "continual/delay.py:Delay._forward_step"]}
{"id": "C29", "title": "The functional step does not modify its argument", "statement": "_forward_step(x, state) leaves the tensors in state unchanged, so that calling it twice with the same state gives the same result.", "quantifier": "every state and frame, every module kind, train and eval mode", "why_tests_cant": "Purity is promised in the changelog ('purely functional _forward_step'); needs all states.", "anchors": ["continual/delay.py:Delay._forward_step", "continual/pooling.py:_PoolNd._forward_step", "continual/conv.py:_ConvCoNd._forward_step_py", "continual/multihead_attention/mha_base.py:MultiheadAttentionBase._forward_step"]}
{"id": "C30", "title": "Recurrent modules stream exactly", "statement": "For RNN, GRU and LSTM any chunking of a sequence over forward_step/forward_steps gives the outputs of forward on the whole sequence started from the same hidden state, and get_state returns its final hidden state.", "quantifier": "every cell function, number of layers, initial hidden state, chunking and sequence", "why_tests_cant": "All chunkings and lengths.", "anchors": ["continual/rnn.py:RNN.forward_step", "continual/rnn.py:RNN.forward_steps", "continual/rnn.py:LSTM.forward_steps", "continual/rnn.py:GRU.forward_steps"]}
{"id": "C31", "title": "Positional encodings recycle", "statement": "The i-th frame fed since the last clean_state receives embedding i mod num_embeds, for any chunking into calls with at most num_embeds frames.", "quantifier": "every num_embeds>=1, stream and chunking", "why_tests_cant": "Wrap-around over unbounded streams.", "anchors": ["continual/positional_encoding.py:RecyclingPositionalEncoding.forward_steps", "continual/positional_encoding.py:RecyclingPositionalEncoding.forward_step"]}
{"id": "C32", "title": "Retroactive attention equals full attention on the window", "statement": "From its sequence_len-th step on, RetroactiveMultiheadAttention.forward_step returns exactly the scaled dot-product attention of all queries of the last sequence_len tokens over the keys/values of those tokens.", "quantifier": "every sequence_len>=2, every stream of queries/keys/values, every number of steps (exact arithmetic)", "why_tests_cant": "The incremental subtraction/addition scheme must be right at every time; drift only shows on long streams.", "anchors": ["continual/multihead_attention/retroactive_mha.py:_scaled_dot_product_attention_step", "continual/multihead_attention/mha_base.py:MultiheadAttentionBase._forward_step"]}
{"id": "C33", "title": "Single-output attention equals one row of full attention", "statement": "From its sequence_len-th step on, SingleOutputMultiheadAttention.forward_step returns row query_index of the full attention over the last sequence_len tokens.", "quantifier": "every sequence_len>=1, every query_index in [-sequence_len, sequence_len), every stream", "why_tests_cant": "Alignment of the query memory with the key window for all indices and times.", "anchors": ["continual/multihead_attention/single_output_mha.py:_scaled_dot_product_attention_step", "continual/multihead_attention/single_output_mha.py:_scaled_dot_product_attention_default_state"]}
{"id": "C34", "title": "Attention probes are pure", "statement": "forward_step/forward_steps with update_state=False on an attention module return the output and leave all later results unchanged.", "quantifier": "every history including the empty one, every input", "why_tests_cant": "Tests only probe warmed-up modules.", "anchors": ["continual/multihead_attention/mha_base.py:MultiheadAttentionBase.forward_step", "continual/multihead_attention/mha_base.py:MultiheadAttentionBase.forward_steps"]}
{"id": "C35", "title": "The retroactive residual returns the last window in order", "statement": "The residual branch of the retroactive encoder layer returns at every step from the sequence_len-th on the last sequence_len inputs, oldest first.", "quantifier": "every sequence_len, every stream length", "why_tests_cant": "The shipped tests stop right after the first output.", "anchors": ["continual/transformer.py:RetroactiveUnity._forward_step", "continual/transformer.py:RetroactiveUnity.init_state"]}
{"id": "C36", "title": "Transformer encoder layers stream what forward computes", "statement": "Each step output of the single-output (retroactive) encoder layer equals the query_index-th column (all columns) of the layer's forward on the last sequence_len tokens.", "quantifier": "every sequence_len, query_index, stream, feed-forward/norm functions", "why_tests_cant": "Alignment of residual and attention for all indices and times.", "anchors": ["continual/transformer.py:SingleOutputTransformerEncoderLayer", "continual/transformer.py:RetroactiveTransformerEncoderLayer", "continual/transformer.py:sum_last_pairs"]}
{"id": "C37", "title": "A TransformerEncoder can be built for every number of layers", "statement": "TransformerEncoder(factory, num_layers=n) constructs an encoder with n layers. Its steps return, from the sequence_len-th frame on, the last token of the n stacked encoder layers on the last sequence_len frames, and its forward the same for a clip (all tokens for n=1).", "quantifier": "every n>=1", "why_tests_cant": "Tests build n=1 and n=2 only; changelog 1.2.4 claims n>=3 fixed.", "anchors": ["continual/transformer.py:TransformerEncoder.__init__", "continual/transformer.py:StepLocalTransformerEncoderLayer"]}
{"id": "C38", "title": "call_mode contexts nest and restore", "statement": "Inside `with co.call_mode(m)` every module call runs mode m; on leaving (normally or by exception) the mode in force before entering is in force again, also for nested contexts.", "quantifier": "every well-bracketed sequence of enters, exits, exceptions and calls", "why_tests_cant": "All nestings.", "anchors": ["continual/module.py:_CallModeContext", "continual/module.py:CoModule._call_impl"]}
{"id": "C39", "title": "Explicit method calls run their own mode", "statement": "Calling net.forward / net.forward_step / net.forward_steps on a container runs exactly that mode in every descendant whatever call_mode values the container and descendants carry, and leaves the modes as they were.", "quantifier": "every tree of modules, every assignment of call modes, with and without an active call_mode context, normal and exceptional exits", "why_tests_cant": "All trees and mode assignments.", "anchors": ["continual/container.py:Sequential.forward", "continual/utils.py:temporary_parameter", "continual/module.py:CoModule.call_mode"]}
{"id": "C40", "title": "Flattened state dicts round-trip", "statement": "m.load_state_dict(m.state_dict(flatten=True), flatten=True) restores every parameter, whatever the names of the (nested) parameters.", "quantifier": "every set of parameter names and values, with colliding and non-colliding flattened names", "why_tests_cant": "All key sets, including collisions.", "anchors": ["continual/utils.py:state_dict", "continual/utils.py:load_state_dict"]}
{"id": "C41", "title": "ONNX state flattening round-trips", "statement": "Splitting the flat list of state tensors by the module's state shape and flattening the next state again are inverse to each other, and the number of declared state input names equals the number of flat state tensors.", "quantifier": "every nested state shape and every list of state tensors", "why_tests_cant": "All nested shapes.", "anchors": ["continual/onnx.py:_shape_list", "continual/onnx.py:OnnxWrapper", "continual/utils.py:_flatten"]}
{"id": "C42", "title": "warm_up makes the next step produce an output", "statement": "After clean_state(); warm_up(shape) the next forward_step returns a tensor.", "quantifier": "every module whose delay is non-negative (conv, pool, delay, attention) and every Sequential of such modules", "why_tests_cant": "Depends on reported delay being the true one for arbitrary compositions.", "anchors": ["continual/module.py:CoModule.warm_up", "continual/module.py:CoModule.delay"]}
{"id": "C43", "title": "Pointwise modules agree in all modes", "statement": "For Lambda (takes_time False, or a function acting frame-wise), Linear, Reshape and modules wrapped by forward_stepping, forward, forward_steps and repeated forward_step return the same frames for any flags.", "quantifier": "every frame function, every non-empty clip, all flags", "why_tests_cant": "All functions.", "anchors": ["continual/closure.py:Lambda", "continual/linear.py:Linear", "continual/shape.py:Reshape", "continual/convert.py:forward_stepping"]}
{"id": "C44", "title": "Max pooling with padding matches torch for all inputs", "statement": "For max pooling with padding>0, forward_steps(x, pad_end=True) on a clean module equals forward(x) also for negative inputs, with the module's default fill.", "quantifier": "every clip, K, S, 0<P<=K-1, MaxPool1d/2d/3d default fills and build_from", "why_tests_cant": "Needs inputs smaller than the fill value.", "anchors": ["continual/pooling.py:MaxPool1d", "continual/pooling.py:MaxPool2d", "continual/pooling.py:MaxPool3d"]}
{"id": "C45", "title": "Finite memory", "statement": "Two streams whose last receptive_field-1 frames agree, and whose lengths agree modulo the stride, leave the module in states with identical futures: old frames and the initial fill are forgotten.", "quantifier": "every conv/pool/delay and Sequential, every pair of histories of length >= receptive_field-1+..., every future", "why_tests_cant": "Pairs of unbounded histories.", "anchors": ["continual/conv.py:_ConvCoNd._forward_step_py", "continual/pooling.py:_PoolNd._forward_step", "continual/delay.py:Delay._forward_step"]}
{"id": "C46", "title": "State size is constant", "statement": "The number of frames held in a module's state after the first step never changes, however long the stream.", "quantifier": "every stream, conv, pool, delay, attention modules", "why_tests_cant": "Unbounded streams.", "anchors": ["continual/conv.py:_ConvCoNd._forward_step_py", "continual/delay.py:Delay._forward_step", "continual/pooling.py:_PoolNd._forward_step", "continual/multihead_attention/retroactive_mha.py:_scaled_dot_product_attention_step"]}
{"id": "C47", "title": "Stride is honoured for kernel size 1", "statement": "A conv with kernel_size 1 and stride S>1 emits every S-th frame in forward_step and forward_steps as forward does.", "quantifier": "every S>=2, every stream and chunking", "why_tests_cant": "State is recognised by a non-empty buffer, which never exists for K=1; only cross-call histories show it.", "anchors": ["continual/conv.py:_ConvCoNd.get_state", "continual/conv.py:_ConvCoNd._forward_step_py"]}
{"id": "C48", "title": "Padding at least the kernel size", "statement": "A conv with temporal padding P >= K streams with pad_end=True what forward computes.", "quantifier": "every K>=1, P>=K, S, clip", "why_tests_cant": "Unusual geometry accepted by the constructor.", "anchors": ["continual/conv.py:_ConvCoNd.init_state"]}
{"id": "C49", "title": "continual() converts faithfully", "statement": "co.continual(m) returns CoModules unchanged, refuses modules it cannot convert with an error, converts nn.Sequential member-wise, the converted module's forward equals the original's, and streaming through the converted module (last chunk with pad_end=True) yields the original's output.", "quantifier": "every tree of torch modules built from the supported kinds", "why_tests_cant": "All trees.", "anchors": ["continual/convert.py:continual", "continual/container.py:Sequential.build_from", "continual/container.py:co_add_module"]}
{"id": "C50", "title": "Reducing containers run wrapped members", "statement": "forward, forward_steps and forward_step of a BroadcastReduce or Residual run that method in a member made by forward_stepping (also by automatic conversion).", "quantifier": "every position of the member, every assignment of call modes, all three methods", "why_tests_cant": "All trees and mode assignments; the project's tests never place such a member directly inside a reducing container.", "anchors": ["continual/container.py:BroadcastReduce.forward_step", "continual/convert.py:forward_stepping", "continual/utils.py:temporary_parameter"]}
{"id": "C51", "title": "Copies dispatch like the original", "statement": "copy.deepcopy(m) (or a pickle round trip) called as m(x) runs the same method as the original.", "quantifier": "every module, every history of call mode assignments", "why_tests_cant": "The modes are tensors used as dictionary keys by identity; whether a copy works depends on the history of assignments.", "anchors": ["continual/module.py:CoModule._call_impl", "continual/module.py:_callmode"]}
{"id": "C52", "title": "Regular state dicts load under flattening", "statement": "load_state_dict(sd, flatten=True) (or inside `with co.flat_state_dict`) restores every parameter also when sd is the regular, unflattened state dict of a module with the same parameter names.", "quantifier": "every set of parameter names and values, strict and non-strict", "why_tests_cant": "All key sets; the outcome depends on collisions and on which names contain numbers.", "anchors": ["continual/utils.py:load_state_dict"]}
{"id": "C53", "title": "Part of a flattened state dict can be loaded non-strictly", "statement": "load_state_dict(part, strict=False, flatten=True) with some of the entries of a flattened state dict restores the parameters of those entries and leaves the others alone.", "quantifier": "every set of parameter names and every part of the flattened dict", "why_tests_cant": "All key sets and sub-dicts.", "anchors": ["continual/utils.py:load_state_dict"]}
{"id": "C54", "title": "flat_state_dict blocks nest", "statement": "state_dict() and load_state_dict() flatten exactly when executed inside at least one `with co.flat_state_dict` block.", "quantifier": "every program of nested and sequential blocks", "why_tests_cant": "All nestings of blocks.", "anchors": ["continual/utils.py:_FlatStateDict"]}
{"id": "C55", "title": "Outputs depend on the content of their window only", "statement": "If forward_step returns a tensor in two objects of the same module and the last receptive_field frames fed to both since clean_state are the same, the two tensors are equal, whatever the positions in the stream, the earlier frames and the kinds of calls that fed them.", "quantifier": "every nesting of Sequential and BroadcastReduce over convolutions, poolings, delays and frame-wise modules, every pair of histories", "why_tests_cant": "All networks, histories and offsets.", "anchors": ["continual/module.py:CoModule.forward_step", "continual/container.py:Sequential", "continual/conv.py:_ConvCoNd._forward_step"]}
{"id": "C56", "title": "Adaptive pooling streams windows of kernel_size frames", "statement": "AdaptiveAvgPool/AdaptiveMaxPool (stride 1, no padding) return None until kernel_size frames were seen and then, at every step, the adaptive pooling of the last kernel_size frames, which is what forward returns for those frames; for every clip forward_steps returns what forward returns; output_size[0] other than 1 is refused.", "quantifier": "every kernel size, spatial region, clip and history", "why_tests_cant": "All kernel sizes, clip lengths and histories; the tests use clips of exactly kernel_size frames.", "anchors": ["continual/pooling.py:AdaptiveAvgPool2d", "continual/pooling.py:AdaptiveAvgPool3d", "continual/pooling.py:AdaptiveMaxPool2d", "continual/pooling.py:AdaptiveMaxPool3d"]}
{"id": "C57", "title": "Converting a converted module is harmless", "statement": "Applying continual (or forward_stepping) again to a module made by forward_stepping, or converting a network in which one such module object occurs several times, gives a module that runs its forward once per call in every call mode.", "quantifier": "every number of applications, every call mode, every way of calling the module", "why_tests_cant": "Any number of applications; non-termination cannot be observed by a test.", "anchors": ["continual/convert.py:forward_stepping", "continual/convert.py:continual", "continual/container.py:Sequential.build_from"]}
{"id": "C58", "title": "Nesting of Sequentials is irrelevant", "statement": "However Sequential constructor calls are nested, the object behaves, for every script of forward / forward_step / forward_steps / clean_state calls with any flags (exceptions included) and under _forward_step, like the one Sequential of the innermost members from left to right, and reports the same receptive field, stride, padding and delay.", "quantifier": "every nesting of any depth, arbitrary member modules, every script of calls", "why_tests_cant": "All nestings, members and call sequences.", "anchors": ["continual/container.py:Sequential"]}
{"id": "C59", "title": "append is construction with one more member", "statement": "Appending a module to a Sequential gives what the constructor gives when passed the module as additional last member; likewise for BroadcastReduce.", "quantifier": "every list of members, positional or named, every appended module", "why_tests_cant": "All member lists and names.", "anchors": ["continual/container.py:Sequential.append", "continual/container.py:Sequential.__init__", "continual/container.py:BroadcastReduce.__init__"]}
{"id": "C60", "title": "One module object in two positions", "statement": "Sequential(m, m) with the same module object in both positions behaves like Sequential(m, m') with two equally configured objects, as it does in PyTorch.", "quantifier": "every module, every script of calls", "why_tests_cant": "All modules and call sequences.", "anchors": ["continual/container.py:Sequential.forward_step", "continual/container.py:Sequential.forward_steps", "continual/container.py:Sequential._forward_step"]}
{"id": "C61", "title": "Continual convolutions compute the N-dimensional convolution", "statement": "A clean Conv1d/Conv2d/Conv3d with any groups, spatial kernel size, stride, dilation and padding, temporal stride and padding, fed frame by frame, returns exactly the values of the textbook N-dimensional cross-correlation at every batch entry, channel and position; forward and end-padded forward_steps give the same formula with padding at both ends; batch entries and channel groups do not influence each other.", "quantifier": "every number of spatial axes, channel and group counts, kernel, stride, dilation and padding per axis, weights, biases, batches, and every stream", "why_tests_cant": "All geometries, weights and streams.", "anchors": ["continual/conv.py:_ConvCoNd.forward", "continual/conv.py:_ConvCoNd._forward_step", "continual/conv.py:_ConvCoNd.__init__"]}
{"id": "C62", "title": "Average pooling computes N-dimensional averages", "statement": "A clean AvgPool1d/AvgPool2d/AvgPool3d fed frame by frame returns exactly the averages over the N-dimensional windows (kernel size, stride and padding per axis) of the stream, and forward_steps with end padding returns what forward of the PyTorch class returns for the clip, for all settings of ceil_mode, count_include_pad, divisor_override and dilation.", "quantifier": "every number of spatial axes, geometry, option setting, batch and stream", "why_tests_cant": "All geometries, options and streams.", "anchors": ["continual/pooling.py:AvgPool1d", "continual/pooling.py:AvgPool2d", "continual/pooling.py:AvgPool3d", "continual/pooling.py:_PoolNd"]}
{"id": "C63", "title": "Max pooling computes N-dimensional maxima", "statement": "A clean MaxPool1d/MaxPool2d/MaxPool3d fed frame by frame returns exactly the maxima over the N-dimensional windows (kernel size, stride, padding and spatial dilation per axis) of the stream, and forward_steps with end padding returns what forward of the PyTorch class returns for the clip, for all settings of ceil_mode.", "quantifier": "every number of spatial axes, geometry, option setting, batch and stream", "why_tests_cant": "All geometries, options and streams.", "anchors": ["continual/pooling.py:MaxPool1d", "continual/pooling.py:MaxPool2d", "continual/pooling.py:MaxPool3d", "continual/pooling.py:_PoolNd"]}
{"id": "C64", "title": "Continual attention is textbook multi-head attention", "statement": "RetroactiveMultiheadAttention and SingleOutputMultiheadAttention, fed frame by frame, return exactly the multi-head attention of the paper over the last sequence_len frames - in-projection with the rows of in_proj_weight, heads of embed_dim / num_heads consecutive features, softmax of the scaled products, heads concatenated and projected - independently for each batch entry, and so does forward; for all constructor options (bias, add_bias_kv, add_zero_attn, kdim, vdim).", "quantifier": "every batch size, number and size of heads, weights, biases, sequence_len, query_index, history and input", "why_tests_cant": "All weights, shapes and streams.", "anchors": ["continual/multihead_attention/mha_base.py:multi_head_attention_forward_step", "continual/multihead_attention/retroactive_mha.py:RetroactiveMultiheadAttention", "continual/multihead_attention/single_output_mha.py:SingleOutputMultiheadAttention"]}
{"id": "C65", "title": "Axis order of the attention modules", "statement": "For all settings of batch_first and embed_dim_second, the clip that forward_steps of a continual attention module returns has, along its time axis, exactly the tensors that forward_step returns for the frames of the input along its time axis; and forward places the rows of torch's attention along the same axis.", "quantifier": "every axis order, batch size, clip length, number of features, state and attention step", "why_tests_cant": "All shapes; tests use one or two axis orders with fixed sizes.", "anchors": ["continual/multihead_attention/mha_base.py:MultiheadAttentionBase.forward_steps", "continual/multihead_attention/retroactive_mha.py:RetroactiveMultiheadAttention.forward_step", "continual/multihead_attention/single_output_mha.py:SingleOutputMultiheadAttention.forward_steps"]}
{"id": "C66", "title": "Temporal pooling pools each location over time", "statement": "The reshapes around the temporal pooling of the buffered frames are correct: for frames (B, C), (B, C, S) and (B, C, H, W) the result has the shape of a frame and each entry is the mean (maximum) over time of the buffered entries at that batch entry, channel and position.", "quantifier": "every number of frames, batch size, number of channels and spatial size, every buffer content", "why_tests_cant": "All sizes and contents; an exchange of two axes of equal size is invisible to shape checks.", "anchors": ["continual/pooling.py:_PoolNd.__init__"]}
{"id": "C67", "title": "Linear along any channel_dim, on clips and frames", "statement": "For every channel_dim, co.Linear applies the affine map along the channel axis only, on tensors of any rank, and forward_step on the frames of a clip returns the frames of forward and forward_steps.", "quantifier": "every rank, shape, weight, bias, channel_dim, time axis and input", "why_tests_cant": "All ranks and axis positions; the tests cover channel_dim 1 and -1 on one shape.", "anchors": ["continual/linear.py:Linear.forward", "continual/linear.py:Linear.forward_step", "continual/linear.py:Linear.forward_steps"]}
{"id": "C68", "title": "One module object serves many streams", "statement": "If a program reads the state of a Delay, convolution or temporal pooling object with get_state after each call and writes the state of the next stream with set_state (clean_state for a new one) before the next call, then one object serves any interleaving of any number of streams: each stream gets the outputs that an object of its own would return; the same holds if the states are threaded through the functional _forward_step.", "quantifier": "every configuration, number of streams, interleaving, stream content and length", "why_tests_cant": "Infinitely many interleavings; tensors are mutable and shared, so a state taken with get_state could be overwritten by a later call.", "anchors": ["continual/module.py:CoModule.forward_step", "continual/delay.py:Delay.get_state", "continual/delay.py:Delay.set_state", "continual/conv.py:_ConvCoNd.get_state", "continual/conv.py:_ConvCoNd.set_state", "continual/pooling.py:_PoolNd.get_state", "continual/pooling.py:_PoolNd.set_state"]}
{"id": "C69", "title": "Reshape on clips and frames", "statement": "For every target shape (one entry may be -1) and every clip, cutting the result of Reshape.forward or forward_steps at any time gives what forward_step returns for the frame of that time; a frame that does not fit the shape is an error in all modes.", "quantifier": "every rank, shape, target shape, clip and time", "why_tests_cant": "All ranks and shapes; the existing test compares shapes in statements without assert.", "anchors": ["continual/shape.py:Reshape.forward", "continual/shape.py:Reshape.forward_step", "continual/shape.py:Reshape.forward_steps"]}
{"id": "C70", "title": "A converted torch TransformerEncoder computes what the torch encoder computes", "statement": "TransformerEncoder.build_from(trans_enc, sequence_len) copies every parameter of the torch encoder to the parameter with the same role, in every layer and in the final norm; forward of the result is the torch encoder on the clip (its last token for more than one layer), and each step returns the last token of the torch encoder on the last sequence_len frames; options of the torch encoder (activation, norm_first) are kept.", "quantifier": "every weights, activation, final norm or none, sequence_len, number of layers and stream", "why_tests_cant": "All weights; the parameters are paired by sorting renamed names, so a wrong pairing between equally shaped parameters would only show up for weights that differ; the existing test uses default options.", "anchors": ["continual/transformer.py:TransformerEncoder.build_from", "continual/transformer.py:TransformerEncoder.__init__", "continual/transformer.py:TransformerEncoderLayerFactory"]}
{"id": "C71", "title": "A TransformerEncoder works the same inside a call_mode block", "statement": "Calling a TransformerEncoder inside `with co.call_mode(mode):` gives what calling its method for that mode gives.", "quantifier": "every weights, sequence_len, history and frame", "why_tests_cant": "Interaction of a process-wide context with modules that call inner modules; all histories.", "anchors": ["continual/module.py:CoModule._call_impl", "continual/module.py:call_mode", "continual/transformer.py:RetroactiveLambda", "continual/transformer.py:TransformerEncoder.__init__"]}
{"id": "C72", "title": "Recurrent modules keep the axis order of clips and frames", "statement": "RNN, GRU and LSTM take clips (B, C, T) and frames (B, C). forward_steps on a clip returns (B, H, T); its slice at time t is what forward_step returns for the slice of the input at time t, and both leave the same hidden state. forward with that hidden state returns the same clip and final state. With update_state=False the stored state does not change.", "quantifier": "every cell, number of layers, batch size, number of channels and hidden units, T >= 1, clip, stored state or none", "why_tests_cant": "All shapes, weights and states; a wrong pair of axes is invisible when sizes coincide.", "anchors": ["continual/rnn.py:RNN.forward", "continual/rnn.py:RNN._forward_step", "continual/rnn.py:RNN.forward_steps", "continual/rnn.py:GRU.forward", "continual/rnn.py:LSTM.forward"]}
{"id": "C73", "title": "Wrong values are forgotten", "statement": "Two running objects of a network, with the same counters and any contents in their buffers (for instance one that has seen NaN, infinities or wrong frames and one that has not), return the same from the (receptive_field)-th common frame on: after receptive_field - 1 common frames no difference can be seen any more, with any arithmetic (rounding, overflow, NaN). This holds for convolutions, pooling, delays, frame-wise modules and attention, and networks of them.", "quantifier": "every network of convolutions, pooling, Delay and frame-wise modules nested with Sequential (any strides) and BroadcastReduce (branches of stride 1), buffer contents, and streams; attention with any window length; arithmetic that is any function, including NaN", "why_tests_cant": "All networks, buffer contents and streams, and arithmetic with special values; a sum that is updated incrementally instead of recomputed keeps NaN although every test with finite numbers passes.", "anchors": ["continual/conv.py:_ConvCoNd._forward_step", "continual/pooling.py:_PoolNd._forward_step", "continual/delay.py:Delay._forward_step", "continual/multihead_attention/retroactive_mha.py:_scaled_dot_product_attention_step", "continual/multihead_attention/single_output_mha.py:_scaled_dot_product_attention_step", "continual/container.py:Sequential.forward_step"]}
{"id": "C74", "title": "A batch is processed like its entries on their own", "statement": "For every script of calls (forward, forward_step, forward_steps with or without end padding and state updates, clean_state), picking entries of the batch from the results gives the results of the same network on those entries alone, exceptions included. So entries do not influence each other, may be reordered, and one may be taken out and processed alone; what the other entries contain makes no difference.", "quantifier": "every network of convolutions (any axes, groups, padding), average and max pooling, Delay, frame-wise and wrapped modules that treat entries separately, recurrent layers and multi-head attention (any heads, projections), nested with Sequential and BroadcastReduce; every batch size, choice or permutation of entries, and script of calls of any length", "why_tests_cant": "All networks, batch sizes, selections of entries and call sequences; a head reshaped along the wrong axis or a buffer shared between entries shows up only with batches of several different entries.", "anchors": ["continual/conv.py:_ConvCoNd._forward_step", "continual/pooling.py:_PoolNd._forward_step", "continual/delay.py:Delay._forward_step", "continual/rnn.py:RNN.forward_step", "continual/multihead_attention/mha_base.py:multi_head_attention_forward_step", "continual/container.py:Sequential.forward_steps", "continual/container.py:BroadcastReduce.forward_step"]}
{"id": "C75", "title": "A frame of another size is refused and leaves the stream as it was", "statement": "Once a stream has begun with frames of n entries (batch size or a preserved spatial size), passing a frame of a different size raises an exception, and after catching it the results for the remaining frames are those that would have been obtained had the frame never been passed; an exception for the first frame leaves the network ready for any other first frame.", "quantifier": "every delay, convolution with a temporal kernel and pooling module, every Sequential or two-branch container that reaches such a member first; every size n, every stream of frames of arbitrary sizes, of any length", "why_tests_cant": "All sizes and interleavings of accepted and refused frames; whether an exception leaves a half-updated network behind depends on which member raises and on what was passed before.", "anchors": ["continual/module.py:CoModule.forward_step", "continual/delay.py:Delay._forward_step", "continual/conv.py:_ConvCoNd._forward_step", "continual/pooling.py:_PoolNd._forward_step", "continual/container.py:Sequential.forward_step", "continual/container.py:BroadcastReduce.forward_step"]}
{"id": "C76", "title": "In-place members do not change what a network computes", "statement": "Replacing a member of a network by its in-place variant (nn.ReLU(inplace=True) for nn.ReLU()) does not change any output of any mode, nor any tensor of the caller other than the input of a network whose first operation is in-place.", "quantifier": "every nesting of Sequential and two-branch BroadcastReduce containers with delays, in-place element-wise members and arbitrary other modules; every reduction, every script of calls, every clip and frame", "why_tests_cant": "Which tensors are shared between members depends on the nesting, on the mode (Delay.forward returns its input, Delay.forward_step a copy) and on the order of the members; the values are right for all inputs that the in-place function leaves unchanged.", "anchors": ["continual/container.py:Residual", "continual/container.py:BroadcastReduce.forward", "continual/container.py:BroadcastReduce.forward_step", "continual/delay.py:Delay.forward", "continual/convert.py:forward_stepping"]}
{"id": "C77", "title": "Threads that use different networks do not disturb each other", "statement": "If several threads of a process use continual modules, and no module is used by two of them, then what each thread computes does not depend on what the others do or on how the threads are scheduled.", "quantifier": "any number of threads, arbitrary programs of the threads over their own modules and data, every schedule, every length", "why_tests_cant": "The number of interleavings is unbounded and races are rare; the failing ones need particular schedules of with-blocks.", "anchors": ["continual/module.py:_CallModeContext.__call__", "continual/module.py:_CallModeContext.__exit__", "continual/module.py:CoModule._call_impl", "continual/convert.py:forward_stepping"]}
{"id": "C78", "title": "Hooks of the members of a network run once per execution, in every mode", "statement": "If hooks are registered on the members of a network, then each execution of a member in a call of the network, with forward, forward_steps or forward_step, runs the pre-hooks of the member once before its method and its forward hooks once after it. Hence a hook that changes input or output has the same effect in all modes. Registering hooks changes neither which methods are executed nor the exceptions nor the call modes.", "quantifier": "all trees of members (of any depth), all modes, arbitrary hooks, methods and inputs, all call modes of the members before the call", "why_tests_cant": "Whether hooks run depends on the path on which a container reaches a member, so that tests must combine every kind of member with every mode and a hook that is not idempotent.", "anchors": ["continual/module.py:CoModule._call_impl", "continual/convert.py:forward_stepping", "continual/container.py:Sequential.forward", "continual/container.py:Conditional.forward_step"]}
{"id": "C79", "title": "Static positional encodings tell the positions apart", "statement": "For learned=False, the table of RecyclingPositionalEncoding gives different encodings to different positions, each channel is a closed curve with mean 0 over the positions, and hence equal frames at two times of a stream get equal outputs exactly if the times are congruent modulo num_embeds. Tables with less than two channels or without positions are refused.", "quantifier": "every number of positions, every number of channels, with and without averaging of neighbours, all streams and all ways of cutting them into calls (over the real numbers)", "why_tests_cant": "Distinctness of all rows is a statement about every table size and channel count; tests look at a few sizes, and the size for which it fails is not among them.", "anchors": ["continual/positional_encoding.py:CyclicPositionalEncoding.__init__", "continual/positional_encoding.py:RecyclingPositionalEncoding.forward_step"]}
{"id": "C80", "title": "Masks restrict attention", "statement": "forward with attn_mask and key_padding_mask of the documented shapes computes attention in which the mask is added to the scores and hidden positions have weight 0: a query sees exactly the frames that are not hidden from it, as if the others were not in the clip, and exchanging hidden frames changes nothing. Masks of other shapes are refused. Steps that are given masks obey them as well, or refuse them.", "quantifier": "all masks of booleans and numbers (2D and 3D), all clips, batch sizes, numbers of heads, options of attention, all reachable states", "why_tests_cant": "Which position of which head a mask entry governs is a matter of reshapes over batch and heads; tests do not call the modules with masks at all.", "anchors": ["continual/multihead_attention/mha_base.py:MultiheadAttentionBase.forward", "continual/multihead_attention/mha_base.py:MultiheadAttentionBase.forward_step", "continual/multihead_attention/single_output_mha.py:SingleOutputMultiheadAttention.forward"]}
{"id": "C81", "title": "flops() reports the operations that are done", "statement": "The number that flops() of an attention module returns, for each kind of operation that is included, is the number of such operations that a call in the current mode performs on one batch entry: in-projection, attention of each head, out-projection. A step is never reported to take more than forward.", "quantifier": "all sequence lengths, embedding sizes, numbers of heads, biases, choices of kinds of operations, call modes set on the module or by the context manager", "why_tests_cant": "Tests compare the counts of steps and forward by inequalities in one configuration; they never count operations.", "anchors": ["continual/multihead_attention/retroactive_mha.py:RetroactiveMultiheadAttention.flops", "continual/multihead_attention/single_output_mha.py:SingleOutputMultiheadAttention.flops", "continual/multihead_attention/mha_base.py:scaled_dot_prod_attn_flops", "continual/ptflops.py:_register_ptflops"]}
{"id": "C82", "title": "An exported ONNX model streams like the module", "statement": "The wrapper that is exported takes an input and the state tensors as flat arguments. Fed with the tensors of a state of the module, frame after frame, it gives the outputs, the exceptions and the state tensors that `_forward_step` of the module gives; the states for the first call are those that `_forward_step` leaves when it gives an output, and then the model continues the stream.", "quantifier": "all nestings of Sequential and BroadcastReduce over delays, skips, convolutions, poolings, modules without state and modules with a tuple of tensors as state; all streams, all states", "why_tests_cant": "Tests export three networks and compare a handful of steps on one stream each; a bare attention module is never exported.", "anchors": ["continual/onnx.py:OnnxWrapper.forward", "continual/onnx.py:_shape_list", "continual/onnx.py:export", "continual/container.py:Sequential._forward_step", "continual/container.py:BroadcastReduce._forward_step"]}
{"id": "C83", "title": "Dynamic axes of the states of exported models", "statement": "Of each state tensor of an exported model exactly the axis that holds the batch is declared dynamic, under the name of the batch axis, so that the model accepts the states of every batch size.", "quantifier": "all kinds of modules with states, all their sizes, all pairs of batch sizes", "why_tests_cant": "Tests run exported models with the batch size they were exported with.", "anchors": ["continual/onnx.py:OnnxWrapper.state_dynamic_axes", "continual/delay.py:Delay", "continual/conv.py:_ConvCoNd", "continual/pooling.py:_PoolNd", "continual/rnn.py:RNN", "continual/multihead_attention/retroactive_mha.py:RetroactiveMultiheadAttention"]}
{"id": "C84", "title": "The traced graph computes what the module computes", "statement": "The graph that tracing makes of `_forward_step` on an example state gives, on every state and input, the outputs and next states that `_forward_step` gives. In particular an export made after warm-up continues every warmed-up stream.", "quantifier": "all nestings of Sequential and BroadcastReduce, all example states, all states left by a step with output, all streams", "why_tests_cant": "Tests compare a few steps of networks without temporal stride, from one state.", "anchors": ["continual/onnx.py:export", "continual/conv.py:_ConvCoNd._forward_step_py", "continual/pooling.py:_PoolNd._forward_step", "continual/delay.py:Delay._forward_step", "continual/skip.py:Skip._forward_step", "continual/transformer.py:RetroactiveUnity._forward_step"]}
{"id": "C85", "title": "New weights in the middle of a stream", "statement": "If the parameters of a network are replaced while it processes a stream (`load_state_dict`, assignment to `.data`, a step of an optimiser), which leaves its streaming state alone, then its following outputs are those of a network that had the new parameters from the beginning.", "quantifier": "all nestings of Sequential and BroadcastReduce over convolutions, poolings, delays and frame-wise functions, both kinds of attention with any arithmetic; all old and new weights, all streams, all times of the change", "why_tests_cant": "No test changes parameters while a module holds a state.", "anchors": ["continual/conv.py:_ConvCoNd._forward_step_py", "continual/conv.py:_ConvCoNd.__init__", "continual/pooling.py:_PoolNd._forward_step", "continual/delay.py:Delay._forward_step", "continual/multihead_attention/retroactive_mha.py:_retroactive_scaled_dot_product_attention_step", "continual/multihead_attention/single_output_mha.py:_single_query_scaled_dot_product_attention_step", "continual/container.py:Sequential.forward_step"]}
{"id": "C86", "title": "Backward through a stream", "statement": "Training through the streaming interface works: if the outputs that `forward_step` returned over a stream are combined into a loss, `loss.backward()` succeeds, whichever outputs are used and however many steps were made, and its gradients take all earlier frames into account.", "quantifier": "all networks of Sequential and BroadcastReduce over convolutions, poolings, delays, both kinds of attention and layers without state; all sizes, strides and paddings, training or eval mode; streams of any length, all subsets of their outputs, `retain_graph` or not", "why_tests_cant": "No test calls backward; an in-place write into something saved for the backward pass shows up with certain sequences of steps and kinds of pooling only.", "anchors": ["continual/conv.py:_ConvCoNd._forward_step_py", "continual/pooling.py:_PoolNd._forward_step", "continual/delay.py:Delay._forward_step", "continual/multihead_attention/retroactive_mha.py:_scaled_dot_product_attention_step", "continual/multihead_attention/single_output_mha.py:_scaled_dot_product_attention_step"]}
{"id": "C87", "title": "Training on a running stream", "statement": "A network can be trained while it processes a stream: `backward` (and a step of the optimiser) after every output, or after every few outputs, succeeds every time.", "quantifier": "the networks above with weights before or in a member with a state; any division of the stream into parts with a backward pass each, with or without `retain_graph`, with or without steps of the optimiser", "why_tests_cant": "No test calls backward more than once in a stream.", "anchors": ["continual/module.py:CoModule.forward_step", "continual/conv.py:_ConvCoNd._forward_step_py", "continual/container.py:Sequential.forward_step", "continual/module.py:CoModule.clean_state"]}
{"id": "C88", "title": "Memory held over a stream", "statement": "The memory that a network holds while it processes a stream is bounded: it does not grow with the number of frames.", "quantifier": "the networks above; streams of any length", "why_tests_cant": "A leak shows only after many steps, and under `torch.no_grad()` there is none.", "anchors": ["continual/module.py:CoModule.forward_step", "continual/conv.py:_ConvCoNd._forward_step_py", "continual/pooling.py:_PoolNd._forward_step", "continual/delay.py:Delay._forward_step", "continual/multihead_attention/mha_base.py:MultiheadAttentionBase._forward_step"]}
{"id": "C89", "title": "Layers mapped as they are work frame by frame", "statement": "A torch module that `continual` maps without a conversion of its own (activations, softmax and gating layers, normalisations, dropout) processes a stream as it processes a clip in evaluation mode: `forward_step` on frame t gives frame t of `forward` on the clip (or raises exactly if that raises), and `forward_steps` on a chunk gives that chunk.", "quantifier": "all kinds of modules in NAIVE_MAPPING and CONDITIONAL_MAPPING with all their parameters, clips of every rank and size, every frame and every chunk", "why_tests_cant": "Depends on which axes the module mixes: negative `dim`s, normalised shapes, the number of places; the tests convert a few default instances.", "anchors": ["continual/convert.py:forward_stepping", "continual/convert.py:NAIVE_MAPPING", "continual/convert.py:CONDITIONAL_MAPPING", "continual/convert.py:_instance_norm_condition"]}
{"id": "C90", "title": "Running statistics over a stream", "statement": "Batch normalisation in training mode tracks statistics over a stream as over a clip: stepping through the frames works whenever `forward` works and leaves the same running mean and count; in evaluation mode statistics never change.", "quantifier": "all configurations of batch normalisation (any momentum, cumulative average), all statistics before, clips of every size", "why_tests_cant": "Statistics are a sum over all frames with weights that depend on the number of steps.", "anchors": ["continual/convert.py:forward_stepping", "continual/convert.py:NAIVE_MAPPING"]}
{"id": "C91", "title": "Copies in the middle of a stream", "statement": "A copy of a module or network taken in the middle of a stream (`copy.copy`, `copy.deepcopy`) is a stream of its own: original and copies, called in any order, each return what the original would have returned to the same calls alone.", "quantifier": "delays, poolings and convolutions with any configuration, any history before the copies, any number of copies, any interleaving of calls afterwards; networks of any depth", "why_tests_cant": "Aliasing of state tensors between copies shows only under interleavings of in-place writes; no test copies a module that has state.", "anchors": ["continual/delay.py:Delay", "continual/conv.py:_ConvCoNd", "continual/pooling.py:_PoolNd", "continual/convert.py:forward_stepping", "continual/module.py:CoModule"]}
{"id": "C92", "title": "Exceptions leave the reported geometry as it was", "statement": "After a call of `forward_steps` raised an exception that the user caught (for example a frame passed instead of a clip), the network and its members report the same receptive_field, stride, padding and delay as before, so that later calls, `warm_up` and containers built around it work as if the call had not been made.", "quantifier": "networks of any depth of Sequential, Parallel and BroadcastReduce with Delays anywhere, every place at which a call may raise or return None, every sequence of such calls", "why_tests_cant": "Tests check that the exception is raised, not what the attributes of the members are afterwards.", "anchors": ["continual/utils.py:temporary_parameter", "continual/delay.py:Delay.forward_steps", "continual/container.py:Sequential.padding", "continual/module.py:CoModule.delay", "continual/module.py:CoModule.warm_up"]}
{"id": "C93", "title": "Subclasses of Tensor and empty batches", "statement": "A Sequential treats an input whose type is a subclass of Tensor (such as nn.Parameter) and an empty batch like any other input: forward_step, forward_steps and forward pass it through the members.", "quantifier": "every chain of members with any state, every input type and batch size, both values of pad_end and update_state", "why_tests_cant": "Tests pass plain tensors with a batch of at least one.", "anchors": ["continual/container.py:Sequential.forward", "continual/container.py:Sequential.forward_step", "continual/container.py:Sequential.forward_steps"]}
{"id": "C94", "title": "Which log messages are emitted", "statement": "A message logged on a logger of getLogger(name) is emitted every time, and one logged on a logger of getLogger(name, log_once=True) exactly the first time; on processes of another rank than zero nothing is emitted, so that of several processes that log the same exactly one emits a message.", "quantifier": "every sequence of loggers made and of messages logged under any names, on any rank, any number of processes", "why_tests_cant": "Tests do not look at the log.", "anchors": ["continual/logging.py:getLogger", "continual/logging.py:once", "continual/logging.py:if_rank_zero", "continual/logging.py:_process_rank", "continual/single_output_mha.py:logger_once", "continual/retroactive_mha.py:logger_once"]}
{"id": "C95", "title": "Texts of functions in repr", "statement": "repr of a Lambda or Conditional shows each of its functions: the name of a named function, and of a lambda exactly the text by which it was written; it never raises.", "quantifier": "every source text of the statement around a lambda, every kind of callable", "why_tests_cant": "Tests check the text of a few lambdas.", "anchors": ["continual/utils.py:function_repr", "continual/closure.py:Lambda.__repr__", "continual/container.py:Conditional.extra_repr"]}
{"id": "C96", "title": "Streams are reproducible to the last bit", "statement": "Whatever rounding the arithmetic does, the output of a step is determined by the content of its window: two objects of a module whose last receptive_field frames are the same return the same bits, at any position of the stream and after any calls.", "quantifier": "every type of numbers with an addition that need not be associative or commutative, every module and network, every two histories of calls", "why_tests_cant": "Tests compare with a tolerance (torch.allclose), on streams that begin at the first frame.", "anchors": ["continual/conv.py:_ConvCoNd._forward_step_py", "continual/pooling.py:_PoolNd._forward_step"]}
{"id": "C97", "title": "A module may be moved to another device", "statement": "net.to(device) may be called at any time, before a stream, in the middle of it and after clean_state: the stream goes on with the same results, on the new device.", "quantifier": "every network, every history of frames, movings between devices and clean_state, every position in the stream", "why_tests_cant": "The tests run on the CPU only; moving has to be tried at each position of the stream and for each kind of module.", "anchors": ["continual/conv.py:_ConvCoNd._forward_step_py", "continual/pooling.py:_PoolNd._forward_step", "continual/rnn.py:RNN.set_state", "continual/positional_encoding.py:RecyclingPositionalEncoding.clean_state", "continual/delay.py:Delay", "continual/multihead_attention/mha_base.py:MultiheadAttentionBase._forward_step", "continual/container.py:Conditional.forward_step"]}
{"id": "C98", "title": "Containers convert the modules they are given", "statement": "A module of torch that is passed to a container (Sequential, append, Parallel, BroadcastReduce, Residual, Conditional) is treated as if it had been passed through co.continual first: the same container results, and the same arguments are refused.", "quantifier": "every list of continual, converted and plain modules, every registered or unregistered type, every combination of delays and strides", "why_tests_cant": "The mixtures of converted and plain modules, delays and strides are unbounded; the tests pass plain modules to Sequential only.", "anchors": ["continual/container.py:co_add_module", "continual/container.py:Sequential.__init__", "continual/container.py:Parallel.__init__", "continual/container.py:BroadcastReduce.__init__", "continual/container.py:Residual", "continual/container.py:Conditional.__init__", "continual/module.py:CoModule.is_valid"]}
{"id": "C99", "title": "forward_stepping leaves the module's own forward alone", "statement": "After forward_stepping(module), calling the module in the call mode forward gives what it gave before, for positional and keyword arguments; a module that cannot be enhanced is left as it was.", "quantifier": "every module with its forward parameters and defaults, every stride and padding attribute, every list of positional and keyword arguments", "why_tests_cant": "All signatures, argument lists and attribute values; the tests call enhanced modules with one positional argument.", "anchors": ["continual/convert.py:forward_stepping", "continual/module.py:CoModule.is_valid"]}
{"id": "C100", "title": "Networks can be edited like lists", "statement": "append, net[i] = m, del net[i] and slices of a Sequential do to its members what they do to a list, converting modules of torch; net[:k] followed by net[k:] is net; a slice of a BroadcastReduce reduces like the container.", "quantifier": "every list of members, every sequence of edits, every version of torch's deletion, every state of the members", "why_tests_cant": "Sequences of edits are unbounded; the tests use append alone.", "anchors": ["continual/container.py:Sequential.append", "continual/container.py:Sequential.add_module", "continual/container.py:Sequential.__init__", "continual/container.py:BroadcastReduce.__init__", "continual/container.py:co_add_module"]}
{"id": "C101", "title": "Dropout in a stream is distributed as dropout on the clip", "statement": "In training mode, the results of stepping through a clip have the distribution that forward on the clip gives them, for the dropout layers of torch, dropout between recurrent layers and dropout in attention.", "quantifier": "every clip length, number of channels and places, every drop probability, every statistic of the results, every cut of the stream", "why_tests_cant": "A distribution is a statement about all draws; the tests run dropout in eval mode.", "anchors": ["continual/convert.py:forward_stepping", "continual/convert.py:NAIVE_MAPPING", "continual/rnn.py:RNN.forward_step", "continual/multihead_attention/retroactive_mha.py:_scaled_dot_product_attention_step", "continual/multihead_attention/single_output_mha.py:_scaled_dot_product_attention_step", "continual/multihead_attention/mha_base.py:multi_head_attention_forward_step"]}
{"id": "C102", "title": "continual uses what was registered last and keeps what is continual", "statement": "After any calls of register, continual(module) uses build_from of the class that was last accepted for exactly the type of the module, raises if there is none, and returns modules that are continual already as they are.", "quantifier": "every sequence of accepted and refused registrations, every module, every content of the tables of convert.py", "why_tests_cant": "The histories of registrations are unbounded; the tests never call register.", "anchors": ["continual/convert.py:register", "continual/convert.py:continual", "continual/convert.py:NAIVE_MAPPING", "continual/convert.py:CONDITIONAL_MAPPING"]}
{"id": "C103", "title": "Classes that lack a part of the interface are refused", "statement": "A class that lacks one of forward, forward_step, forward_steps, get_state, set_state, clean_state, delay, receptive_field, stride, padding, or has a value of the wrong kind for it, can neither be derived from CoModule nor registered; all others can.", "quantifier": "every class: all method resolution orders, namespaces and kinds of values", "why_tests_cant": "The classes are unbounded; no test defines a wrong class.", "anchors": ["continual/module.py:CoModule.__init_subclass__", "continual/module.py:CoModule._validate_class", "continual/module.py:CoModule.is_valid", "continual/convert.py:register"]}
{"id": "C104", "title": "Sizes may be given in every form that torch accepts", "statement": "Kernel size, stride, padding and dilation of convolutions and poolings mean what they mean in torch, whether given as a number, a sequence with one number for each axis, a sequence of length one, or (padding of convolutions) a string: forward and forward_step use the same values on the axes of space, and delay is computed from the temporal ones.", "quantifier": "every number of axes, every form and value of the four arguments", "why_tests_cant": "All combinations of forms; the tests use numbers and full tuples.", "anchors": ["continual/conv.py:_ConvCoNd.__init__", "continual/conv.py:_ConvCoNd.forward", "continual/conv.py:_ConvCoNd._forward_step_py", "continual/pooling.py:_PoolNd.__init__", "continual/pooling.py:MaxPool3d.__init__", "continual/pooling.py:AvgPool2d.__init__"]}
{"id": "C105", "title": "Conversion keeps the parameters as they are", "statement": "The parameters and buffers of a converted network have the values, types, devices and requires_grad of those of the original, shared parameters stay shared, and each member is in the mode (training or evaluation) of the original.", "quantifier": "every network of modules in any nesting, every type, device and value of each parameter, every sharing of parameters and of members, every mode of each member", "why_tests_cant": "All combinations of types, devices, frozen parameters, modes and sharing; the tests convert new networks in single precision on the CPU.", "anchors": ["continual/convert.py:continual", "continual/conv.py:Conv1d.build_from", "continual/conv.py:Conv2d.build_from", "continual/conv.py:Conv3d.build_from", "continual/linear.py:Linear.build_from", "continual/rnn.py:RNN.build_from", "continual/container.py:Sequential.build_from"]}
{"id": "C106", "title": "Conversion leaves the original network alone", "statement": "continual(net) leaves net, and everything else in the process, as it was, whether it succeeds or raises; so does whatever is done with the converted network afterwards (training, train(), eval()).", "quantifier": "every network, every state of the process, every sequence of uses of the converted network", "why_tests_cant": "All networks and sequences of uses; sharing shows only when the original is used again.", "anchors": ["continual/convert.py:continual", "continual/convert.py:forward_stepping", "continual/container.py:Sequential.build_from"]}
{"id": "C107", "title": "Streams keep the type and device of their frames", "statement": "The results of a stream have the type and lie on the device of the frames (those of the parameters of the network), with the values of forward, however often the state is cleaned or warmed up in between.", "quantifier": "every network of convolutions, poolings, delays and frame-wise layers in sequence and with residual connections, every type and device, every sequence of frames, clean_state and warm_up", "why_tests_cant": "All combinations of types, devices, networks and sequences of calls; the tests use single precision on the CPU, where warm_up happens to fit.", "anchors": ["continual/module.py:CoModule.warm_up", "continual/delay.py:Delay._forward_step", "continual/pooling.py:_PoolNd._forward_step", "continual/conv.py:_ConvCoNd._forward_step_py", "continual/container.py:BroadcastReduce.forward_step", "continual/container.py:Sequential.forward_step"]}
{"id": "C108", "title": "temporary_parameter sets an attribute for the time of a block", "statement": "Inside `with temporary_parameter(obj, name, value)` the attribute has that value and everything else is as before; after it everything is as before, also if such blocks are nested, if the name is dotted, if the attribute did not exist before, and if the block is left by an exception.", "quantifier": "every object graph, every dotted name, every value, every nesting and sequence of such blocks with reads of any attributes in between, exceptions at any place", "why_tests_cant": "Unbounded nesting, aliasing of objects and all places of exceptions; the tests set one existing and one missing attribute.", "anchors": ["continual/utils.py:temporary_parameter", "continual/utils.py:rgetattr", "continual/utils.py:rsetattr"]}
{"id": "C109", "title": "A continual attention module built from a torch one computes the same", "statement": "`CoRe/SingleOutput MultiheadAttention.build_from(module, sequence_len, **options)` makes a module with the sizes, options, parameters, mode and frozen parameters of the original but for what the options ask for, whatever random values its own parameters had when they were made; it streams textbook attention with the weights of the original over the last `sequence_len` frames. What cannot be kept raises.", "quantifier": "every attention module of torch (sizes, heads, packed or separate projections, with and without biases, learned key and value, any types and devices), every option, every initialisation, every stream of frames", "why_tests_cant": "The values of fresh parameters, the sizes and the streams are unbounded; a test that copies one module cannot tell a parameter that was forgotten if it happens to be initialised alike (biases are zero in both).", "anchors": ["continual/multihead_attention/mha_base.py:MultiheadAttentionBase.build_from", "continual/multihead_attention/retroactive_mha.py:RetroactiveMultiheadAttention", "continual/multihead_attention/single_output_mha.py:SingleOutputMultiheadAttention"]}
{"id": "C110", "title": "A chunk without frames is no input", "statement": "`forward_steps` with a clip of no frames returns no frames and leaves all states as they were, so that such chunks can be left out of a stream; with `pad_end` it gives the results that the padding completes.", "quantifier": "every network of convolutions, poolings, delays, skips, pointwise and stepping modules, functions, recurrent modules and attention, nested in sequences and reductions to any depth; every state; every script of calls", "why_tests_cant": "Tests never give a clip without frames; whether the loop variable after an empty loop, the state that is written back, or the stack of no results is reached depends on the first member of the network that is not pointwise.", "anchors": ["continual/module.py:CoModule._forward_steps_impl", "continual/container.py:Sequential.forward_steps", "continual/container.py:BroadcastReduce.forward_steps", "continual/rnn.py:RNN.forward_steps", "continual/closure.py:Lambda.forward_steps", "continual/multihead_attention/mha_base.py:MultiheadAttentionBase.forward_steps"]}
{"id": "C111", "title": "The C++ step of the convolutions computes what the Python step computes", "statement": "With the call of `conv.cpp` in `_ConvCoNd._forward_step` as it is written there (in evaluation mode, for `padding_mode=\"zeros\"`), `forward_step` returns the same results and leaves the same state as `_forward_step_py`, to which the code falls back where the C++ file cannot be compiled.", "quantifier": "every convolution (any number of spatial axes, sizes, strides, groups, biases, fills), every weight, state and stream of frames", "why_tests_cant": "The C++ code is compiled nowhere in the tests (its call is commented out); which of the two runs depends on the machine.", "anchors": ["continual/conv.cpp:coconv_forward_step", "continual/conv.cpp:init_state", "continual/conv.py:_ConvCoNd._forward_step", "continual/conv.py:_ConvCoNd._forward_step_py"]}
{"id": "C112", "title": "The squeeze-and-excitation block of the documentation", "statement": "`Residual(Sequential(AdaptiveAvgPool3d(1, kernel_size=K), Conv3d(1), act, Conv3d(1), act), reduce=\"mul\")` is accepted, reports receptive field K and delay K-1, and `forward_step` returns, from the K-th frame on, the oldest of the last K frames scaled by the excitation of the pooling of these K frames. `forward_steps(clip, pad_end=True)` on a clean block returns what `forward` returns.", "quantifier": "every K, pooling that splits into space and time, pair of pointwise convolutions, activations, combination of frames; every clip and every history", "why_tests_cant": "The test of the block uses one clip whose length happens to be the kernel size of the pooling.", "anchors": ["README.md:Squeeze-and-Excitation", "continual/container.py:Residual", "continual/container.py:BroadcastReduce.forward_steps", "continual/pooling.py:AdaptiveAvgPool3d"]}
{"id": "C113", "title": "The short-hand and the spelled-out residual connection of the documentation are the same", "statement": "`Residual(m)` and `Sequential(Broadcast(2), Parallel(m, Delay(d)), Reduce(\"sum\"))`, given as short-hand and explicit form of the same block, agree on `forward`, report the same delay and return the same results call by call.", "quantifier": "every module m of stride one with 'same' padding that keeps the documented contract, every d of at least its padding, every clip and stream, every commutative combination", "why_tests_cant": "The test compares `forward` only, and with another delay than the documentation.", "anchors": ["README.md:Residual module", "continual/container.py:Residual", "continual/container.py:Parallel.__init__", "continual/container.py:Sequential.forward_step"]}
{"id": "C114", "title": "Options of build_from change what they name and nothing else", "statement": "`build_from(module, **options)` of a convolution, Linear, RNN, GRU or LSTM either raises or returns a module with the arguments of the original but for the options, in which every parameter is the parameter of the same name of the original; an option the class does not have raises.", "quantifier": "every module, every combination of options, every values the new parameters were initialised with", "why_tests_cant": "The tests convert without options, or with options that do not touch sizes.", "anchors": ["continual/conv.py:Conv1d.build_from", "continual/conv.py:Conv2d.build_from", "continual/conv.py:Conv3d.build_from", "continual/linear.py:Linear.build_from", "continual/rnn.py:RNN.build_from", "continual/rnn.py:GRU.build_from", "continual/rnn.py:LSTM.build_from"]}
{"id": "C115", "title": "A Conditional reports the geometry of the branch that runs", "statement": "For a predicate that always gives the same answer, `receptive_field`, `stride`, `padding` and `delay` of `Conditional(p, a, b)` describe what it emits: results appear from step `delay` on, every `stride` steps, and depend on the frames of the reported window only; so networks around it report their delay and residual connections around it add the right frame.", "quantifier": "every pair of branches (any networks that report their own geometry), every predicate with a constant answer, every stream", "why_tests_cant": "The tests compare the outputs of one Conditional at the top level.", "anchors": ["continual/container.py:Conditional.__init__", "continual/container.py:Conditional.delay", "continual/container.py:Conditional.receptive_field", "continual/module.py:CoModule.stride", "continual/container.py:Sequential.receptive_field"]}
{"id": "C116", "title": "Attention modules report when their results come and which frame they belong to", "statement": "`delay` of a continual attention module is the first step of a fresh stream that gives a result, a Sequential of the module alone reports the same delay, and a residual connection around either adds the frame of the query to its attention, for single frames and for chunks.", "quantifier": "every attention module (any heads, weights, sequence_len, query_index), every stream", "why_tests_cant": "The tests compare residual attention only inside the transformer layers, whose residual branch is written by hand.", "anchors": ["continual/multihead_attention/single_output_mha.py:SingleOutputMultiheadAttention.delay", "continual/multihead_attention/mha_base.py:MultiheadAttentionBase.receptive_field", "continual/module.py:CoModule.delay", "continual/container.py:Residual", "continual/container.py:Sequential.receptive_field"]}
{"id": "C117", "title": "Pooling modules built from those of torch", "statement": "`build_from` of AvgPool and MaxPool in one, two and three dimensions gives a module the forward of which is the pooling of torch with the options of the original and those given in their place, and the steps of which pool frames in space with the options for space and over time with the options for time; options that the class does not have or support are refused.", "quantifier": "every pooling module of torch, every combination of keyword arguments of build_from, every input, whatever the poolings of torch compute", "why_tests_cant": "All combinations of options; the tests convert poolings with the defaults.", "anchors": ["continual/pooling.py:AvgPool1d.build_from", "continual/pooling.py:AvgPool2d.build_from", "continual/pooling.py:AvgPool3d.build_from", "continual/pooling.py:MaxPool1d.build_from", "continual/pooling.py:MaxPool2d.build_from", "continual/pooling.py:MaxPool3d.build_from"]}
{"id": "C118", "title": "The ways of calling Reshape", "statement": "Every call of the constructor that the two documented overloads of Reshape allow makes a module that reshapes clips and frames to the given sizes, contiguously if and only if `contiguous` was asked for; sizes that are not integers are refused.", "quantifier": "every shape with at least one entry, every documented way of passing it and `contiguous`, every list of arguments, every clip and frame", "why_tests_cant": "The overloads are two signatures for one function with *args; tests use one form each.", "anchors": ["continual/shape.py:Reshape.__init__", "continual/shape.py:Reshape.forward", "continual/shape.py:Reshape.forward_step"]}
{"id": "C119", "title": "Arguments of the functions that make encoder layers", "statement": "The two layer functions and the function returned by TransformerEncoderLayerFactory make, for all documented arguments, a layer of the kind asked for whose sizes, dropout rates, norms, activation and sequence length are the ones given.", "quantifier": "every combination of d_model, nhead, dim_feedforward, dropout, activation (name or callable of any kind), layer_norm_eps, sequence_len (given or not), query_index, single_output_forward and kind of attention", "why_tests_cant": "Tests make layers with a few sizes and relu; the names of activations, functions written in C++, the kind 'regular' and the default of sequence_len are not tried.", "anchors": ["continual/transformer.py:SingleOutputTransformerEncoderLayer", "continual/transformer.py:RetroactiveTransformerEncoderLayer", "continual/transformer.py:TransformerEncoderLayerFactory", "continual/transformer.py:StepLocalTransformerEncoderLayer", "continual/convert.py:continual"]}
{"id": "C120", "title": "Operations reported by ptflops", "statement": "The number of operations that ptflops reports for a network of the package, in forward or in steps, is the number of operations its members do in this call per entry of the batch, each member being counted once; a step costs one T-th of forward on T frames if no frame is lost.", "quantifier": "every tree of containers with continual, recurrent, converted and conditional members, every mode of the call, all sizes, kernels, groups, biases and batch sizes", "why_tests_cant": "The tests compare one number for a few modules with batch size 1; nested containers with converted members, recurrent modules, steps without output, channel_dim and larger batches are not tried.", "anchors": ["continual/ptflops.py:_register_ptflops", "continual/module.py:CoModule.__call__", "continual/module.py:_callmode_enum", "continual/linear.py:Linear"]}
{"id": "C121", "title": "Names and axes handed to the ONNX exporter", "statement": "For every continual module, co.onnx.export makes a graph whose inputs and outputs carry the names given by the user, whose state tensors are called s0, s1, ... and ns0, ns1, ... in the order of the flattened state, with all names different, and whose batch axis is dynamic in all inputs and outputs and in exactly the states flagged by the module; missing names count as an empty list.", "quantifier": "every module tree with its states and flags, every number of inputs, outputs and parameters, names given as lists, tuples or not at all", "why_tests_cant": "The tests export a handful of modules, always with the names input and output; other numbers of names, names that clash with those of states, and the defaults are not tried.", "anchors": ["continual/onnx.py:export", "continual/onnx.py:OnnxWrapper.state_input_names", "continual/onnx.py:OnnxWrapper.state_output_names", "continual/onnx.py:OnnxWrapper.state_dynamic_axes"]}
{"id": "C122", "title": "Branches that keep the number of frames; Inception module and inverted residual block of the documentation", "statement": "BroadcastReduce of any two or more branches of stride one with 'same' padding (in any nesting, with different paddings) is accepted, its delay is the largest delay of a branch, it has 'same' padding itself, and frame t of forward, of forward_steps(pad_end=True) on a clean module and, delayed, of forward_step is the reduction of the frames t that forward of the branches returns. In particular the Inception module and the inverted residual block of the README compute in all three modes what the feed-forward blocks compute, with a delay of two frames and one frame.", "quantifier": "any number of branches and any paddings, all networks of convolutions, poolings, delays, frame-wise modules and containers of these, all weights, all non-empty clips, any reachable state (forward) or clean state (streaming)", "why_tests_cant": "tests/continual/test_example.py runs each block on one random clip of fixed size with approximate equality and does not look at forward_step of the Inception module.", "anchors": ["continual/container.py:BroadcastReduce", "continual/container.py:Residual", "continual/container.py:Sequential", "continual/conv.py:_ConvCoNd.forward_steps"]}
{"id": "C123", "title": "Work of streaming: constant per frame, and fewer products per prediction than on sliding windows", "statement": "In a Sequential of convolutions and frame-wise modules, forward_step multiplies frames with every temporal slice of every kernel at most once, and exactly once if it returns a prediction, whatever the state, the frame and the number of frames before. forward over L frames with 'same' padding carries out L times as many products with frames, up to those that fall on the padding, and a prediction by forward_step takes no more products than one by forward over the window of the receptive field.", "quantifier": "all sequences of convolutions (any kernel sizes, strides, paddings, weights, any types of frames) and frame-wise modules, all states and frames, all clip lengths; sliding windows for any number of convolutions and any kernel size", "why_tests_cant": "Tests compare values; none counts operations. benchmarks of the paper measure a few networks.", "anchors": ["continual/conv.py:_ConvCoNd._forward_step_py", "continual/conv.py:_ConvCoNd.forward", "continual/container.py:Sequential.forward_step"]}
{"id": "C124", "title": "Superposition: linear networks combine streams linearly", "statement": "For networks of convolutions, average pooling, delays, linear frame-wise modules and sums or concatenations of branches: let several streams be fed to copies of the network by the same calls of forward, forward_step, forward_steps and clean_state. Feeding a linear combination of the streams by these calls gives the linear combination of the results, None and exceptions at the same calls; where there are biases this holds for coefficients that sum to one. Without biases, zeros give zeros.", "quantifier": "all such networks, all numbers of streams, all coefficients in a field, all scripts of calls of the four methods with any flags, all frames; padding by zeros or by replicated frames", "why_tests_cant": "Relates an unbounded family of executions of arbitrary length; the tests compare single executions with forward and never combine inputs. A value-dependent shortcut (say, skipping zero frames, or a stride counter that depends on data) would pass them.", "anchors": ["continual/conv.py:_ConvCoNd._forward_step_py", "continual/conv.py:_ConvCoNd.forward", "continual/pooling.py:_PoolNd._forward_step", "continual/delay.py:Delay", "continual/container.py:Sequential", "continual/container.py:BroadcastReduce"]}
{"id": "C125", "title": "Attention refuses queries, keys and values of other batch sizes", "statement": "In a stream of frames for an attention module, query, key and value of the first frame must have the same batch size n. Every later frame whose query, key or value has another batch size raises and leaves the module unchanged, so that the results for the other frames are those of the stream without it; frames of batch size n are accepted, every head of every entry working on its own state. forward_steps does the calls of forward_step in turn or raises and does nothing, in particular when query, key and value differ in their numbers of frames.", "quantifier": "both attention modules, all numbers of heads, all window lengths and query indices, all streams of frames with query, key and value of any lengths, with and without update_state", "why_tests_cant": "Lengths of query, key and value vary independently from frame to frame, and torch decides by views and broadcasting; the tests use one batch size per module. One combination in fact slips through.", "anchors": ["continual/multihead_attention/mha_base.py:multi_head_attention_forward_step", "continual/multihead_attention/mha_base.py:MultiheadAttentionBase.forward_step", "continual/multihead_attention/retroactive_mha.py:_scaled_dot_product_attention_step", "continual/multihead_attention/single_output_mha.py:_scaled_dot_product_attention_step"]}
{"id": "C126", "title": "Sequences of different lengths in recurrent modules", "statement": "Sequences of different lengths can be given to a recurrent module together. As one clip with any padding after their ends: for forward on the clip, and however it is cut into calls of forward_step and forward_steps, the outputs for a sequence are those of the recurrence on it alone, from the hidden state of its entry, and the final hidden state is that after its last frame. As a packed sequence, which the documentation admits: the outputs are packed in the same way.", "quantifier": "RNN, GRU and LSTM with any number of layers, any number of sequences of any lengths, any padding, any hidden state at the beginning, any division into calls", "why_tests_cant": "The tests use batches of sequences of the same length; packed sequences are not tested at all, and in fact raise.", "anchors": ["continual/rnn.py:RNN.forward", "continual/rnn.py:RNN.forward_steps", "continual/rnn.py:GRU.forward", "continual/rnn.py:GRU.forward_steps", "continual/rnn.py:LSTM.forward", "continual/rnn.py:LSTM.forward_steps"]}
{"id": "C127", "title": "Rounding errors do not accumulate over a stream", "statement": "With additions that have a relative error of at most u (floating-point arithmetic) and products, poolings, activations and recurrent layers with errors within given bounds, the outputs of forward_step and forward_steps differ from those of exact arithmetic by at most a bound that depends on the network and on the size of the inputs, and not on the number of frames seen before: the partial sums in the buffers of convolutions are added to a bounded number of times, and the errors in the states of recurrent layers die out if these depend on their states with a factor smaller than 1. The same bound holds for forward, so that forward and streaming, both computed with rounding, differ by at most twice the bound wherever they agree in exact arithmetic. If the frames given are themselves off by at most d, the same holds with a bound that depends on d as well.", "quantifier": "networks of convolutions, poolings, delays, element-wise functions, RNN and GRU layers, Sequential and sums of two branches, of any sizes, at any depth; any rounding with a relative error; all streams of any length with bounded entries; any division into calls", "why_tests_cant": "The tests compare with a tolerance on streams of about ten frames; an error that grows with the length of the stream would pass.", "anchors": ["continual/conv.py:_ConvCoNd._forward_step_py", "continual/conv.py:_ConvCoNd.forward", "continual/pooling.py:_PoolNd._forward_step", "continual/delay.py:Delay._forward_step", "continual/container.py:BroadcastReduce.forward_step", "continual/container.py:Sequential.forward_step"]}
{"id": "C128", "title": "Disturbances of a stream are amplified by a fixed factor", "statement": "If two streams differ by at most d in every entry of every frame, the outputs of forward_step and forward_steps on them come at the same calls and differ by at most G * d, however long the streams are and however they are divided into calls, and so do the results of forward. The gain G is computed from the network: the kernel size times the bound on the weights for a convolution, 1 for average and max pooling, rectifiers and delays, a / (1 - q) for a recurrent layer that depends on its state with a factor q < 1; gains multiply along a Sequential and add up at a sum. A disturbance that is over fades: after n further common frames the next outputs of one such recurrent layer differ by at most q^(n+1) * a / (1 - q) * d, and by at most q^(n+1) * 2B whatever was fed before, if its states are bounded by B, so that up to any accuracy the outputs depend on a fixed number of last frames only. For recurrent layers with q = 1 there is no such bound.", "quantifier": "networks of convolutions, poolings, delays, functions of frames, RNN and GRU layers, Sequential and sums of two branches, of any sizes, at any depth; all pairs of streams of any length; any division into calls", "why_tests_cant": "The tests feed one stream per module; that no disturbance builds up in the buffers is a statement about pairs of unbounded streams.", "anchors": ["continual/conv.py:_ConvCoNd._forward_step_py", "continual/conv.py:_ConvCoNd.forward", "continual/pooling.py:_PoolNd._forward_step", "continual/delay.py:Delay._forward_step", "continual/rnn.py:RNN._forward_step", "continual/container.py:BroadcastReduce.forward_step", "continual/container.py:Sequential.forward_step"]}
