{
 "claims": [
  {
   "property": "C01",
   "status": "proved",
   "theorems": [
    "CoInf.C01_conv_streams_textbook"
   ],
   "note": "All kernel sizes, strides, paddings P<K (K>1 or S=1), both fills, all weights and streams; from every clean object."
  },
  {
   "property": "C02",
   "status": "proved",
   "theorems": [
    "CoInf.C02_conv_padEnd_eq_forward"
   ],
   "note": "All clips on which forward is defined, both update_state flags; pad_end=False gives the prefix."
  },
  {
   "property": "C03",
   "status": "proved",
   "theorems": [
    "CoInf.C03_pool_streams_windows"
   ],
   "note": "Every order-free temporal pooling function, dilation 1."
  },
  {
   "property": "C04",
   "status": "proved",
   "theorems": [
    "CoInf.C04_pool_padEnd_eq_forward"
   ],
   "note": "Dilation 1, fill equal to the padding value of the reference pooling."
  },
  {
   "property": "C05",
   "status": "partial",
   "theorems": [
    "CoInf.C05_dilated_pool_refuted",
    "CoInf.C05_dilated_pool_partial"
   ],
   "note": "False for every K>=2, d>=2 (index wraps modulo kernel_size instead of the buffer length): refuted for all such K, d; the rest (dilation 1, or K=1) is proved."
  },
  {
   "property": "C06",
   "status": "proved",
   "theorems": [
    "CoInf.C06_delay_steps",
    "CoInf.C06_delay_padEnd",
    "CoInf.C06_delay_zero"
   ],
   "note": "Delay without shrinking; pad_end for shrink off; Delay(0) is the identity in every mode."
  },
  {
   "property": "C07",
   "status": "proved",
   "theorems": [
    "CoInf.C07_skip"
   ],
   "note": "Every n and stream."
  },
  {
   "property": "C08",
   "status": "proved",
   "theorems": [
    "CoInf.C08_attention",
    "CoInf.C08_attention_chunkings",
    "CoInf.C08_chunking_independence"
   ],
   "note": "C08_attention and C08_attention_chunkings: attention modules with any arithmetic, from any state."
  },
  {
   "property": "C09",
   "status": "proved",
   "theorems": [
    "CoInf.C09_probe"
   ],
   "note": "Every object of every network, reachable or not."
  },
  {
   "property": "C10",
   "status": "proved",
   "theorems": [
    "CoInf.C10_attention",
    "CoInf.C10_clean_state"
   ],
   "note": "Every object and every script of calls, also with end padding and empty clips."
  },
  {
   "property": "C11",
   "status": "proved",
   "theorems": [
    "CoInf.C11_instant",
    "CoInf.C11_emission_schedule"
   ],
   "note": "Networks of members that report their geometry (Skip and shrinking Delay do not)."
  },
  {
   "property": "C12",
   "status": "proved",
   "theorems": [
    "CoInf.C12_sequential_length",
    "CoInf.C12_members",
    "CoInf.C12_nonmembers"
   ],
   "note": "Sequential of any length whose members satisfy the formula; conv, dilation-1 pool and frame-wise members do; Delay, Skip and dilated pools do not (C12_nonmembers)."
  },
  {
   "property": "C13",
   "status": "proved",
   "theorems": [
    "CoInf.C13_receptive_field"
   ],
   "note": "Streams of any length, reported receptive field, stride and padding."
  },
  {
   "property": "C14",
   "status": "proved",
   "theorems": [
    "CoInf.C14_sequential_composes",
    "CoInf.C14_padEnd_eq_forward"
   ],
   "note": "Composition for arbitrary members; pad_end=True equals forward for all networks whose padding modes agree."
  },
  {
   "property": "C15",
   "status": "partial",
   "theorems": [
    "CoInf.C15_chunked_forward_partial",
    "CoInf.C15_chunked_forward_refuted"
   ],
   "note": "Refuted for a strided member followed by a padded one (the last chunk may give the downstream member nothing, then its end padding is skipped); proved when no strided member is followed by another member."
  },
  {
   "property": "C16",
   "status": "partial",
   "theorems": [
    "CoInf.C16_padEnd_not_saved_partial",
    "CoInf.C16_sequential_padEnd_refuted"
   ],
   "note": "Proved for all leaf modules and BroadcastReduce of such; refuted for Sequential, whose downstream members keep the outputs caused by upstream end padding."
  },
  {
   "property": "C17",
   "status": "partial",
   "theorems": [
    "CoInf.C17_padEnd_probe_partial",
    "CoInf.C17_padEnd_probe_refuted"
   ],
   "note": "Proved on clean networks; refuted on a module that holds a state (end padding runs from the state before the call)."
  },
  {
   "property": "C18",
   "status": "proved",
   "theorems": [
    "CoInf.C18_sum",
    "CoInf.C18_mul",
    "CoInf.C18_max",
    "CoInf.C18_concat",
    "CoInf.C18_lengths",
    "CoInf.C18_constructor",
    "CoInf.C18_framewise",
    "CoInf.C18_eq_sequential",
    "CoInf.C18_geometry"
   ],
   "note": "Any number of branches that emit in lock step; equality with Sequential(Broadcast, Parallel, Reduce) holds for arbitrary members, all methods, flags and exceptions."
  },
  {
   "property": "C19",
   "status": "partial",
   "theorems": [
    "CoInf.C19_auto_delay_partial",
    "CoInf.C19_strided_refuted",
    "CoInf.C19_strided_data_refuted"
   ],
   "note": "Proved for stride 1; refuted for every stride >= 2 (the added Delay counts output frames of the branch, not input frames)."
  },
  {
   "property": "C20",
   "status": "proved",
   "theorems": [
    "CoInf.C20_residual",
    "CoInf.C20_residual_contract"
   ],
   "note": "Every module that keeps the documented contract and has same-length padding."
  },
  {
   "property": "C21",
   "status": "partial",
   "theorems": [
    "CoInf.C21_shrink_partial",
    "CoInf.C21_centered_step_partial",
    "CoInf.C21_centered_steps_refuted",
    "CoInf.C21_padEnd_refuted"
   ],
   "note": "forward and streaming proved for on/lagging/leading and centered; refuted for forward_steps in centered mode and for pad_end=True."
  },
  {
   "property": "C22",
   "status": "proved",
   "theorems": [
    "CoInf.C22_members",
    "CoInf.C22_dispatch",
    "CoInf.C22_out_of_range",
    "CoInf.C22_commutes",
    "CoInf.C22_parallel"
   ],
   "note": "Every mapping tree; Parallel over any number of streams."
  },
  {
   "property": "C23",
   "status": "partial",
   "theorems": [
    "CoInf.C23_none_refuted",
    "CoInf.C23_two_stages_partial"
   ],
   "note": "Refuted for every first stage with a delaying branch (None is passed into the second Parallel); proved when the first stage has no delay."
  },
  {
   "property": "C24",
   "status": "partial",
   "theorems": [
    "CoInf.C24_branch_partial",
    "CoInf.C24_alignment",
    "CoInf.C24_clean_refuted",
    "CoInf.C24_flags_refuted",
    "CoInf.C24_data_refuted",
    "CoInf.C24_functional_refuted"
   ],
   "note": "Choice of branch and alignment of the delays proved for default flags; refuted: clean_state does not reach the branches, forward_steps drops pad_end and update_state, _forward_step drops the other state."
  },
  {
   "property": "C25",
   "status": "partial",
   "theorems": [
    "CoInf.C25_forward_pure",
    "CoInf.C25_posenc_forward",
    "CoInf.C25_posenc_refuted"
   ],
   "note": "Every object and script of every network. Refuted for positional encodings even with forward_update_index_steps=0: forward starts at the position of the stream."
  },
  {
   "property": "C26",
   "status": "proved",
   "theorems": [
    "CoInf.C26_attention",
    "CoInf.C26_functional_step",
    "CoInf.C26_nested"
   ],
   "note": "C26_nested: all nestings of Sequential, Broadcast, Parallel, Reduce and BroadcastReduce, with attention modules as members, exceptions included."
  },
  {
   "property": "C27",
   "status": "partial",
   "theorems": [
    "CoInf.C27_attention_partial",
    "CoInf.C27_attention_refuted",
    "CoInf.C27_conv_training",
    "CoInf.C27_clone_partial",
    "CoInf.C27_clone_modules_partial",
    "CoInf.C27_fresh_refuted",
    "CoInf.C27_delay_refuted",
    "CoInf.C27_inplace_refuted"
   ],
   "note": "Proved for convolution in training mode (any script, including nested checkpoints); for Delay, pooling and convolution in evaluation mode only if the state is copied; refuted without copying (Delay: every d>=1 and stream) and on a fresh module."
  },
  {
   "property": "C28",
   "status": "proved",
   "theorems": [
    "CoInf.C28_attention",
    "CoInf.C28_delay",
    "CoInf.C28_pool",
    "CoInf.C28_conv"
   ],
   "note": "Delay, pooling, convolution (train and eval), every script of public calls with every flag; results are looked at after the last call."
  },
  {
   "property": "C29",
   "status": "partial",
   "theorems": [
    "CoInf.C29_attention_partial",
    "CoInf.C29_attention_refuted",
    "CoInf.C29_conv_training",
    "CoInf.C29_linear_partial",
    "CoInf.C29_delay_refuted",
    "CoInf.C29_pool_refuted",
    "CoInf.C29_conv_refuted"
   ],
   "note": "Proved for convolution in training mode and attention with full windows; refuted for Delay (every filled state), pooling, convolution in evaluation mode and attention that is filling up; linear threading of the state is proved for all."
  },
  {
   "property": "C30",
   "status": "proved",
   "theorems": [
    "CoInf.C30_rnn_chunking",
    "CoInf.C30_rnn_probe",
    "CoInf.C30_rnn_clean"
   ],
   "note": "Every cell function, number of layers, initial state and cutting of the sequence; dropout 0, no PackedSequence (see C126)."
  },
  {
   "property": "C31",
   "status": "proved",
   "theorems": [
    "CoInf.C31_scripts",
    "CoInf.C31_recycling",
    "CoInf.C31_too_long",
    "CoInf.C31_functional"
   ],
   "note": "Every table, script of calls with any flags and clean_state; longer clips raise. _forward_step(x, None) rewinds the stream of the module itself."
  },
  {
   "property": "C32",
   "status": "partial",
   "theorems": [
    "CoInf.C32_window_partial",
    "CoInf.C32_chunks_partial",
    "CoInf.C32_length_one_refuted"
   ],
   "note": "Proved for sequence_len >= 2, any heads, projections and weights, any history of calls; exact arithmetic over any field. Refuted for sequence_len = 1, where every step raises IndexError."
  },
  {
   "property": "C33",
   "status": "proved",
   "theorems": [
    "CoInf.C33_row",
    "CoInf.C33_chunks"
   ],
   "note": "Any sequence_len >= 1, any query_index in the valid range, any history of calls, with and without single_output_forward."
  },
  {
   "property": "C34",
   "status": "partial",
   "theorems": [
    "CoInf.C34_probe_partial",
    "CoInf.C34_fresh_refuted",
    "CoInf.C34_fresh_single_refuted",
    "CoInf.C34_empty_refuted"
   ],
   "note": "Proved for modules that have been fed; refuted on fresh or cleaned modules (UnboundLocalError) and for clips without frames."
  },
  {
   "property": "C35",
   "status": "partial",
   "theorems": [
    "CoInf.C35_window_partial",
    "CoInf.C35_chunks_partial",
    "CoInf.C35_stale_refuted"
   ],
   "note": "Proved for the first 2D frames since clean_state (D = sequence_len - 1), any fill and history; refuted for every later frame and every stream of distinct frames: frame D-1 of the stream stays in the result forever."
  },
  {
   "property": "C36",
   "status": "partial",
   "theorems": [
    "CoInf.C36_retroactive_partial",
    "CoInf.C36_retroactive_refuted",
    "CoInf.C36_single_output",
    "CoInf.C36_last_query_partial",
    "CoInf.C36_single_output_refuted"
   ],
   "note": "Single-output layer with single_output_forward: proved for every sequence_len and query_index. Without it (default): proved for the last query, refuted for every other query_index. Retroactive layer: proved up to frame 2(sequence_len-1), refuted for all later frames (consequence of C35). Dropout is the identity (evaluation mode)."
  },
  {
   "property": "C37",
   "status": "partial",
   "theorems": [
    "CoInf.C37_geometry",
    "CoInf.C37_geometry_in",
    "CoInf.C37_many_layers_refuted",
    "CoInf.C37_one_layer_partial",
    "CoInf.C37_two_layers_partial",
    "CoInf.C37_two_layers_refuted"
   ],
   "note": "One layer: proved. Two layers: construction and forward proved, steps proved up to frame 2(sequence_len-1) and refuted afterwards. Three or more layers: refuted, the constructor always raises AssertionError."
  },
  {
   "property": "C38",
   "status": "partial",
   "theorems": [
    "CoInf.C38_unnested_partial",
    "CoInf.C38_nested_refuted",
    "CoInf.C38_dead_refuted",
    "CoInf.C38_invalid_refuted"
   ],
   "note": "Proved for programs whose blocks are not nested (any sequence, exceptions, handlers); refuted for every nested block, for everything after a nested block, and after a block with an invalid mode."
  },
  {
   "property": "C39",
   "status": "partial",
   "theorems": [
    "CoInf.C39_explicit_mode_partial",
    "CoInf.C39_attributes_after",
    "CoInf.C39_restores_partial",
    "CoInf.C39_overwrites_refuted",
    "CoInf.C39_exception_refuted",
    "CoInf.C39_conditional_refuted",
    "CoInf.C39_block_refuted",
    "CoInf.C39_block_raises_refuted",
    "CoInf.CallMode.C39_signatures",
    "CoInf.CallMode.C39_conditional_direct_refuted"
   ],
   "note": "Executed modes proved for all trees and mode assignments without an active block (Conditional only for step/steps); restoration proved when the objects of a member agree; refuted: differing grandchildren are overwritten, members that raise keep the temporary mode, Conditional.forward, and calls inside a co.call_mode block."
  },
  {
   "property": "C40",
   "status": "proved",
   "theorems": [
    "CoInf.StateDict.C40_roundtrip",
    "CoInf.StateDict.C40_keys",
    "CoInf.StateDict.C40_regular",
    "CoInf.StateDict.C40_strict",
    "CoInf.StateDict.C40_strict_refuses"
   ],
   "note": "Keys are lists of dot-free parts with an arbitrary isdigit predicate; torch's own state_dict/load_state_dict are modelled on dicts of named values (metadata, hooks and shape checks are not)."
  },
  {
   "property": "C41",
   "status": "partial",
   "theorems": [
    "CoInf.Onnx.C41_flat_roundtrip",
    "CoInf.Onnx.C41_nested_roundtrip",
    "CoInf.Onnx.C41_names",
    "CoInf.Onnx.C41_wrapper_partial",
    "CoInf.Onnx.C41_conditional_refuted",
    "CoInf.Onnx.C41_leaves",
    "CoInf.Onnx.C41_dynamic"
   ],
   "note": "Proved for every nested shape; the exported step agrees with the functional step for all nestings of Sequential, BroadcastReduce and Parallel over leaves (C41_wrapper_partial); it fails for Conditional, which returns the state of one branch only (C41_conditional_refuted)."
  },
  {
   "property": "C42",
   "status": "partial",
   "theorems": [
    "CoInf.C42_retro",
    "CoInf.C42_single_refuted",
    "CoInf.C42_warm_up_partial",
    "CoInf.C42_exact",
    "CoInf.C42_no_delay",
    "CoInf.C42_warm_up_refuted"
   ],
   "note": "Proved for every network of the class Net with correctly reported geometry and positive delay, and for convolution and pooling with delay 0; refuted for Skip, shrinking Delay, Lambda on frames, recurrent modules, single-output attention and convolutions with padding >= kernel size."
  },
  {
   "property": "C43",
   "status": "proved",
   "theorems": [
    "CoInf.C43_pointwise_modes_agree",
    "CoInf.C43_steps_eq_forward",
    "CoInf.C43_functions",
    "CoInf.C43_constructor"
   ],
   "note": "Lambda, Linear, Reshape and wrapped modules, all flags and objects."
  },
  {
   "property": "C44",
   "status": "partial",
   "theorems": [
    "CoInf.C44_maxpool_partial",
    "CoInf.C44_maxpool_default_refuted"
   ],
   "note": "Proved for the -inf fill (the MaxPool1d constructor default); refuted for MaxPool2d/3d and for build_from, whose default fill is zeros."
  },
  {
   "property": "C45",
   "status": "proved",
   "theorems": [
    "CoInf.C45_finite_memory"
   ],
   "note": "Networks that report their geometry."
  },
  {
   "property": "C46",
   "status": "proved",
   "theorems": [
    "CoInf.C46_retro_state_size",
    "CoInf.C46_single_state_size",
    "CoInf.C46_conv_state_size",
    "CoInf.C46_pool_state_size",
    "CoInf.C46_delay_state_size"
   ],
   "note": "Conv, pool, delay, attention: any script of calls."
  },
  {
   "property": "C47",
   "status": "partial",
   "theorems": [
    "CoInf.C47_kernel1_step_ignores_stride",
    "CoInf.C47_kernel1_stride_refuted",
    "CoInf.C47_kernel1_partial"
   ],
   "note": "Refuted: forward_step ignores the stride for kernel size 1; one forward_steps call and functional threading are right."
  },
  {
   "property": "C48",
   "status": "partial",
   "theorems": [
    "CoInf.C48_wide_padding_refuted",
    "CoInf.C48_padding_partial"
   ],
   "note": "Refuted for every K, P>=K, S: strictly fewer outputs than forward; P<K is proved."
  },
  {
   "property": "C49",
   "status": "partial",
   "theorems": [
    "CoInf.C49_unchanged",
    "CoInf.C49_converts_iff",
    "CoInf.C49_forward_partial",
    "CoInf.C49_streams_torch",
    "CoInf.C49_clip_torch",
    "CoInf.C49_bidirectional_refuted",
    "CoInf.C49_registered_refuted",
    "CoInf.C49_group_norm_refuted",
    "CoInf.C49_exceptions",
    "CoInf.C49_bidirectional_layers_refuted"
   ],
   "note": "Holds: CoModules unchanged; converted iff a conversion is implemented (arbitrary nesting); forward agrees for every clip incl. exceptions; streaming a converted network of admissible modules gives the torch network's clip output. Fails: bidirectional RNN/GRU/LSTM are silently converted to their forward direction; nn.AdaptivePool and nn.TransformerEncoder are registered but always raise TypeError; nn.GroupNorm is mapped naively although its statistics run over time."
  },
  {
   "property": "C50",
   "status": "partial",
   "theorems": [
    "CoInf.C50_naive_member_refuted",
    "CoInf.C50_naive_member_partial"
   ],
   "note": "Refuted for every method, position and mode assignment (KeyError); wrapping the member in Sequential works."
  },
  {
   "property": "C51",
   "status": "partial",
   "theorems": [
    "CoInf.C51_deepcopy_refuted",
    "CoInf.C51_deepcopy_partial"
   ],
   "note": "Refuted for every module whose call_mode was ever assigned; proved for modules whose mode was never assigned and for explicit method calls of containers."
  },
  {
   "property": "C52",
   "status": "partial",
   "theorems": [
    "CoInf.StateDict.C52_regular_strict_refuted",
    "CoInf.StateDict.C52_regular_lax_refuted",
    "CoInf.StateDict.C52_regular_partial"
   ],
   "note": "Refuted: strict loading raises KeyError, non-strict loading silently skips every parameter with a number in its name, unless shortened names collide or there are no numbers."
  },
  {
   "property": "C53",
   "status": "partial",
   "theorems": [
    "CoInf.StateDict.C53_part_refuted",
    "CoInf.StateDict.C53_part_partial"
   ],
   "note": "Refuted: the number of entries differs, so shortened names are not translated; only names without numbers are loaded."
  },
  {
   "property": "C54",
   "status": "partial",
   "theorems": [
    "CoInf.StateDict.C54_unnested_partial",
    "CoInf.StateDict.C54_nested_refuted"
   ],
   "note": "Refuted for nested blocks: leaving an inner block switches flattening off for the rest of the outer one; proved without nesting."
  },
  {
   "property": "C55",
   "status": "proved",
   "theorems": [
    "CoInf.C55_window"
   ],
   "note": "Every nesting of Sequential and BroadcastReduce over convolution, pooling, Delay and frame-wise members (class Net with k.geo)."
  },
  {
   "property": "C56",
   "status": "partial",
   "theorems": [
    "CoInf.C56_window",
    "CoInf.C56_average",
    "CoInf.C56_maximum",
    "CoInf.C56_constructor",
    "CoInf.C56_clip_partial",
    "CoInf.C56_longer_clip_refuted"
   ],
   "note": "Windows and constructor proved for average and maximum pooling; forward_steps = forward only for clips of exactly kernel_size frames, refuted for every longer clip."
  },
  {
   "property": "C57",
   "status": "partial",
   "theorems": [
    "CoInf.C57_once_partial",
    "CoInf.C57_twice_refuted"
   ],
   "note": "One application is fine in every mode; two or more recurse without bound in the streaming modes."
  },
  {
   "property": "C58",
   "status": "proved",
   "theorems": [
    "CoInf.C58_nesting",
    "CoInf.C58_same_members",
    "CoInf.C58_geometry"
   ],
   "note": "Proved for arbitrary members by a bisimulation; the geometry part assumes receptive fields of at least one."
  },
  {
   "property": "C59",
   "status": "partial",
   "theorems": [
    "CoInf.C59_append",
    "CoInf.C59_append_all",
    "CoInf.C59_named_partial",
    "CoInf.C59_named_refuted",
    "CoInf.C59_infer",
    "CoInf.C59_infer_refuted",
    "CoInf.C59_reduce_partial",
    "CoInf.C59_reduce_refuted"
   ],
   "note": "Sequential with positional members: proved. Named members: false if str(len) is already a name (the member is replaced). A Broadcast() without number of streams is only completed by the constructor, not by append. BroadcastReduce: holds for branches of the same delay and stride; otherwise delay and receptive field are stale and branches misaligned (refuted)."
  },
  {
   "property": "C60",
   "status": "partial",
   "theorems": [
    "CoInf.C60_functional",
    "CoInf.C60_stateless_partial",
    "CoInf.C60_shared_refuted"
   ],
   "note": "Functional stepping: proved for every module. Stateless modules: proved for all methods. Stateful modules: refuted (one convolution used twice)."
  },
  {
   "property": "C61",
   "status": "proved",
   "theorems": [
    "CoInf.C61_streams",
    "CoInf.C61_forward",
    "CoInf.C61_independent",
    "CoInf.C61_size"
   ],
   "note": "Proved over any (non-unital, non-associative) semiring with the F.convNd calls of the code written out; replaces the abstract slice maps of C01/C02. Hypotheses: the spatial kernel fits the padded frame, P <= K-1 (see C48), not (K = 1 and S > 1) (see C47); the forward part needs padding_mode = temporal_fill, as C02."
  },
  {
   "property": "C62",
   "status": "partial",
   "theorems": [
    "CoInf.C62_streams",
    "CoInf.C62_options_partial",
    "CoInf.C62_forward",
    "CoInf.C62_ceil_refuted",
    "CoInf.C62_count_refuted",
    "CoInf.C62_divisor_refuted",
    "CoInf.C62_dilation_refuted",
    "CoInf.C62_size",
    "CoInf.C62_streams_options",
    "CoInf.C62_forward_options",
    "CoInf.C62_rejects",
    "CoInf.C62_accepts"
   ],
   "note": "Default options: streaming and clips proved equal to the textbook formula over any field. All options: proved when they do not concern the temporal axis. Refuted (for all geometries named in the theorems): ceil_mode when the windows do not fill the clip, count_include_pad=False with temporal padding, divisor_override, temporal dilation (ignored by forward)."
  },
  {
   "property": "C63",
   "status": "partial",
   "theorems": [
    "CoInf.C63_streams_partial",
    "CoInf.C63_forward_partial",
    "CoInf.C63_ceil_refuted",
    "CoInf.C63_rejects",
    "CoInf.C63_forward_dilated"
   ],
   "note": "Proved for fill -inf or no temporal padding (other fills: C44, dilation: C05) when ceil_mode=False or the windows fill the clip; ceil_mode otherwise refuted."
  },
  {
   "property": "C64",
   "status": "partial",
   "theorems": [
    "CoInf.C64_retroactive",
    "CoInf.C64_single",
    "CoInf.C64_independent",
    "CoInf.C64_projection",
    "CoInf.C64_options_refuted",
    "CoInf.C64_forward_options"
   ],
   "note": "Proved with the in- and out-projection and the reshapes into heads written out, over any field and any stand-in for exp and sqrt. Refuted: with add_bias_kv, add_zero_attn, or kdim/vdim other than embed_dim every step raises, although the constructor and forward accept them."
  },
  {
   "property": "C65",
   "status": "partial",
   "theorems": [
    "CoInf.C65_clips_partial",
    "CoInf.C65_forward",
    "CoInf.C65_single_forward",
    "CoInf.C65_batch_second_refuted",
    "CoInf.C65_functional",
    "CoInf.Layout.C65_lengths"
   ],
   "note": "Proved for batch_first modules with either embed_dim_second, and for retroactive attention in the default order. Refuted for single-output attention without batch_first: forward_steps returns frames with a superfluous axis unless the batch is one. embed_dim_second without batch_first has no consistent axis order in the code and is not claimed. The functional step _forward_step, which containers call on their attention modules, returns the tensors of forward_step for every axis order (C65_functional)."
  },
  {
   "property": "C66",
   "status": "proved",
   "theorems": [
    "CoInf.C66_1d",
    "CoInf.C66_2d",
    "CoInf.C66_3d"
   ],
   "note": "Proved for all three numbers of axes, any pooling function."
  },
  {
   "property": "C67",
   "status": "partial",
   "theorems": [
    "CoInf.LinearNd.C67_forward",
    "CoInf.LinearNd.C67_frames_partial",
    "CoInf.LinearNd.C67_negative_refuted",
    "CoInf.LinearNd.C67_refuted"
   ],
   "note": "Proved on tensors of any rank if channel_dim counts from the front and is before time, or from the end and is behind time. Refuted otherwise: with channel_dim=-2 on (B, C, T) forward_step raises, or mixes the batch entries if there are as many of them as channels."
  },
  {
   "property": "C68",
   "status": "proved",
   "theorems": [
    "CoInf.C68_delay",
    "CoInf.C68_pool",
    "CoInf.C68_conv",
    "CoInf.C68_functional"
   ],
   "note": "Proved on the heap model of Delay, convolution and pooling (mutable shared tensors), for streams of which none raises on its own object."
  },
  {
   "property": "C69",
   "status": "partial",
   "theorems": [
    "CoInf.ReshapeNd.C69_frames_partial",
    "CoInf.ReshapeNd.C69_one_axis_refuted"
   ],
   "note": "Proved for target shapes with at least two axes. Refuted for one axis: forward and forward_steps raise, forward_step does not."
  },
  {
   "property": "C70",
   "status": "partial",
   "theorems": [
    "CoInf.C70_one_layer_partial",
    "CoInf.C70_two_layers_partial",
    "CoInf.C70_many_layers_refuted",
    "CoInf.C70_builtin_refuted",
    "CoInf.C70_norm_first_refuted",
    "CoInf.C70_gelu_refuted"
   ],
   "note": "Proved for post-norm encoders with one layer (all frames) and two layers (forward; frames sequence_len to 2(sequence_len-1)). Refuted for norm_first encoders (option dropped silently), three or more layers (raises), encoders whose activation is a function of torch written in C++, such as that of nn.TransformerEncoderLayer(activation=\"gelu\") (raises), and the factory's activation=\"gelu\" (uses relu)."
  },
  {
   "property": "C71",
   "status": "partial",
   "theorems": [
    "CoInf.C71_outside_partial",
    "CoInf.C71_step_block_refuted",
    "CoInf.C71_steps_block_refuted",
    "CoInf.C71_clean_refuted"
   ],
   "note": "Proved outside of all blocks. Refuted inside blocks of forward_step (AssertionError as soon as there are sequence_len frames) and of forward_steps (inner layer keeps state, several tokens instead of one)."
  },
  {
   "property": "C72",
   "status": "proved",
   "theorems": [
    "CoInf.RnnLayout.C72_layout",
    "CoInf.RnnLayout.C72_probe"
   ],
   "note": "Cells are arbitrary functions on tensors with the right shapes; for PackedSequence see C126."
  },
  {
   "property": "C73",
   "status": "partial",
   "theorems": [
    "CoInf.C73_network",
    "CoInf.C73_conv_fresh",
    "CoInf.C73_pool_fresh",
    "CoInf.C73_delay_fresh",
    "CoInf.C73_chain_fresh",
    "CoInf.C73_single_attention",
    "CoInf.C73_single_attention_rf",
    "CoInf.C73_retro_attention_partial",
    "CoInf.C73_retro_nan_refuted",
    "CoInf.ForgetExample.C73_retro_rf_refuted"
   ],
   "note": "Proved with the bound receptive_field - 1 for running networks of convolutions, pooling (dilation 1), Delay and frame-wise modules, for these modules from the start, and for single-output attention; nested Sequentials from the start, also with attention, have some bound. For retroactive attention refuted with receptive_field - 1 and with receptive_field, proved with 2 * sequence_len - 2, which is sharp."
  },
  {
   "property": "C74",
   "status": "proved",
   "theorems": [
    "CoInf.C74_network",
    "CoInf.C74_other_entries",
    "CoInf.C74_conv",
    "CoInf.C74_attention",
    "CoInf.C74_mixing"
   ],
   "note": "For batches of at least one entry and a batch size that is the same for all calls of a script. Frame-wise modules and reductions must treat the entries separately; C74_mixing shows that this is needed."
  },
  {
   "property": "C75",
   "status": "partial",
   "theorems": [
    "CoInf.C75_bad_frames_partial",
    "CoInf.C75_one_size",
    "CoInf.C75_single_entry_refuted",
    "CoInf.C75_first_frame_refuted",
    "CoInf.C75_recurrent",
    "CoInf.C75_recurrent_entries"
   ],
   "note": "Proved for frames of two or more entries (or none) after the first frame. Refuted for frames of a single entry, which are broadcast silently, and for a first frame that a later member of a Sequential refuses: earlier members stay initialised for its size. C75_one_size ties the model with varying sizes to the other models. Networks that begin with a recurrent module refuse every frame of another size, single entries too (C75_recurrent, C75_recurrent_entries)."
  },
  {
   "property": "C76",
   "status": "partial",
   "theorems": [
    "CoInf.C76_session_partial",
    "CoInf.C76_safe_partial",
    "CoInf.C76_frame_partial",
    "CoInf.C76_residual_streaming",
    "CoInf.C76_residual_refuted",
    "CoInf.C76_order_refuted"
   ],
   "note": "Proved for networks in which no branch writes into the tensor that another branch still needs. Refuted for a residual connection around a network that begins with an in-place member: forward adds the overwritten input, streaming the right one; with the delay as second branch every mode is wrong."
  },
  {
   "property": "C77",
   "status": "partial",
   "theorems": [
    "CoInf.C77_exclusive_partial",
    "CoInf.C77_no_blocks_partial",
    "CoInf.C77_block_refuted",
    "CoInf.C77_overlap_refuted"
   ],
   "note": "Proved for threads that do not use co.call_mode blocks and for blocks that exclude the other threads. Refuted otherwise: the context is one object for the whole process, so that calls of other threads run the method of the block, and blocks that overlap in time leave it dead for all threads."
  },
  {
   "property": "C78",
   "status": "partial",
   "theorems": [
    "CoInf.C78_once_partial",
    "CoInf.C78_values_partial",
    "CoInf.C78_executions",
    "CoInf.C78_stepping_refuted",
    "CoInf.C78_recurrent_refuted",
    "CoInf.C78_conditional_refuted",
    "CoInf.C78_raises"
   ],
   "note": "C78_raises: in calls that raise, hooks of the modules that the exception passes do not run, and are closed in order otherwise. Proved for continual members in all modes, for modules made by forward_stepping in forward, and for recurrent modules in the modes for steps. Refuted otherwise: hooks of modules made by forward_stepping run twice per step, hooks of recurrent modules do not run in forward, and hooks of the branches of a Conditional do not run in steps."
  },
  {
   "property": "C79",
   "status": "partial",
   "theorems": [
    "CoInf.C79_distinct_partial",
    "CoInf.C79_five_refuted",
    "CoInf.C79_centred",
    "CoInf.C79_rejects",
    "CoInf.C79_stream_partial",
    "CoInf.C79_stream_refuted",
    "CoInf.C79_closed"
   ],
   "note": "Proved for all table sizes except five positions, over the real numbers. Refuted for five positions (with the default mean_pooling), where all encodings are 0, whatever the number of channels."
  },
  {
   "property": "C80",
   "status": "partial",
   "theorems": [
    "CoInf.C80_forward",
    "CoInf.C80_visible",
    "CoInf.C80_hidden",
    "CoInf.C80_one_partial",
    "CoInf.C80_one_refuted",
    "CoInf.C80_refuses",
    "CoInf.C80_steps",
    "CoInf.C80_steps_refuted"
   ],
   "note": "Proved for forward of both modules (one mask row with single_output_forward). Refuted for forward_step, which accepts and ignores masks, and for masks of the documented shape with single_output_forward, which are refused."
  },
  {
   "property": "C81",
   "status": "partial",
   "theorems": [
    "CoInf.C81_counted",
    "CoInf.C81_single_partial",
    "CoInf.C81_retro_partial",
    "CoInf.C81_forward_partial",
    "CoInf.C81_adds_refuted",
    "CoInf.C81_step_retro",
    "CoInf.C81_step_single",
    "CoInf.C81_projection_refuted",
    "CoInf.C81_kinds_refuted",
    "CoInf.C81_mode_refuted"
   ],
   "note": "Counted on programs proved equal to the model of attention. Exponentials are exact, the additions of single-output attention too; the deviations of the other counts are proved exactly. Refuted: additions of forward, projections with single_output_forward, excluded kinds, mode forward_steps and the mode of the context manager."
  },
  {
   "property": "C82",
   "status": "partial",
   "theorems": [
    "CoInf.Onnx.C82_streams",
    "CoInf.Onnx.C82_ready",
    "CoInf.Onnx.C82_continues",
    "CoInf.Onnx.C82_attention_refuted"
   ],
   "note": "Proved for all nestings of Sequential and BroadcastReduce. Refuted for a bare attention module: the wrapper passes the states as second positional argument, which is `key`."
  },
  {
   "property": "C83",
   "status": "partial",
   "theorems": [
    "CoInf.Onnx.C83_flags",
    "CoInf.Onnx.C83_axes_partial",
    "CoInf.Onnx.C83_axes_refuted",
    "CoInf.Onnx.C83_name_refuted"
   ],
   "note": "Which state tensors depend on the batch is declared correctly. Refuted: the axis declared dynamic is 0 though delays, convolutions, poolings and recurrent modules keep the batch on axis 1; attention keeps batch times heads on the axis named batch."
  },
  {
   "property": "C84",
   "status": "partial",
   "theorems": [
    "CoInf.Onnx.C84_traced_partial",
    "CoInf.Onnx.C84_steady",
    "CoInf.Onnx.C84_continues_partial",
    "CoInf.Onnx.C84_stride_refuted",
    "CoInf.Onnx.C84_unity_refuted",
    "CoInf.Onnx.C84_warmup_refuted"
   ],
   "note": "Proved for temporal strides of 1 and exports after warm-up. Refuted for strides of at least 2, for exports during warm-up, and for RetroactiveUnity."
  },
  {
   "property": "C85",
   "status": "partial",
   "theorems": [
    "CoInf.C85_network_partial",
    "CoInf.C85_conv_partial",
    "CoInf.C85_pool_partial",
    "CoInf.C85_retro_attention_partial",
    "CoInf.C85_single_attention_partial",
    "CoInf.C85_conv_mixture",
    "CoInf.C85_conv_next",
    "CoInf.C85_conv_next_iff",
    "CoInf.C85_refuted"
   ],
   "note": "Refuted: for every kernel size from 2 on the next output of a convolution is wrong unless the old and new weights give the same partial sum over the frames remembered (C85_conv_next_iff, C85_refuted); C85_conv_mixture says what comes instead. Proved: the outputs appear at the same steps, no call raises, and they are right from receptive_field - 1 frames after the change on (networks: changes after the first output; single convolutions, poolings and attention: any time; retroactive attention: 2 * sequence_len - 2 frames)."
  },
  {
   "property": "C86",
   "status": "partial",
   "theorems": [
    "CoInf.C86_network_partial",
    "CoInf.C86_first_frame",
    "CoInf.C86_every_frame",
    "CoInf.C86_max_pool_refuted",
    "CoInf.C86_outputs"
   ],
   "note": "Refuted for max pooling that pools a view of its buffer (1d pooling with dilation 1; 2d and 3d if the batch, the channels or the positions are one) behind a layer with weights: C86_max_pool_refuted. Proved for all other networks (C86_network_partial). The gradients arrive at the first frame (C86_first_frame), in convolutions and attention at every frame (C86_every_frame); the outputs come at the frames of the emission schedule (C86_outputs). Values of gradients are not modelled; RNNs, positional encodings and Conditional are left out."
  },
  {
   "property": "C87",
   "status": "partial",
   "theorems": [
    "CoInf.C87_refuted",
    "CoInf.C87_retained_refuted",
    "CoInf.C87_clips_partial",
    "CoInf.C87_stateless_partial"
   ],
   "note": "Refuted for every network with weights before or in its first member with a state: C87_refuted, and with retained graphs C87_retained_refuted. Proved: training clip by clip with `clean_state` (C87_clips_partial); networks without state (C87_stateless_partial)."
  },
  {
   "property": "C88",
   "status": "partial",
   "theorems": [
    "CoInf.C88_refuted",
    "CoInf.C88_no_grad_partial",
    "CoInf.C88_clean_partial"
   ],
   "note": "Refuted with grad mode on: at least one more storage per frame (C88_refuted). Proved under `torch.no_grad()` (C88_no_grad_partial) and after `clean_state` (C88_clean_partial)."
  },
  {
   "property": "C89",
   "status": "partial",
   "theorems": [
    "CoInf.NaiveNd.C89_frames_partial",
    "CoInf.NaiveNd.C89_chunks_partial",
    "CoInf.NaiveNd.C89_instance_norm",
    "CoInf.NaiveNd.C89_instance_norm_frames",
    "CoInf.NaiveNd.C89_legacy_softmax",
    "CoInf.NaiveNd.C89_stream_partial",
    "CoInf.NaiveNd.C89_softmax_refuted",
    "CoInf.NaiveNd.C89_glu_refuted",
    "CoInf.NaiveNd.C89_layer_norm_refuted",
    "CoInf.NaiveNd.C89_group_norm_refuted",
    "CoInf.NaiveNd.C89_batch_norm_refuted",
    "CoInf.NaiveNd.C89_instance_norm_refuted",
    "CoInf.NaiveNd.C89_instance_norm_1d_refuted"
   ],
   "note": "Proved for every module that does not mix times by torch's documentation (C89_frames_partial, C89_chunks_partial, C89_stream_partial), among them all instance norms that `continual` accepts and softmaxes without dim. Refuted for softmax, GLU and LayerNorm over the time axis, for GroupNorm, for BatchNorm with track_running_stats=False and in training mode, for instance norms in training mode (C89_instance_norm_refuted, C89_instance_norm_1d_refuted), all of which `continual` accepts. The torch modules are modelled from their documentation; dropout in training mode is left out."
  },
  {
   "property": "C90",
   "status": "partial",
   "theorems": [
    "CoInf.NaiveNd.C90_eval_partial",
    "CoInf.NaiveNd.C90_clip",
    "CoInf.NaiveNd.C90_single_refuted",
    "CoInf.NaiveNd.C90_running_mean",
    "CoInf.NaiveNd.C90_cumulative_partial",
    "CoInf.NaiveNd.C90_refuted"
   ],
   "note": "Proved: evaluation mode (C90_eval_partial); cumulative averages from fresh statistics (C90_cumulative_partial); the exact running means in both ways (C90_running_mean); forward_steps on a whole clip in either mode (C90_clip). Refuted: frames with one value per channel raise (C90_single_refuted), other running means and counts (C90_refuted)."
  },
  {
   "property": "C91",
   "status": "partial",
   "theorems": [
    "CoInf.C91_deep_partial",
    "CoInf.C91_shallow_refuted",
    "CoInf.C91_modules_partial",
    "CoInf.C91_network_refuted"
   ],
   "note": "Proved for deep copies of delays, poolings and convolutions (C91_deep_partial, C91_modules_partial). Refuted for shallow copies, which are the same stream (C91_shallow_refuted), and for networks with naively mapped members or with state on the autograd graph, where deepcopy raises (C91_network_refuted). How torch stores buffers and what deepcopy does is stated in the header of the model."
  },
  {
   "property": "C92",
   "status": "partial",
   "theorems": [
    "CoInf.C92_attributes_partial",
    "CoInf.C92_stuck_refuted",
    "CoInf.C92_forever_refuted",
    "CoInf.C92_delay_refuted"
   ],
   "note": "Proved: calls that return change nothing, calls that raise change at most one padding, receptive fields and strides never change (C92_attributes_partial). Refuted: every Delay in which a call raises keeps padding = delay (C92_stuck_refuted), forever (C92_forever_refuted), and the delay of a Sequential is then too small (C92_delay_refuted). Calls are modelled by the outcomes of the operations of the members."
  },
  {
   "property": "C93",
   "status": "partial",
   "theorems": [
    "CoInf.C93_plain_partial",
    "CoInf.C93_forward",
    "CoInf.C93_parameter_partial",
    "CoInf.C93_steps_refuted",
    "CoInf.C93_step_refuted"
   ],
   "note": "Proved for plain tensors with a batch that is not empty (C93_plain_partial), for `forward` with all inputs (C93_forward), and for steps whose first member returns a plain tensor (C93_parameter_partial). Refuted: forward_steps drops clips of a subclass and empty batches (C93_steps_refuted), forward_step drops frames of a subclass behind the first member (C93_step_refuted)."
  },
  {
   "property": "C94",
   "status": "partial",
   "theorems": [
    "CoInf.C94_exact",
    "CoInf.C94_once_partial",
    "CoInf.C94_plain_refuted",
    "CoInf.C94_hash_refuted",
    "CoInf.C94_processes_partial",
    "CoInf.C94_processes_refuted"
   ],
   "note": "C94_exact says exactly which messages are emitted, over all sequences of loggers made and messages logged. The claim is proved for loggers that were the first of their name and log once, with a hash without collisions (C94_once_partial). Refuted: a plain logger is deduplicated once any logger of its name was made with log_once (C94_plain_refuted), and messages with equal hashes are lost (C94_hash_refuted). Several processes: exactly one emits a message if Lightning is installed and the ranks known at import differ (C94_processes_partial); without Lightning every process does (C94_processes_refuted)."
  },
  {
   "property": "C95",
   "status": "partial",
   "theorems": [
    "CoInf.Repr.C95_text_partial",
    "CoInf.Repr.C95_brackets_refuted",
    "CoInf.Repr.C95_second_refuted",
    "CoInf.Repr.C95_named",
    "CoInf.Repr.C95_object_refuted",
    "CoInf.Repr.C95_roles_refuted"
   ],
   "note": "Proved for named functions, modules and partials (C95_named), and for the first lambda of a statement with no colon in its arguments and all commas of its body in parentheses (C95_text_partial). Refuted: the text ends at a comma in brackets (C95_brackets_refuted), the second lambda of a statement shows as the first (C95_second_refuted), callable objects raise AttributeError (C95_object_refuted), and the roles of the functions do not show (C95_roles_refuted)."
  },
  {
   "property": "C96",
   "status": "partial",
   "theorems": [
    "CoInf.C96_conv",
    "CoInf.C96_net_partial",
    "CoInf.C96_pool_exact",
    "CoInf.C96_pool_refuted",
    "CoInf.C96_pool_partial"
   ],
   "note": "Proved over any addition for convolutions (C96_conv) and for networks of such convolutions, order-free poolings, delays and frame-wise modules (C96_net_partial; since these networks are admitted to Spec.Net, C08-C14, C26, C27, C45, C46 and C55 hold to the last bit as well). For poolings C96_pool_exact says in which order the frames are handed to the pooling function; the claim holds if that does not matter (C96_pool_partial: maxima) and fails for each function for which it does (C96_pool_refuted: averages in floating-point numbers)."
  },
  {
   "property": "C97",
   "status": "partial",
   "theorems": [
    "CoInf.C97_moved_partial",
    "CoInf.C97_conv_refuted",
    "CoInf.C97_conditional_refuted",
    "CoInf.C97_rnn_refuted",
    "CoInf.C97_dilated_refuted",
    "CoInf.C97_learned_partial",
    "CoInf.C97_learned_refuted"
   ],
   "note": "torch's rules for operations across devices are assumed (Model/Device.lean). C97_moved_partial: Sequential and BroadcastReduce, nested in any way, of poolings without dilation, delays, skips, frame-wise layers, attention, fixed positional encodings may be moved at any time; with convolutions over time only to the CPU or between streams; with recurrent layers only between streams. A Conditional may be moved at any time if its branches may. C97_learned_partial: learned positional encodings at any time, if clean_state is not used. Violated: C97_conv_refuted (moved to a GPU in the middle of a stream, every due output raises), C97_rnn_refuted (hidden state stays behind), C97_dilated_refuted (dilated poolings never work on a GPU), C97_learned_refuted (first frame after clean_state on a GPU raises), C97_conditional_refuted (a convolution in a Conditional raises after clean_state and a move to a GPU, since clean_state does not reach it)."
  },
  {
   "property": "C98",
   "status": "partial",
   "theorems": [
    "CoInf.Adopt.C98_sequential",
    "CoInf.Adopt.C98_sequential_raises",
    "CoInf.Adopt.C98_append",
    "CoInf.Adopt.C98_conditional_partial",
    "CoInf.Adopt.C98_parallel_partial",
    "CoInf.Adopt.C98_parallel_refuted",
    "CoInf.Adopt.C98_parallel_converted",
    "CoInf.Adopt.C98_stride_refuted",
    "CoInf.Adopt.C98_residual_refuted",
    "CoInf.Adopt.C98_conditional_refuted"
   ],
   "note": "Sequential and append: proved in full (C98_sequential, C98_sequential_raises, C98_append). Conditional: proved for modules not passed to forward_stepping before (C98_conditional_partial). Parallel and BroadcastReduce: only with auto_delay=False and equal raw strides (C98_parallel_partial). Violated: with the default auto_delay=True every plain module raises AttributeError (C98_parallel_refuted, while C98_parallel_converted accepts the conversions), the stride of a plain nn.Sequential is taken to be one (C98_stride_refuted), Residual raises for every plain module (C98_residual_refuted), Conditional refuses enhanced modules of unregistered types (C98_conditional_refuted). What continual returns is a part of the object here; see C49 for its contents."
  },
  {
   "property": "C99",
   "status": "partial",
   "theorems": [
    "CoInf.Enhance.C99_positional_partial",
    "CoInf.Enhance.C99_keywords_refuted",
    "CoInf.Enhance.C99_numbers_refuted",
    "CoInf.Enhance.C99_string_padding_refuted"
   ],
   "note": "Proved for positional arguments and modules whose stride and padding are sequences or missing (C99_positional_partial). Violated: keyword arguments are replaced by their names (C99_keywords_refuted), numbers as stride raise TypeError and leave the object half enhanced (C99_numbers_refuted), padding='same' breaks forward (C99_string_padding_refuted; that torch refuses a tuple of letters is a hypothesis)."
  },
  {
   "property": "C100",
   "status": "partial",
   "theorems": [
    "CoInf.Edit.C100_edits_partial",
    "CoInf.Edit.C100_no_append_partial",
    "CoInf.Edit.C100_slice_append_refuted",
    "CoInf.Edit.C100_delete_append_refuted",
    "CoInf.Edit.C100_stages",
    "CoInf.Edit.C100_assign_refuted",
    "CoInf.Edit.C100_reduce_refuted"
   ],
   "note": "The code inherited from torch.nn.Sequential is assumed (header of Model/Edit.lean). Proved: edits that keep the names '0', '1', ... (C100_edits_partial), all edits without append (C100_no_append_partial), stages net[:k], net[k:] (C100_stages). Violated: append on a slice replaces a member (C100_slice_append_refuted), append after del before torch 1.12 replaces the last member (C100_delete_append_refuted), assigned modules are not converted and forward_step raises (C100_assign_refuted), slices of BroadcastReduce sum (C100_reduce_refuted)."
  },
  {
   "property": "C101",
   "status": "partial",
   "theorems": [
    "CoInf.Dropout.C101_elements_partial",
    "CoInf.Dropout.C101_features_frame_partial",
    "CoInf.Dropout.C101_features_refuted",
    "CoInf.Dropout.C101_attention_mean_partial",
    "CoInf.Dropout.C101_attention_refuted",
    "CoInf.Dropout.C101_recurrent"
   ],
   "note": "Draws are independent bits with weights; the mean of every statistic is a finite sum. Proved: nn.Dropout and nn.AlphaDropout (C101_elements_partial; a statistic may contain whatever follows the layer), recurrent modules with the same draws per frame and layer (C101_recurrent). Violated: nn.Dropout2d, nn.Dropout3d and nn.FeatureAlphaDropout drop a channel in the whole clip or not at all, but decide anew in each step (C101_features_refuted; each single frame is distributed alike, C101_features_frame_partial); retroactive attention skips dropout in steps (C101_attention_refuted; the step gives the mean, C101_attention_mean_partial)."
  },
  {
   "property": "C102",
   "status": "partial",
   "theorems": [
    "CoInf.Registry.C102_last_registered_partial",
    "CoInf.Registry.C102_other_types",
    "CoInf.Registry.C102_naive_refuted",
    "CoInf.Registry.C102_continual_partial",
    "CoInf.Registry.C102_enhanced_refuted"
   ],
   "note": "Proved for types that are in neither table (C102_last_registered_partial, C102_other_types) and instances of CoModule (C102_continual_partial). Violated: registrations for types in NAIVE_MAPPING or CONDITIONAL_MAPPING are accepted and never used (C102_naive_refuted); modules made continual by forward_stepping are refused or replaced (C102_enhanced_refuted)."
  },
  {
   "property": "C103",
   "status": "partial",
   "theorems": [
    "CoInf.Registry.C103_register",
    "CoInf.Registry.C103_enhanced",
    "CoInf.Registry.C103_define_partial",
    "CoInf.Registry.C103_is_valid",
    "CoInf.Registry.C103_override_partial",
    "CoInf.Registry.C103_unimplemented_refuted"
   ],
   "note": "Proved for register (C103_register), for what derived classes override (C103_define_partial, C103_override_partial) and for forward_stepping (C103_enhanced). Violated: since CoModule itself has a default for every name, derived classes need not implement anything; forward then returns None and forward_step raises AttributeError (C103_unimplemented_refuted)."
  },
  {
   "property": "C104",
   "status": "partial",
   "theorems": [
    "CoInf.Args.C104_conv_partial",
    "CoInf.Args.C104_conv_single_refuted",
    "CoInf.Args.C104_string_refuted",
    "CoInf.Args.C104_pool_partial",
    "CoInf.Args.C104_pool_single_refuted"
   ],
   "note": "How torch reads its arguments is assumed (header of Model/Args.lean). Proved for numbers and full sequences (C104_conv_partial, C104_pool_partial with the default stride). Violated: sequences of length one change the spatial stride and padding of forward_step (C104_conv_single_refuted, C104_pool_single_refuted); padding given as a string is taken for a sequence of letters (C104_string_refuted)."
  },
  {
   "property": "C105",
   "status": "partial",
   "theorems": [
    "CoInf.Carry.C105_values_partial",
    "CoInf.Carry.C105_dtype_refuted",
    "CoInf.Carry.C105_device_refuted",
    "CoInf.Carry.C105_frozen_exact",
    "CoInf.Carry.C105_modes_exact",
    "CoInf.Carry.C105_tied_refuted",
    "CoInf.Carry.C105_distinct"
   ],
   "note": "Defaults of torch's constructors and copy_ are assumed (header of Model/Carry.lean). Proved for values, types and devices of networks whose convolutions have the default type and device (C105_values_partial), and that nothing is shared that was not (C105_distinct). Violated: convolutions of another type or on another device (C105_dtype_refuted, C105_device_refuted), frozen parameters (C105_frozen_exact: kept exactly if no converted parameter is frozen), evaluation mode (C105_modes_exact: kept exactly if all converted members are in training mode), shared parameters (C105_tied_refuted)."
  },
  {
   "property": "C106",
   "status": "partial",
   "theorems": [
    "CoInf.Carry.C106_untouched_partial",
    "CoInf.Carry.C106_independent_partial",
    "CoInf.Carry.C106_shared_refuted",
    "CoInf.Carry.C106_raised_refuted"
   ],
   "note": "Proved for all tensors and for all objects that are not mapped as they are (C106_untouched_partial, C106_independent_partial). Violated: members mapped as they are (activations, normalisation, dropout) are the same objects in both networks (C106_shared_refuted), and are changed although the conversion raises (C106_raised_refuted)."
  },
  {
   "property": "C107",
   "status": "partial",
   "theorems": [
    "CoInf.C107_stream_partial",
    "CoInf.C107_front",
    "CoInf.C107_first_exact",
    "CoInf.C107_warmed_exact",
    "CoInf.C107_warm_raises",
    "CoInf.C107_warm_attention_raises",
    "CoInf.C107_strict_exact",
    "CoInf.C107_warm_residual_raises",
    "CoInf.C107_warm_refuted"
   ],
   "note": "Behaviour of torch is assumed (header of Model/Typed.lean); dilated poolings and positional encodings are left out. Proved without warm_up, and with warm_up for single precision on the CPU (C107_stream_partial); convolutions take frames from every device (C107_front). Violated after warm_up otherwise: delays and poolings convert all frames to single precision on the CPU from then on (C107_warmed_exact, C107_warm_refuted), convolutions of another type and attention of another type or device raise in warm_up (C107_warm_raises, C107_warm_attention_raises), residual connections on a GPU raise at the first result (C107_warm_residual_raises). More generally the first frame decides about all later ones (C107_first_exact); recurrent modules and attention take only frames like their weights (C107_strict_exact)."
  },
  {
   "property": "C108",
   "status": "partial",
   "theorems": [
    "CoInf.C108_restored_partial",
    "CoInf.C108_raised_exact",
    "CoInf.C108_direct",
    "CoInf.C108_layered",
    "CoInf.C108_raised_refuted",
    "CoInf.C108_loop_refuted",
    "CoInf.C108_class_refuted"
   ],
   "note": "Attributes without setters, and the registries of nn.Module are left out. Proved for blocks without exceptions if the way to an attribute does not lead over that attribute (C108_restored_partial); that is so for names without dots (C108_direct; all uses in the library) and for acyclic objects and plain values (C108_layered). Violated: exceptions (C108_raised_exact, C108_raised_refuted), loops (C108_loop_refuted), and attributes of the class become attributes of the object (C108_class_refuted)."
  },
  {
   "property": "C109",
   "status": "partial",
   "theorems": [
    "CoInf.C109_kept_partial",
    "CoInf.C109_function",
    "CoInf.C109_stream",
    "CoInf.C109_single",
    "CoInf.C109_less_bias",
    "CoInf.C109_more_bias",
    "CoInf.C109_other_size",
    "CoInf.C109_mode_refuted",
    "CoInf.C109_initial_refuted"
   ],
   "note": "Proved: sizes, options and parameters, converted to the type and device of `out_proj` or to those asked for (C109_kept_partial); hence the same function and streams (C109_function, C109_stream, C109_single; streams for packed projections without learned key and value and zero pair, as C64). Options that drop biases or change the size raise (C109_less_bias, C109_other_size). Violated: modes and frozen parameters are not kept (C109_mode_refuted; exactly: all is in training mode and trainable), and a learned key and value that the original has not are random (C109_more_bias, C109_initial_refuted)."
  },
  {
   "property": "C110",
   "status": "partial",
   "theorems": [
    "CoInf.C110_exact",
    "CoInf.C110_dropped_partial",
    "CoInf.C110_refuted",
    "CoInf.C110_flush_refuted",
    "CoInf.C110_reductions"
   ],
   "note": "Proved exactly: what each network does is decided by its members, the first of a sequence that is not pointwise and all branches of a reduction (C110_exact; C110_reductions: the reductions of the library meet its condition); where nothing raises, such chunks can be left out of every script (C110_dropped_partial). Violated: recurrent modules, attention and functions of single frames raise (C110_refuted), and with `pad_end` convolutions, poolings and delays that pad raise IndexError, so that a stream cannot be ended by a chunk without frames (C110_flush_refuted)."
  },
  {
   "property": "C111",
   "status": "partial",
   "theorems": [
    "CoInf.C111_step_partial",
    "CoInf.C111_stream_partial",
    "CoInf.C111_stride_refuted",
    "CoInf.C111_kernel_one_refuted",
    "CoInf.C111_bias_refuted",
    "CoInf.C111_fill_refuted"
   ],
   "note": "Proved for temporal stride 1, temporal kernels of at least two entries, `temporal_fill=\"zeros\"` (or states that are there already), and no bias, no spatial axes or one channel: one step (C111_step_partial) and streams (C111_stream_partial). Violated in all other cases: with a temporal stride the code raises at the first result (C111_stride_refuted), with a temporal kernel of 1 always (C111_kernel_one_refuted), biases are added to the last axis instead of the channels (C111_bias_refuted), and `temporal_fill` is ignored (C111_fill_refuted)."
  },
  {
   "property": "C112",
   "status": "partial",
   "theorems": [
    "CoInf.C112_stream",
    "CoInf.C112_forward",
    "CoInf.C112_clip_partial",
    "CoInf.C112_longer_refuted",
    "CoInf.C112_shorter_refuted"
   ],
   "note": "Construction, geometry and streaming (C112_stream), `forward` (C112_forward), and end padding for clips of exactly K frames (C112_clip_partial). Violated for all other clips: `forward` pools the whole clip, and `forward_steps(pad_end=True)` raises for every longer clip (C112_longer_refuted: T frames of the delay meet T-K+1 frames of the branch) and returns `None` for every shorter one (C112_shorter_refuted)."
  },
  {
   "property": "C113",
   "status": "partial",
   "theorems": [
    "CoInf.C113_explicit",
    "CoInf.C113_readme_refuted"
   ],
   "note": "C113_explicit: `forward` agrees, the delays are the padding of m and d, and the spelled-out form returns what the short-hand returns, d minus the padding calls later; so call by call they are the same exactly for d = padding. Violated for the `Delay(2)` of the documentation next to a kernel of 3 with padding 1 (C113_readme_refuted)."
  },
  {
   "property": "C114",
   "status": "partial",
   "theorems": [
    "CoInf.C114_conv_exact",
    "CoInf.C114_conv_bias_added",
    "CoInf.C114_conv_bias_dropped",
    "CoInf.C114_conv_kernel_repeated",
    "CoInf.C114_linear_exact",
    "CoInf.C114_unknown_raises",
    "CoInf.C114_initial_refuted",
    "CoInf.C114_rnn_exact",
    "CoInf.C114_rnn_fewer",
    "CoInf.C114_rnn_more",
    "CoInf.C114_rnn_bias_as_weight",
    "CoInf.C114_rnn_bias_raises",
    "CoInf.C114_rnn_more_bias_raises",
    "CoInf.C114_names_refuted",
    "CoInf.C114_unknown_refuted"
   ],
   "note": "C114_conv_exact, C114_linear_exact, C114_rnn_exact say exactly for which options the result has the parameters of the original (those that keep the shapes of all parameters), and that it then has the options asked for. Violated otherwise: `bias=True` adds random numbers (C114_conv_bias_added, C114_initial_refuted), another kernel size for a pointwise convolution repeats its weight (C114_conv_kernel_repeated), `num_layers` beyond those of the original adds random layers (C114_rnn_more), `bias=False` for an RNN of several layers uses biases as rows of weights (C114_rnn_bias_as_weight, C114_names_refuted), and recurrent modules take unknown options silently (C114_unknown_refuted). What raises: C114_conv_bias_dropped, C114_rnn_bias_raises, C114_rnn_more_bias_raises, C114_unknown_raises; `num_layers` below gives the first layers: C114_rnn_fewer."
  },
  {
   "property": "C115",
   "status": "partial",
   "theorems": [
    "CoInf.C115_delay_partial",
    "CoInf.C115_rf_partial",
    "CoInf.C115_stride_padding_refuted",
    "CoInf.C115_schedule_refuted",
    "CoInf.C115_sequential_refuted",
    "CoInf.C115_data_refuted"
   ],
   "note": "The delay is right, with or without an alternative branch, and results come at the stride of the branch (C115_delay_partial); without padding in the branches, receptive field, padding and delay fit together (C115_rf_partial). Violated: stride and padding are always reported as 1 and 0 (C115_stride_padding_refuted), so strided branches break the reported schedule (C115_schedule_refuted), `Sequential(Conditional(p, a))` reports the padding of `a` as additional delay (C115_sequential_refuted), results depend on frames outside the reported window, and a residual connection around such a Sequential adds the wrong frame (C115_data_refuted)."
  },
  {
   "property": "C116",
   "status": "partial",
   "theorems": [
    "CoInf.C116_retro",
    "CoInf.C116_age_partial",
    "CoInf.C116_first_refuted",
    "CoInf.C116_residual_partial",
    "CoInf.C116_residual_refuted",
    "CoInf.C116_chunk_refuted"
   ],
   "note": "Holds for retroactive attention (C116_retro). For single outputs, `delay` is the age of the query: the result of step `t` is the attention of frame `t - delay` (C116_age_partial), and `Residual(mha)` adds that frame, step by step (C116_residual_partial). Violated for every query but the oldest: the first result comes at step sequence_len - 1, not `delay`, and Sequential(mha) reports another delay (C116_first_refuted), so `Residual(Sequential(mha))` adds the oldest frame of the window instead of the query (C116_residual_refuted), and `Residual(mha)` raises for chunks that give two results or more (C116_chunk_refuted)."
  },
  {
   "property": "C117",
   "status": "partial",
   "theorems": [
    "CoInf.C117_accepts",
    "CoInf.C117_forward_partial",
    "CoInf.C117_frames_partial",
    "CoInf.C117_indices_refuted"
   ],
   "note": "Which options are refused, and how, is exact (C117_accepts). Holds for poolings without `return_indices` (C117_forward_partial) and, for the frames of streams, without `divisor_override` in two dimensions (C117_frames_partial; the consequence of that divisor is C62_divisor_refuted). Violated for `return_indices=True`: the option is dropped silently (C117_indices_refuted)."
  },
  {
   "property": "C118",
   "status": "partial",
   "theorems": [
    "CoInf.C118_shape",
    "CoInf.C118_contiguous_partial",
    "CoInf.C118_position_refuted",
    "CoInf.C118_rest_ignored",
    "CoInf.C118_accepts"
   ],
   "note": "The shape is understood in all forms (C118_shape) and `contiguous` if it is given by name (C118_contiguous_partial). Violated for `contiguous` by position, the first overload: it is dropped, as is everything behind a sequence (C118_position_refuted, C118_rest_ignored). The constructor looks at the first size only; others are refused when the module is used (C118_accepts, exact)."
  },
  {
   "property": "C119",
   "status": "partial",
   "theorems": [
    "CoInf.C119_layers",
    "CoInf.C119_factory_partial",
    "CoInf.C119_regular_refuted",
    "CoInf.C119_names_refuted",
    "CoInf.C119_builtin_refuted",
    "CoInf.C119_unknown_names",
    "CoInf.C119_default_refuted",
    "CoInf.C119_texts"
   ],
   "note": "Exact description of what the layer functions accept and make (C119_layers); unknown names of activations raise (C119_unknown_names). Violated for the kind \"regular\" (None is returned), names of activations in the layer functions, functions of torch written in C++ in single-output layers, and the documented default of sequence_len. device and dtype are not modelled."
  },
  {
   "property": "C120",
   "status": "partial",
   "theorems": [
    "CoInf.C120_report",
    "CoInf.C120_once_partial",
    "CoInf.C120_stepping_refuted",
    "CoInf.C120_conditional_refuted",
    "CoInf.C120_recurrent_refuted",
    "CoInf.C120_convolutions",
    "CoInf.C120_pools",
    "CoInf.C120_linear_partial",
    "CoInf.C120_channels_refuted",
    "CoInf.C120_entries_refuted",
    "CoInf.C120_frames"
   ],
   "note": "Exact report for containers of continual members, formulas for convolutions, poolings and linear maps, and the quotient between clips and steps. Violated for members made by forward_stepping in steps (counted twice), branches of Conditional in steps (not counted), RNN/GRU/LSTM (not registered), Linear with channel_dim in forward, attention with several batch entries, and steps of convolutions without output (AttributeError). The hooks of ptflops itself are assumed as described in Model/Ptflops.lean."
  },
  {
   "property": "C121",
   "status": "partial",
   "theorems": [
    "CoInf.C121_accepts",
    "CoInf.C121_names_partial",
    "CoInf.C121_count",
    "CoInf.C121_defaults_refuted",
    "CoInf.C121_empty_refuted",
    "CoInf.C121_clash_refuted",
    "CoInf.C121_converted_refuted"
   ],
   "note": "Exact description of what is accepted (C121_accepts) and of the names and axes for one name per input and output (C121_names_partial); the number of names has to be right (C121_count). Violated for the defaults and tuples (TypeError), empty lists (all names shifted by one), names of states used for inputs, and modules made by forward_stepping (AssertionError). How torch assigns names and axes is assumed as described in Model/Export.lean."
  },
  {
   "property": "C122",
   "status": "proved",
   "theorems": [
    "CoInf.C122_branches",
    "CoInf.C122_inception",
    "CoInf.C122_mobilenet"
   ],
   "note": "General closure result (C122_branches; its Keeps conclusion allows stacking and nesting), and both blocks with explicit formulas (C122_inception, C122_mobilenet). Batch normalisation is in eval mode (frame-wise)."
  },
  {
   "property": "C123",
   "status": "partial",
   "theorems": [
    "CoInf.C123_counted",
    "CoInf.C123_step",
    "CoInf.C123_stream",
    "CoInf.C123_clip",
    "CoInf.C123_window_partial",
    "CoInf.C123_products_refuted"
   ],
   "note": "Instrumented versions of the calls, which erase to the model's (C123_counted). Constant work per frame (C123_step, C123_stream) and L times the work for a clip (C123_clip) hold for products with frames. Violated for the products that are carried out: a step convolves its frame between K-1 zero frames on each side, K times the products needed, so that one or two convolutions take more products for a step than for a window, three as many, and more than three fewer (C123_window_partial, C123_products_refuted). Assumes that torch multiplies padding too; only convolutions are counted."
  },
  {
   "property": "C124",
   "status": "proved",
   "theorems": [
    "CoInf.C124_network",
    "CoInf.C124_superposition",
    "CoInf.C124_zero",
    "CoInf.C124_bias_needed"
   ],
   "note": "Linear combinations of the entries of a batch commute with every call (C124_network, extending C74 from selections of entries to arbitrary matrices); superposition of any number of streams (C124_superposition), zeros (C124_zero), and why coefficients have to sum to one in the presence of biases (C124_bias_needed). Exact arithmetic; torch's floating point sums agree up to rounding. Linearity of the functions inside frame-wise modules and wrapped torch modules is a hypothesis about them."
  },
  {
   "property": "C125",
   "status": "partial",
   "theorems": [
    "CoInf.C125_refused_partial",
    "CoInf.C125_first",
    "CoInf.C125_accepted",
    "CoInf.C125_first_state",
    "CoInf.C125_steps",
    "CoInf.C125_steps_lengths",
    "CoInf.C125_steps_refused_partial",
    "CoInf.C125_single_entry_refuted"
   ],
   "note": "Refuted by the code in one case: a single-output module with one head whose query index is not that of the newest token takes a query of one entry, in a stream of n >= 2 entries, for n copies of it (C125_single_entry_refuted); key and value may have 1 or n entries. All other frames of other sizes raise and change nothing (C125_refused_partial, C125_first); frames of the right size are accepted and rows step independently (C125_accepted, C125_first_state). Chunks: C125_steps, C125_steps_lengths, C125_steps_refused_partial. The arithmetic of a row is a parameter (instances: retroRow, singleRow)."
  },
  {
   "property": "C126",
   "status": "partial",
   "theorems": [
    "CoInf.C126_padded_partial",
    "CoInf.C126_packed_refuted",
    "CoInf.C126_final",
    "CoInf.C126_final_refuted"
   ],
   "note": "Refuted by the code for packed sequences (C126_packed_refuted: AttributeError for all of them) and for the final hidden state of sequences shorter than the clip (C126_final_refuted; C126_final says what it is). Outputs of padded clips and states of sequences that end with the clip are as claimed (C126_padded_partial)."
  },
  {
   "property": "C127",
   "status": "proved",
   "theorems": [
    "CoInf.C127_step",
    "CoInf.C127_steps",
    "CoInf.C127_forward",
    "CoInf.C127_agree",
    "CoInf.C127_noisy",
    "CoInf.C127_noisy_forward",
    "CoInf.C127_average",
    "CoInf.C127_max",
    "CoInf.C127_relu"
   ],
   "note": "Proved for convolutions with padding smaller than the kernel, average pooling (C127_average), max pooling without padding and rectifiers (C127_max, C127_relu: no further error) and any other pooling, product or activation that comes with an error bound (these bounds are parameters: their own arithmetic is torch's). The bound is explicit (Spec.convErr and the constructors of Spec.Twin). C127_forward bounds the error of forward, and C127_agree bounds the difference of forward and streaming by twice the bound. C127_noisy and C127_noisy_forward are for frames that are themselves off by d. Recurrent layers have to depend on their states with a factor q such that q plus the relative error is smaller than 1 (otherwise errors may grow, see C128_needs_contraction). LSTM and attention are not included."
  },
  {
   "property": "C128",
   "status": "proved",
   "theorems": [
    "CoInf.C128_step",
    "CoInf.C128_steps",
    "CoInf.C128_forward",
    "CoInf.C128_average",
    "CoInf.C128_max",
    "CoInf.C128_relu",
    "CoInf.C128_fades",
    "CoInf.C128_past_fades",
    "CoInf.C128_forgets",
    "CoInf.C128_needs_contraction"
   ],
   "note": "Proved in exact arithmetic (for rounding see C127); padding smaller than the kernel. The bounds on single products, poolings and functions of frames are parameters (Spec.GainConv, GainPool, GainMap, GainCell), which C128_average, C128_max and C128_relu establish for these members. C128_needs_contraction gives a recurrent module without any gain. C128_fades, C128_past_fades and C128_forgets are for recurrent modules with one layer; networks without recurrent layers forget disturbances entirely (C73). LSTM, whose output is not its state, and attention are not included."
  }
 ]
}
