# Formal model of Xilinx/brevitas in Lean 4: design

## Layout

* `lean/Verif/Model/*.lean`: the model. Every definition cites the file and lines of `/repo` it models and says where it simplifies.
* `lean/Verif/Spec/*.lean`: small specifications, written without the model (grid, nearest point, representable minifloat, ...).
* `lean/Verif/Lemmas/*.lean`: helper lemmas.
* `lean/Verif/Props/*.lean`: the property theorems, one file per topic, with `example`s that meet their hypotheses.
* `properties.jsonl`: the properties; `MANIFEST.json`: property -> theorems; `seeded/LOG.jsonl`: mutation experiments.

## Numbers

Tensor elements belong to an arbitrary linearly ordered field `K` with a floor function (so the theorems hold for `ℚ`
and `ℝ`), or to `ℝ` where the code uses a power, a logarithm or a square root of arbitrary numbers; concrete
witnesses are computed over `ℚ`. Log-domain values that may be minus infinity are `WithBot ℝ`. Every finite float is a rational, so inputs are covered, but *rounding of intermediate
results* in IEEE arithmetic is not modelled: the theorems are about the algorithms in exact arithmetic.
Infinities and NaN are modelled as explicit constructors where the code inspects them (minifloat clamping).
`torch.round` is modelled as round-half-to-even, `floor`/`ceil` as the mathematical functions.
Tensors are lists or functions of an index; element-wise code is modelled on one element with the parameters that
broadcast to it, and tensor level statements quantify over lists / index functions of any size.

## Plan per property

| id | modelled code | proof |
|----|---------------|-------|
| C01 | ops.min_int/max_int/tensor_clamp, IntQuant.to_int | clamp bounds; cardinality of the interval |
| C02 | IntQuant.forward, DecoupledIntQuant.forward | integer-valued clamp of an integer-valued rounding |
| C03 | same | round(n) = n and clamp(n) = n on codes |
| C04 | same + round half even | nearest integer lemma + projection lemma for clamps |
| C05 | same, five rounding functions | composition of monotone maps |
| C06 | same | integer bounds against rounding |
| C07 | same | round(zp) = zp; oddness of round half even, clamp to a symmetric interval |
| C08 | ops.py rounding functions | case analysis on the fractional part |
| C09 | tensor_clamp, tensor_clamp_, ScalarClamp | case analysis, list induction |
| C10 | AbsMax, IntScaling, RescalingIntQuant | every |x| <= max, hence x/s within the threshold |
| C11 | restrict/clamp pipeline | max with min value; monotonicity of 2^x over ℝ |
| C12 | PowerOfTwoRestrictValue, injectors of fixed_point.py | existence of the exponent; negation for the mis-configured per-channel quantiser and for RuntimeDynamicGroupStatsScaling |
| C13 | AbsMinMax, NegativeMinOrZero, zero point | interval arithmetic |
| C14 | _DelayQuant | induction over call lists |
| C15, C16 | ParameterFromRuntimeStatsScaling state machine | induction over call lists with a mean invariant |
| C17 | state_dict / load | case analysis on the counter; negation for the un-initialised case if found |
| C18, C19 | bit width parameters | rounding lemmas |
| C20, C21 | A2Q / A2Q+ scaling, round-to-zero | l1 norm bound, then worst-case dot product by list induction |
| C22-C24 | FloatQuant, float_internal_scale, FloatClamp | binade analysis with `Int.log 2` |
| C25 | get_max_available_float etc. | induction on mantissa codes |
| C26 | BinaryQuant, TernaryQuant | case analysis |
| C27 | TruncIntQuant | floor/shift lemma, bounds |
| C28-C32 | IntQuantTensor operations | integer bounds; negations with witnesses where the declared width is too small |
| C33 | max_acc_bit_width_* | worst-case sums by induction; negations with witnesses |
| C34 | quant_layer | bilinearity of sums |
| C35 | padding, group views, shape solvers | list/shape arithmetic |
| C36 | percentile ops | sorted lists, counting |
| C37, C57 | MSE and HQO searches | fold invariants |
| C38 | LearnedRound, stochastic round | case analysis |
| C39 | GPTQ.update_batch | induction over batches |
| C40 | GPTQ.single_layer_update | loop invariant; block/unblocked equivalence |
| C41 | GPFQ.single_layer_update | telescoping induction; quadratic minimisation |
| C42, C43 | cross layer equalisation, with residual sums and concatenations | invariants of the walk that finds the regions, with the position of each channel; sums over channels, positive homogeneity; real powers |
| C44 | merge_bn | ring identities per channel |
| C45 | _split_channels, the regions kept, networks with concatenations | list induction on the split list; a closed region whose layers agree on the channel count contains no concatenation |
| C46 | CollapseConsecutiveConcats, MoveSplitBatchNormBeforeCat | list lemmas; negation for repeated operands / eps |
| C47 | _BiasCorrection | induction over batches |
| C48 | calibration_mode, DisableEnableQuantization, gpfq_mode | state records; negations where a flag is lost |
| C49, C50 | QCDQ export handlers, inference handlers | clamp composition, tie analysis; negation for odd zero points |
| C51 | AdaptiveAvgPoolToAvgPool | window arithmetic |
| C52 | STE ops (forward value and declared backward) | unfolding against independent specs |
| C53 | weight proxy caching | induction over histories |
| C54 | get_quant_weights index conversion | mixed radix induction |
| C55 | BitWidthWeighted | fold invariants |
| C56 | replace_all_uses_except | list map lemmas |
| C59 | MX quantisers (mx_quant_ocp.py), RuntimeDynamicGroupStatsScaling | power of two ceiling |
| C60 | _RuntimeStats | induction over call lists; negation for resume |
| C58 | injector attribute resolution | fuelled resolution, override lemma |
| C61 | FloatQuantTensor is_valid, minifloat | multiples of smaller powers of two; negations for large scales and extra bits |
| C62 | FloatQuantTensor __neg__, __abs__ | from the round trip; negations |
| C63 | FloatQuantTensor.cat and its checks | list induction; negations for formats without infinities and single differences |
| C64 | quant_invariant_handler and the functions it wraps, on shaped tensors with broadcast metadata | pointwise codes; negations for limits off the grid, dropout in training, per-channel pixel shuffle |
| C65 | IntQuantTensor transpose, permute, view, reshape, flatten | permutation and broadcasting lemmas; negations for lower rank and per-channel metadata |
| C66 | QuantRNN and QuantLSTM: cells, layers, stacks, gate slicing at load | refinement to the recurrence of Spec/Recurrence.lean, induction over time and layers; negation for states given to deep one-directional stacks |
| C67 | the same, quantised | induction over sequences, conjugation of the layer loop by swapping / picking |
| C68 | the same with integer output quantisers | invariant over time steps and layers |
| C71 | disabled quantisers in recurrent layers | negation, and what disabling does |
| C69 | which weight object each gate of each direction holds | case analysis; negations for LSTM |
| C70 | key rewriting of QuantRecurrentStackBase._load_from_state_dict on lists of characters | substring lemmas, induction over the items; negations |
| C72 | FloatInferencetHandler and FloatWeightInferencetHandler beside the evaluated minifloat quantiser | case analysis on the clamps; iff theorems for reserved codes and overflow |
| C73 | are_inputs_unsigned on dependency trees, the quantiser chosen, the values computed | mutual induction on the tree; negations with an arbitrary unsigned integer quantiser |
| C74 | are_inputs_quantized_and_aligned with its accumulator | mutual induction with the listed quantisers as invariant; negation for buffers |
| C75 | `activation_equalization_mode(layerwise=True)`: the calibration hook, the factors, the inserted `ScaleBias` with its broadcast shape, the scaled weights, `EqualizedModule` | Broadcasting lemma for the inserted multiplication, then linearity of the layer in each input channel; negations by concrete tensors |
| C76 | Same model | Induction over calibration inputs for the recorded maximum; positive homogeneity of the statistic; square roots |
| C77 | The projection onto the l1 ball of `ep_init.py`: sort, cumulative sums, last index, threshold; the loop over channels; the update of the learned norm | The threshold leaves exactly the radius (sorted list split at the index found); variational inequality per element, summed |
| C78 | `QuantMultiheadAttention` over real tensors of any shape: projections, mask preparation, heads, scores, softmax with hidden positions, learned and zero positions, output projection, returned weights; against attention written per head and position | Each tensor operation is shown to represent a function of head, position and feature; the composition gives the specification; disagreements by concrete modules |
| C79 | State dicts as lists of items in order, edited while a snapshot is walked | Induction over the snapshot with the dict known up to permutation; substring matches under a common path reduce to matches of the names; sums in any order by commutativity |
| C80 | Decoder layers of OPT and Llama as maps from submodule names to linear layers and norms; the scales applied in the order they are found; the forward pass written out separately for any attention weights | The rows reaching every layer are related (equal, or divided by the scales) and the relation is carried through the layer |
| C81 | The grid search with each weight, the tensor saved for it and whether they share memory | Invariant of the fold over the ratios: the saved weights and the first minimum so far; on the CPU the first in-place product reaches the saved tensor |
| C82 | `pseudo_quantize_tensor` on flat tensors of any shape | Rounding error and monotonicity of the rounding; the zero point is not clamped when the range includes zero; the tie at both ends is off by exactly half a step |
| C83 | `auto_clip_layer`, `auto_clip_block` and `apply_clip` | Quantisation works on each group alone; invariant of the fold over candidates per group; candidate zero is no clipping |
| C84 | `merge_layernorm_affine_params` on graphs of calls, sizes and functions; the value of every node as a fixed point of the graph | Invariant over the list of (norm, user) pairs done; strong induction over nodes |
| C85 | The QONNX handlers and the functions attached to the exported nodes; the proxies' attributes and the cached bias scale | The exported function is evaluated for each kind of quantiser; repeating the quantisation of a weight is shown to be the identity on its output for every rounding mode; negations for one-bit integer quantisers, other ternary thresholds, and biases of layers called with several scales |
| C86 | The pass over the nodes of a graph and the table of modules by name, with the names it makes up; a run of the graph for every meaning of functions and methods | The names of copies are injective; invariant of the loop over names; the clashes that remain are shown by concrete graphs |
| C87 | Python's binding of arguments (a separate specification), `getcallargs`, the split of the arguments between constructor and call | Binding commutes with evaluating the arguments; the bound list has the parameters as distinct keys and one tensor, at its head or not |
| C88 | The dictionary of layers, hooks, counter and set of current layers of `gpxq_mode`; a network is the sequence of calls it makes for given weights and batch; the optimisation of a layer is a parameter | Refinement: the loop of rounds equals a sequential procedure that knows nothing of hooks (separate specification), by induction over the groups with an invariant on hooks, counter and collected inputs |
| C89 | `pack_int_weights` on a row, byte arithmetic included | codes as digits of a byte, disjoint bits OR as a sum; bit streams by chunk induction; signed nibbles and partial chunks lose codes |
| C90 | scale and bias layers with shapes and broadcasting; loading of state dicts with missing and unexpected keys; `mul_add_from_bn` | unfolding, index arithmetic of broadcasting; the one-dimensional layer has the view shape of the two-dimensional one and strict loading raises |
| C91 | `norm_correction_mode` and the update of running statistics, one channel | induction over the batches (running sum invariant), algebra of square roots; the variance is the geometric mean with the old one |
| C92 | Modules as a heap of objects with named children; the search for layers, the first name of an instance and the replacement of a child | Invariant over the list of rewriters: names without a replaced prefix are unchanged, replaced names refer to fresh objects; induction over paths. Shared modules, and a model that is a layer, are counterexamples by evaluation |
| C93 | The graph with nodes, names and modules; the check, the collection of rewriters, the rewriters and the loop with its limit | Invariant of the rewriters of one addition (every input is quantised or covered by a rewriter that is still to be applied), frame conditions for the other additions, then induction over the additions left. That nothing else changes is proved for every graph. Failure for the method `transpose` is proved for every graph; overlapping additions and `relu + cat` by invariants of an endless loop |
| C94 | The graph of C93 with the classes of modules and the list of nodes; the handlers for inputs, for the outputs of additions, and for layers, node after node | Every insertion and replacement refines the graph: old nodes keep what they call, edges go through new quantisers only, quantisers stay quantisers. What is quantised or requantised stays so under refinement; then induction over the nodes. That a layer called twice raises is proved for every graph |
| C95 | The view, concatenation, statistic and reshaping that turn the weights of the layers sharing a quantiser into a scale (`ChannelScale.weightStats`), per channel and per tensor, and an integer quantiser using it; grouped transposed convolutions and `MAX_AVE` included. | Row `c` of the permuted and reshaped weight is a permutation of the elements whose index along the channel dimension is `c` (both lists have no duplicates and the same members); concatenation appends rows; the scale's shape has one entry per channel, read by broadcasting at the element's own channel. Negations: grouped transposed convolutions raise, `MAX_AVE` shared by layers with different fan-in raises. |
| C96 | The three `same` padding functions and the choice of them (`SameConv.innerForward`), on top of `F.pad` and `F.conv*d` as documented by torch (Spec/Conv). | Arithmetic of the padding per axis (`padAmount`, `convSize`), reading of the padded tensor equal to reading the input continued by zeros, windows inside the padded input. Negation: the three-dimensional function does not pad when only the depth needs it. |
| C97 | `quant_layer`, `quant_output_scale_impl`, the zero point made of the bias and the scale computed by the proxy of the bias quantiser, on tensors with shapes; linear layers, convolutions and transposed convolutions are specified in `Spec/LayerFn.lean` | sums of products of codes factor through the scales, the views are evaluated by indices; missing for quantised biases: convolutions with one weight scale per channel, where the bias ends up in the zero point (proved) because a flat scale is compared with a shaped one; missing for the reading of integers: transposed convolutions (C33) |
| C98 | `forward_impl` of quantised layers with the proxies of input, weight, bias and output, over the layers of C97 (`Model/WbLayer.lean`); exceptions told apart | case analysis of the stages; integers by C97's core lemma; the error bound by writing every layer as a sum of products over pairs of indices (`LayerFn.terms`) and perturbing the factors |
| C99 | `jit_inference_trace`, `export_onnx`, `ExportContext`, `_cache_inp_out`, the setter of `export_mode` and the functions that override and restore flags, as programs over a state that keep their changes when they raise (`Model/ExportRun.lean`); forward passes, handlers and tracing are arbitrary functions of the state | every loop over modules acts on each module by an idempotent function (`Maps`), so that repeated visits do not matter; invariants of all outcomes (`Keeps`) carry through histories; what raises where by case analysis |
| C100 | `IntQuant` on viewed tensors with broadcast scales and zero points, the group statistics, `GroupwiseIntQuantTensor` (expand, value, scale, zero point, validity, `int()`), the weight and activation proxies enabled and disabled, calibration mode, metadata caching | index arithmetic: the view of a tensor of shape `pre ++ n :: post` is characterised index by index, the reductions and broadcasts too; the properties then follow from the scalar quantiser |
| C101 | `quant_inference_mode` on a tree of modules: entering, the forward hook, calls with any outcome, leaving; forward passes, handlers and caches are arbitrary functions | loops in closed form; the state inside a block is in one of three phases (hook pending, switch failed, switched), kept by every call; leaving is computed from each |
| C102 | `quant_weight` whole and by slices on layers with tensors of any shape, the slicers of the learned rounding as objects with state, `SliceTensor` eagerly and under TorchScript, the integer quantiser with broadcasting, the proxy with its cache, `get_quant_weights` of GPxQ | slices are characterised by an offset and a length per dimension; broadcasting reads the same element of a scale before and after a shift along dimensions it does not vary in; an invariant of the layer (no slice pending, right list of slicers) carries through histories |
| C103 | `QuantEltwiseAdd`, `QuantCat`, `QuantEmbedding`, `QuantInputOutputLayer.__init__`, and `__add__`, `cat` and `embedding_handler` on tensors with a shape | broadcasting two tensors against each other (the operands broadcast to the result, reading through an intermediate shape); induction over the tensors of a concatenation; the codes of the quantiser are those of C98 |
| C104 | the activation layers of `nn/quant_activation.py` with their fused activation proxy: which activation survives construction, quantiser on, off or absent, input quantiser, metadata passed through | the layer is the quantiser of C98 after the float activation; monotonicity and fixed points of the integer quantiser; clamping before and after compared by cases |
| C105 | `nn/quant_upsample.py` on tensors with a shape; torch's `interpolate` (output sizes, taps and weights of every mode) is a small specification of its own | an interpolated value is a weighted mean of elements of the same channel, hence between two codes, and rounding keeps it there; exact arithmetic of source indices for whole factors |
| C106 | `nn/hadamard_classifier.py` with Sylvester's recursion for the matrix and any non-negative function for the square root | induction over the recursion for the rows; the bound on a sum of signed codes against the declared width |
| C107 | `nn/quant_avg_pool.py` with the pooling of `Model/Pool.lean` on each channel, the handlers of the quant tensor, the truncation quantiser on tensors, and the order of assignments in the constructors of `nn/quant_accumulator.py` | window sums from C51, bounds of a sum of codes, faithful rounding; induction-free arithmetic of the declared width for powers of two |
| C108 | Model/Preset.lean: the settings of the shipped classes (quant/base.py fragments combined as in the class statements), the solvers that turn settings into a quantiser (rounding, width, granularity, statistics, restriction, threshold, zero point), and what quant_weight() returns | Statistics of the weights sharing a scale from C95; general theorems for any settings with the stated values, then one corollary per class; congruence of the solvers for overrides; logarithms over the reals for fixed point |
| C109 | Model/FloatPreset.lean: the settings of the shipped minifloat classes, what the OCP and FNUZ mixins make of the widths, the constructor of the quantiser, the scale and the quantised weight with infinities and NaN, and the recognition of formats used by the exporters | the numbers of each format against `Spec.floatValue` by cases (E4M3, E5M2, no special codes); scale bounds bring every weight in range, so C23 and C24 apply |
| C110 | `Model/GroupFloat`: views, scales per group, element-wise minifloat quantisation, `expand`, the two proxies, the MX settings (logarithms over ℝ) | index arithmetic of the padded view (`Lemmas/GroupQuant`); closeness and error bound from C23 per element; the power of two from C12; negations for the last dimension, for MX activations and for quant tensors passing a disabled proxy |
| C111 | `Model/GroupFloat`: `+`, `*`, `/`, `-`, unary operations up to the call of `float_internal_scale` | element-wise for `+`, `*`, `/`; negation for the rest: the call lacks an argument and raises |
| C112 | `Model/Generative`: the parser of format names, the tables of quantisers, every option that `generate_quantizers` sets, the positional call in `quantize_model` | settings that the options produce, by evaluating the table, then the general theorems about settings (C108, C109); the parser on all 192 names of formats; negations for the clipped positive peak, power-of-two scales per channel, bare formats and `quantize_model` |
| C113 | `Model/Dynamic.lean`: the views, statistics and broadcasting of `RuntimeDynamicStatsScaling` and `RuntimeDynamicStatsZeroPoint` on tensors of every shape, the integer quantiser with IEEE quotients by zero, and what is built from the options of `generate_quantizers` | `Spec/Sharing.lean` says which elements share a scale; the statistic of the flattened view at a broadcast index is shown to be that of these elements, then errors follow from the extremes as for weights |
| C114 | FP8 handlers of the ONNX QCDQ export: `validate`, `signed_dtype`, `zero_point_with_dtype`, symbolic arguments and execution; the nodes interpreted with the runtime's casts as a parameter (`Spec.Conforms`) | minifloat rounding of a saturating quantiser is the nearest cast with ties to even (`C23_ties_to_even`); casts are unique because between two numbers with even mantissas lies a third; the flattened scale read along the exported axis is the broadcast scale (C49) |
| C115 | `value_trace`: the model as a program over objects and a state (operations are a parameter), proxies with values, lazily read attributes, parameter cache, patched functions, leaf modules, placeholders; graphs and their execution | simulation of the graph recorded so far against the model on any input with the same decisions (`Sim`), and of the values carried by proxies against the model on the traced input (`Val`), both by induction on the program; witnesses for each proviso |
| C116 | FlexML layers: average pooling of quant tensors with its quantised divisor (kernels, strides, padding, ceil mode), the leaky ReLU with its three quantisers, the calibration of the slope quantiser shared by layers, the entry of the act map | windows as padded sums; the divisor from the first call of a runtime scale (C15); Lipschitz bounds of the quantisers; the calibration invariant of C15 on the interleaved history; witnesses for each proviso |
| C117 | `Model/SpreadStats`: variance with Bessel's correction, `_MeanSigmaStdImpl`, the learned variant with the names of its parameter, `AbsMaxL2`; `absAve`, `absMaxAve` of `Model/Stats` | Cantelli's inequality on lists (second moment of an affine function), Markov's inequality, quadratic mean; half a step from C04, channels from C95 |
| C118 | `Model/KlThreshold`: histogram, candidate ranges, outliers, merged and expanded bins, smoothing, categorical divergence, argmin | `Spec/KlDivergence` defines clipped and quantised histograms by counting and the divergence of softmax distributions; the loops are shown equal to it, the fold to the first minimum |
| C119 | `Model/GptqInput`: the processing of inputs in `GPTQ.update_batch` for linear layers, convolutions and transposed convolutions, by group | `Spec/Unfold` defines the unfolding, the rows of a weight and the squared change of the outputs; every output difference is shown to be a scalar product with an unfolded column, the sums are exchanged, C39 gives the accumulated matrix |
| C120 | `Model/GpfqInput`: drawing of indices, unfolding with the code's stride, filtering, the two passes per batch; linear rows | induction over the batches with the drawn indices as invariant; window and output are compared by division with remainder |
| C121 | `Model/GpfqV2`: scaling of the unfolded inputs, H and G, the pending quantised input, the two passes per batch | `Spec/PairDistance` defines the distance of outputs on two inputs; each output is shown to be a scalar product with a collected row (`Lemmas/GpfqV2`), the squares are expanded over the list of pairs of rows, which is an invariant of the run |
| C122 | `Model/RemoveStochastic`: the pass over the nodes on the graphs of Standardize; `Model/MeanPool`: matching, rewriting and the new nodes for one call of `mean` | a run is characterised node by node, then induction over the nodes to be visited; global window and reshape of the pooled tensor; the original call is pinned down from the arguments left |
| C123 | `QuantLSTMLayerHandler` (`prepare_for_export`, `symbolic_execution`), `LSTMCellFn.symbolic`, the export branch of `_QuantLSTMLayer.forward`, the parameters of `BrevitasQuantLSTMCellFn.symbolic` | A specification of the ONNX operators LSTM and Squeeze; the stacked gates carry the parameters of the cell, so the operator's recurrence is the cell's; the squeezed axis decides whether the graph is valid |
| C124 | `rename_state_dict_by_prefix`/`_by_postfix`, the loaders of `QuantNonLinearActLayer` and of the runtime scalings, `ConvertRuntimeStatsToParameter`, `load_quant_model_mode` with `QuantWeightBiasInputOutputLayer._load_from_state_dict` | An invariant of the renaming loop over the collected keys; the loaded parameter restricted again gives the scale the statistic gave; cases on the bias of the layer and the mode |
| C125 | `ActFloatQuantProxyFromInjector` (`forward`, `create_quant_tensor`, `retrieve_attribute`), `_CachedIOFloat` | Cases on activation, quantiser and kind of input; the format of the output from C22; induction on the history for the cache |
| C126 | `DecoupledWeightQuantWithInputProxyFromInjector.forward` with `quant_weight` and the forward pass of a layer, as a state machine | Invariants over histories (configuration, positive scales, the cached input), then C20 and C21 for each channel |
| C127 | Bias proxy with modes, caching, cached scale and tracked modules; histories of passes, questions and setters. Spec: settings and recorded scale read off the history alone. | Induction over the history: the cached scale is the recorded one; then C02 and C04 for the values. |
| C128 | `LearnedRound`: a layer is its weight elements with scales and zero points, the learned parameters of its rounding and the training flag; the optimiser is an arbitrary function on the parameters. Loss, schedule, insertion, per-layer loop and traversal of the module tree are modelled. | Induction over the iterations and over the module tree; real-analysis facts on powers for the loss; the clamp is 1-Lipschitz, so the rounding loss bounds the step from soft to hard rounding. |
| C129 | Quantisers as classes of the injection model, keywords as strings; the mixins' constructors and those of layers, activations, attention and recurrent layers. | Prefix filtering commutes with lookup; case analysis on the kind of quantiser given; composition of the prefixes. |
| C130 | AffineScale: construction of the learned factor, scale from statistic, factor and threshold, the batch-quant activations as a state machine (running statistic, factor, mode) | Direct computation for one scale; induction over the history with the running average of C60 and the channel views of C95; negations for the shift and for logarithmic scales |
| C131 | FusedAttn: parameters by name and shape, the conversion of state dicts, strict loading, fused linear layers and chunks on sequences of tokens; what follows is an arbitrary function | Lookups after updates of the dict; rows of a concatenation; chunks of a concatenation of equal parts |
| C132 | LastReturn: graphs as lists of nodes with module calls and their `return_quant_tensor`; runs as sets of nodes whose value is a quant tensor | Invariant of the reversed loop; induction over the execution order on where a quant tensor can come from; chains as a special case |
| C133 | Perplexity: batches as lists of rows of tokens, the language model as any function to logits, mean cross-entropy, the loop of `model_eval` | Windows by induction on their number; loss of a window as minus the log of a product of probabilities; induction over windows; `exp` and real powers |
| C134 | OptAttn: `repeat`, `view` and the mask handler on tensors with shapes, the forward of the wrapper over the attention layer of C78 | Element law of the three repetitions and the view; composition with the attention theorem, which reads the mask only inside the bounds |
| C135 | Rewriter: modules as dicts of attributes, the steps of `_init_new_module` on dicts, calls of classes with defaults, signatures of the layers | Laws of dict lookup under set, filter, map and update; instances for the signatures of linear layers and convolutions |
| C136 | names, numbered tensors with formats and values, the recorded dictionary, the first-name rule of `named_parameters`, an arbitrary block | induction on the names for the first-name rule, then on the restoring loop: each tensor is written exactly once |
| C137 | forward and backward of the loss on numbered elements over the reals | the square of the positive part is differentiable everywhere (at 0 by a little-o estimate), chain rule and sums |
| C138 | autograd coefficients (duals) through learned value, restriction, integer range, division, rounding and clipping over the reals | each dual operation tracks an ordinary function with its non-smooth parts frozen; the chain of derivatives is then a derivative, and closed forms follow |
| C139 | autograd coefficients (duals) through scaling, the exponent of each element, rounding and clipping over the reals | closed form of the gradient; the floor of the logarithm passes gradients too, which makes the coefficient the ratio of output and input; bounds from the rounding error |
| C140 | autograd coefficients (duals) of all weights that share a scale, through maximum, restriction, rounding and clipping over the reals | closed form with the share of each largest weight; sums over the weights |
| C141 | trees of modules with numbered (shareable) tensors; `state_dict` and `load_state_dict` of PyTorch with the overrides of constants and tracked parameters | induction on the tree: keys of a checkpoint, tensors after loading, missing keys |
| C142 | autograd coefficients (duals) through the steps of truncation over the reals | closed form, and derivative (`HasDerivAt`) of the truncation with rounding errors held |
| C143 | integer quantiser with stochastic rounding on a list of elements with the outcomes of their draws | expectation over independent draws by induction on the list; exact mean and variance |
| C144 | decoupled quantiser of one channel with the norm of its weights and the learned norm, over the reals | algebra on the pre-scale, then the facts on rounding and clipping |
| C145 | autograd coefficients (duals) of the weights of a channel through norm, pre-scale, rounding and clipping over the reals | closed form of the coefficients; sums over the weights |
## What is modelled

| module (`Verif/Model`) | code (`src/brevitas`) | simplifications |
|---|---|---|
| Ops | function/ops.py, core/function_wrapper (clamp, ops_ste) | exact arithmetic; one element at a time |
| IntQuant | core/quant/int_base.py | scale, zero point and bit width are the values that broadcast to an element |
| Stats, Scaling | core/stats/stats_op.py, core/scaling, core/restrict_val.py, core/zero_point.py, relevant injectors of quant/ | a reduction group is a list |
| Runtime | core/quant/delay.py, core/scaling/standalone.py, core/stats/stats_wrapper.py, core/zero_point.py, core/bit_width | modules are state machines over training and inference calls, saves and loads |
| A2Q | core/scaling/pre_scaling.py, core/quant/int.py, core/zero_point.py | one output channel |
| Float | core/quant/float.py, core/function_wrapper/clamp.py, utils/float_quant_utils.py | infinities and NaN are explicit |
| BinTern | core/quant/binary.py, ternary.py, TruncIntQuant of int.py | none beyond exact arithmetic |
| QuantTensor | quant_tensor/int_quant_tensor.py, base_quant_tensor.py | one-dimensional value, per-tensor parameters |
| Accum | quant_tensor/int_torch_handler.py, proxy/parameter_quant.py, nn/hadamard_classifier.py, quantised linear forward | shapes enter as the numbers of operands |
| Shape | core/function_wrapper/shape.py, quant/solver, quant_tensor/groupwise_int_quant_tensor.py, get_quant_weights of graph/gpxq.py | tensors are a shape and a row-major list |
| Search | MSE and HQO searches and percentiles of stats_op.py, learned and stochastic rounding | the loss is a parameter where only its values matter |
| Gpxq | graph/gptq.py, graph/gpfq.py | one group; inverse Cholesky factor is a parameter; samples are given |
| Equalize | graph/equalize.py | networks are graphs of layers acting on vectors of channels |
| Fx, FxCat, FxMove | graph/base.py, graph/utils.py, graph/fixed_point.py, nn/utils.py | fx graphs are lists of nodes with evaluated meaning |
| ChannelSplit | graph/channel_splitting.py | as Equalize |
| Export | export QCDQ and inference handlers | ONNX and torch nodes by their specification |
| Pool | graph/per_input.py, nn/quant_avg_pool.py | one spatial dimension at a time; products of windows for two |
| Ste | ops/autograd_ste_ops.py, function/ops_ste.py | gradients are pairs of value and pullback |
| Cache | proxy caching of parameter_quant.py and runtime_quant.py, export sessions | events are interleaved arbitrarily |
| BitWidthLoss | loss/weighted_bit_width.py | outputs enter by their size and bit width |
| Inject | inject/\_\_init\_\_.py | specifications are functions of their arguments |
| BiasCorr | _BiasCorrection of graph/calibrate.py | a layer is a quantised and an unquantised function |
| Contexts | calibration_mode, DisableEnableQuantization of graph/calibrate.py; gpxq_mode, gptq_mode, gpfq_mode | flags only; the body of a `with` is any change of the state |
| FloatTensor | quant_tensor/float_quant_tensor.py: is_valid, minifloat, neg, abs, cat and checks | finite elements, one scale and zero point per tensor |
| ShapedTensor | quant_tensor/torch_handler.py, transpose, permute, view, reshape of int_quant_tensor.py | torch functions in Spec/Broadcast.lean; one bit width per tensor; random functions take the random choice as an argument; padding of the last dimension |
| Rnn | nn/quant_rnn.py (cells, layers, stacks, loading of gates), the parts of nn/mixin/base.py it uses | quantisers are proxies with fixed parameters; tensors are nested lists; the weight quantiser is a function; TorchScript and the fast path for CPU are taken to compute what the Python cell does |
| RnnLoad | nn/quant_rnn.py: weights_to_share, _load_from_state_dict of the stack | strings as lists of characters, state dicts as lists of items |
| InferFloat | export/inference/handler.py: FloatInferencetHandler, FloatWeightInferencetHandler | NaN and infinities explicit, rounding exact |
| QuantizeImpl | graph/quantize_impl.py: are_inputs_unsigned, are_inputs_quantized_and_aligned, inp_placeholder_handler, choice in output_quant_handler | a node is the tree of what it depends on; tensors are flat lists; the rewriting loop of residual_handler and align_input_quant are not modelled |
| ActEq | `graph/equalize.py` 195-233, 311-327, 386-602 with activations, 962-999, 1007-1085; `nn/equalized_layer.py` 17-43; `nn/quant_scale_bias.py` 34-38 | Attention beyond its input projection; named tensors; the graph version (`GraphActivationEqualization`); calibration batches of different shapes that broadcast |
| EpInit | `brevitas_examples/imagenet_classification/a2q/ep_init.py` 25-107 | hooks and module traversal; the learned norm is stored without restriction |
| Mha | `brevitas/nn/quant_mha.py` 128-687 | dropout is not modelled (inference); named dimensions and the renaming of the query tensor of the caller are not modelled; two tensors being the same memory is an input of the model; the quantisers are element-wise functions |
| MhaLoad | `brevitas/nn/quant_mha.py` 689-733, `llm_quant/mha_layers.py` 79-142 | the rows of a weight are elements of a list; the wrapper does not broadcast a single row |
| Awq | `llm_quant/awq/auto_scale.py` 59-97 (scaling) and 255-end (`apply_scale`), with the groups of layers of 170-252 for OPT and Llama | weights as functions of indices; NaN assertions and the broadcasting of one-element scales are not modelled; the activation must be positively homogeneous, as the ReLU of OPT is (variants with GELU are not) |
| AwqSearch | `llm_quant/awq/auto_scale.py` 43-57, 121-168 | real powers and square roots; the loss of the block is any function of the weights of the searched layers |
| AwqClip | `llm_quant/awq/quantizer.py` 37-74, `auto_clip.py` 42-118 | flat tensors; batches of outputs not modelled; NaN assertions not modelled |
| LnMerge | `llm_quant/ln_affine_merge.py` 15-82 | targets are modules one to one; tracing and casts not modelled; a norm with a zero weight is excluded from the theorem (the code divides by it) |
| Qonnx | export/onnx/qonnx/handler.py, function.py (Quant, BipolarQuant, Trunc), the attributes of the proxies they read | The ONNX file and its serialisation, LSTM cells, per-group scales |
| Standardize | graph/standardize.py: DuplicateSharedStatelessModule | Modules are functions of their tensors; names of nodes are numbers |
| FnToModule | graph/base.py: CallableToModule and FnToModule, as used by TorchFunctionalToModule | Side effects of in-place functions; constructor arguments fixed by the caller; nodes inside tuples |
| GpxqMode | graph/gpxq.py: gpxq_mode; catch_stopfwd and update_batch of GPTQ and GPFQ as far as scheduling is concerned | What is computed from the collected inputs (see Gpxq); other hooks; exceptions other than StopFwdException |
| InferMode | src/brevitas/export/inference/manager.py:20-106, src/brevitas/export/manager.py:92-131, src/brevitas/common.py:29-46, src/brevitas/graph/calibrate.py:50-62. Attributes and hooks of a model in and after quant_inference_mode; caches and forward passes are arbitrary functions of the state |
| SubTensor | nn/mixin/parameter.py: quant_weight; core/utils.py: SliceTensor; core/function_wrapper/learned_round.py: LearnedRoundSte; core/quant/int.py and int_base.py on tensors; graph/gpxq.py: get_quant_weights | Group-wise quantisers, quantisers that need the quantised input, export mode, shared quantisers |
| Combine | `nn/quant_eltwise.py`, `nn/quant_embedding.py`, `nn/quant_layer.py:65-89`, `__add__`/`cat` of `quant_tensor/int_quant_tensor.py` and `embedding_handler` of `quant_tensor/int_torch_handler.py` on tensors with a shape | export mode, `max_norm` of embeddings, sums of integer quant tensors with other quant tensors |
| ActLayer | `nn/quant_activation.py`, `QuantNonLinearActLayer` of `nn/quant_layer.py`, `FusedActivationQuantProxy`, `ActQuantProxyFromInjectorBase` and `_is_act_enabled` of `proxy/runtime_quant.py` | export mode, `torch.compile`, cached metadata, group-wise padding |
| Upsample, Spec.Interp | `nn/quant_upsample.py`; `torch.nn.functional.interpolate` is specified in `Verif/Spec/Interp.lean` from its documentation | export mode, minifloat quant tensors, antialiasing |
| Hadamard | `nn/hadamard_classifier.py` forward and `max_output_bit_width` | the state dict; `math.log` and `torch.log2` are exact, the square root is a parameter |
| TruncPool | `nn/quant_avg_pool.py` constructors and forward, `TruncIntQuant` on tensors, the two pooling handlers, constructors of `nn/quant_accumulator.py` | images without batch dimension, export, a delay of the quantiser |
| Preset | quant/base.py, scaled_int.py, shifted_scaled_int.py, fixed_point.py, ternary.py, none.py; quant/solver/{common,parameter,weight,act}.py | Injection itself is C56; settings are an association list with the overriding ones first. Learned and stochastic rounding, groups, HQO/MSE searches and training are not in this module; CONST and PARAMETER scales with the FP restriction only. |
| GptqInput | graph/gptq.py:96-168 | The inputs are given as tensors; channels-last permutation of process_input and quantised inputs are C44/C46; unfoldNd is specified, not modelled |
| GpfqInput | graph/gpfq.py:91-105, 149-224 | The random numbers are arbitrary functions; layer inputs of both passes are given |
| GpfqV2 | graph/gpfq.py:286-382 | The buffer on the CPU and devices are left out; the update step is in Gpxq |
| RemoveStochastic | graph/standardize.py `RemoveStochasticModules` | `recompile`, `lint` |
| MeanPool | graph/standardize.py `MeanMethodToAdaptiveAvgPool2d` | `dtype` of `mean`; three-dimensional inputs of the pooling module |
| LstmExport | export/onnx/handler.py (`QuantLSTMLayerHandler`), export/onnx/function.py (`LSTMCellFn`), export/onnx/qonnx/function.py (`BrevitasQuantLSTMCellFn.symbolic`), qonnx/handler.py 140-175 | Tensors are nested lists; tracing is not modelled: the exported graph is the operators the symbolic functions write; the custom operator of quantised cells has no semantics, only its arguments |
| Checkpoint | nn/utils.py 43-62, proxy/utils.py, core/scaling/runtime.py and standalone.py (state loading), nn/quant_layer.py 56-62, 163-176, graph/calibrate.py 137-151 | A dictionary is a list of entries, a key a list of characters; statistics are scalars; the bias has no quantiser |
| FloatAct | proxy/float_runtime_quant.py, proxy/runtime_quant.py 67-207, utils/quant_utils.py 41-86 | Finite elements and saturating formats; one scale per tensor, computed without state; no export mode |
| A2QLayer | proxy/parameter_quant.py 235-278, nn/mixin/parameter.py 41-78, nn/quant_layer.py 142-143 | The input is one vector of codes per output element; no export mode, no slices of weights |
| BiasProxy | proxy/parameter_quant.py 153-175, 280-361, nn/mixin/parameter.py 104-108, core/quant/int.py 68-83: integer bias quantisers over histories | export mode, dynamo, minifloat biases, the layout of the scales (QuantConv) |
| LearnedRound | brevitas_examples/imagenet_classification/ptq/learned_round_utils.py (`LinearTempDecay`, `Loss`, `insert_learned_round_quantizer`, `split_layers`, `learned_round_iterator`), ptq_common.py (`apply_learned_round_learning`) | data collection and the optimiser's own arithmetic (any length-preserving function), progress bars |
| KwOptions | nn/mixin/base.py, act.py, parameter.py, utils.py; constructors of quant_layer.py, quant_activation.py (identity), quant_mha.py, quant_rnn.py as far as keyword options go | the layers' other arguments; one quantiser shared by two roles of one layer |
| AffineScale | `core/scaling/runtime.py` (`_StatsScaling`, `_AffineRescaling`, `RuntimeStatsScaling`), `quant/base.py` (`BatchQuantStatsScaling1d/2d`), `quant/scaled_int.py` (batch-quant activations) | real numbers; one scale per tensor; gradients not modelled; an optimiser step is an arbitrary new factor |
| FusedAttn | `brevitas_examples/stable_diffusion/sd_quant/nn.py` (`QuantizableAttention`, the projections of both processors), `stable_diffusion/main.py` (head size) | the external class `Attention` beyond its projections; LoRA; cross norms; one element per batch |
| LastReturn | `graph/standardize.py` (`DisableLastReturnQuantTensor`), the last step of `graph/quantize.py:quantize` | values of the run; recurrent stacks; missing modules |
| Perplexity | `brevitas_examples/llm/llm_quant/eval.py` | rounding of floats, devices, attention masks, `view` of labels of several rows |
| OptAttn | `brevitas_examples/llm/llm_quant/mha_layers.py` (`attention_mask_handler`, `QuantizableOPTAttention.forward`) | `past_key_value` (never read), non-contiguous masks |
| Rewriter | `graph/base.py` (`ModuleToModule`), `graph/utils.py:signature_keys`, signatures in `nn/quant_linear.py`, `quant_conv.py`, `quant_convtranspose.py`, `quant_rnn.py`, `quant_mha.py` | attributes set by torch are tables; loading of the state dict is in Checkpoint, RnnLoad, MhaLoad; replacement in the tree is in Layerwise |
| CastFloat | `cast_to_float32` (brevitas_examples/llm/llm_quant/run_utils.py) | conversion of values is a parameter; devices not modelled |
| HingeLoss | `squared_hinge_loss`, `SqrHingeLoss` (brevitas_examples/bnn_pynq/models/losses.py) | exact reals; predictions and targets of the same shape |
| LearnedGrad | `RescalingIntQuant` with `ParameterScaling` and `BitWidthParameter` under autograd (core/quant/int.py, core/scaling/standalone.py, core/bit_width/parameter.py, core/restrict_val.py) | exact reals; zero point 0; rounding half to even; autograd's rule for each operation is taken as in Ste |
| FloatGrad | `FloatQuant`, `float_internal_scale`, `FloatClamp` under autograd (core/quant/float.py, utils/torch_utils.py, core/function_wrapper/clamp.py) | exact reals; formats that saturate; autograd's rules for abs, log2, exp2 and clamp_min are taken as documented |
| MaxGrad | `RescalingIntQuant` with `StatsFromParameterScaling` and `AbsMax` under autograd (core/quant/int.py, core/scaling/runtime.py, core/stats/stats_op.py) | exact reals; one group of weights that share a scale; constant bit width, zero point 0, no affine rescaling; autograd's rules for max (index, or shared evenly) are taken as documented |
| StateDict | `StatelessBuffer`, `_ViewParameterWrapper`, `_ViewCatParameterWrapper` (core/utils.py, core/stats/view_wrapper.py) in trees of modules | keys are lists of names; the order of entries, shapes and dtypes of tensors, metadata, and the `KeyError` of `del` on a module without its tensor are not modelled; `state_dict` and `load_state_dict` are those of PyTorch as generally known; its source is not in the repository and was not consulted |
| TruncGrad | `TruncIntQuant` under autograd (core/quant/int.py) | exact reals; one element; no delay; autograd trusted for arithmetic and powers |
| StochQuant | `IntQuant` with `StochasticRoundSte` (core/quant/int_base.py, core/function_wrapper/stochastic_round.py) | exact arithmetic; draws are independent with the given probabilities (`torch.bernoulli` trusted); one scale and zero point |
| WeightNorm | `WeightNormPerChannelFloatDecoupled`: `ParameterPreScalingWeightNorm`, `L1Norm`, `L2Norm`, `DecoupledRescalingIntQuant` (quant/base.py, core/scaling/pre_scaling.py, core/stats/stats_op.py, core/quant/int.py) | exact reals; one channel; the post-clipping scale is an argument; NaN is `none` |
| NormGrad | the same quantisers under autograd | exact reals; one channel; constant bit width; autograd trusted for arithmetic, norms and `torch.where` |
| SpreadStats, KlThreshold | core/stats/stats_op.py:216-400 | Exact real arithmetic (square roots, exponentials, logarithms); the bins of `torch.histc` are those of its documentation; of several minima `torch.argmin` takes the first. |
| FlexML | nn/target/flexml.py (FlexMLQuantAvgPool2d, FlexMLQuantLeakyReLU), graph/target/flexml.py:100-109, graph/quantize_impl.py:400-426 | The quantisers of the leaky ReLU in eval mode, their scales positive numbers (that of the slope follows its calibration); FlexMLQuantSwish and the Hardtanh entry of the map are not modelled |
| ValueTrace | fx/value_tracer.py (`ValueProxy`, `ValueAttribute`, `ValueTracer`), fx/brevitas_tracer.py | `concrete_args`, `*args` and `**kwargs`, names and metadata of nodes, reassignment of module attributes; PyTorch operations are a parameter; containers are kept as their leaves |
| Fp8Export | `FloatCDQCastProxyHandlerMixin`, `FloatQCDQCastWeightQuantProxyHandlerMixin`, `FloatQCDQCastActQuantProxyHandlerMixin`, `FloatQMixin`, `FloatZeroPointHandlerMixin`, `StdFloatQCDQCastONNXMixin`, the nodes of `QuantizeLinearFn` and `DequantizeLinearFn` | casts of half precision scales and inputs; the tracing itself; the casts of the runtime are a parameter |
| Dynamic | `quant_blocks.py` dynamic scaling and zero point, integer dynamic quantisers per tensor and per row of `quantizers.py`, `over_output_features` | groups (GroupQuant, GroupFloat), the proxy, gradients, NaN and infinities in the input |
| GroupFloat | group-wise minifloat quantisation: views, scales, `GroupwiseFloatQuantTensor`, proxies, MX weight and activation settings | overflow flags are not carried; what follows the call of `float_internal_scale` that raises is not modelled |
| FloatPreset | quant/experimental/float_base.py, float_quant_ocp.py, float_quant_fnuz.py (weights), is_ocp and is_fnuz of the proxies | groups, scales by MSE, activations |
| Generative | src/brevitas_examples/common/generative/quantize.py: tables, generate_quantizers and its call in quantize_model | quantisers per group, by MSE and by HQO, and input quantisers, are named only; what layerwise_quantize does with the result is not modelled here |
| GroupQuant | `GroupwiseIntQuantTensor` (groupwise_int_quant_tensor.py, without the handlers of torch functions), the group-wise integer proxies, `_CachedIOGroupwiseInt`; `__neg__`, `__abs__` up to the attribute that does not exist |
| ExportRun | `jit_inference_trace`, `export_onnx`, `ExportContext`, `_cache_inp_out`, overriding and restoring of flags and gradients, `set_export_handler`, `set_export_mode`, setter of `export_mode`, traversal orders of `Module.apply`, `train` and `modules` | what forward passes, handlers, tracing and the clean-up compute (arbitrary), conversion of arguments, `change_weight_export`, registration of custom ONNX operators |
| WbLayer | `QuantWBIOL.forward_impl`, `pack_output`, activation, weight and bias proxies with integer quantisers | export mode, tracing, caches other than the bias scale, observer mode, fused activation functions, group-wise views, same padding, DecoupledWeightQuantWithInput |
| QuantConv | quant_tensor/int_torch_handler.py:140-237 (`quant_layer` and `quant_output_scale_impl` for integer input and weight), proxy/parameter_quant.py:307-313, 347 | mixed plain and quant arguments, the padding modes other than zeros and string paddings |
| SameConv | nn/quant_conv.py: strided `same` padding of the three convolutions and its dispatch | torch's own `same` padding for stride one, unbatched inputs |
| ChannelScale | quant/solver/weight.py (out_channels, weight_ndims, scaling shapes, permute_dims, concat dim), quant/solver/common.py 172-208, core/stats/stats_wrapper.py (_Stats, _ParameterListStats), view_wrapper.py, function_wrapper/shape.py 22-76 | group-wise scales (in Shape), the learned and affine scalings that start from the statistic |
| LayerHandler | `inp_placeholder_handler`, `output_quant_handler`, `add_output_quant_handler`, `layer_handler`, `InsertModuleCallAfter`, `ModuleToModuleByInstance` | layers that return several values; which of the signed and unsigned quantisers is chosen; the constructor arguments of the new layer |
| Residual | `residual_handler`, `recursive_input_handler`, `are_inputs_quantized_and_aligned` on a mutable graph, `align_input_quant`, `InsertModuleCallAfter`, `ModuleInstanceToModuleInstance` | modules with an `output_quant`; nested modules; which of the signed and unsigned quantisers is chosen (C73) |
| Layerwise | `find_module`, `layerwise_layer_handler`, `ModuleToModuleByInstance`, `replace_module` | constructor arguments and the inside of quantised layers |
| ScaleBias | nn/quant_bn.py, nn/quant_scale_bias.py, `mul_add_from_bn` of nn/utils.py; QuantTensor metadata of the layer are not modelled |
| NormCorr | graph/calibrate.py norm_correction_mode (356-385), one channel of one batch norm |
| Pack | brevitas_examples/llm/llm_quant/export.py pack_int_weights (154-208), one row at a time; the export of scales and zero points and the block forward are not modelled |

## What is not modelled

* Floating-point rounding of intermediate results; overflow and underflow of float32/float16.
* Automatic differentiation beyond the straight-through functions; optimisers and training loops.
* Convolution arithmetic with its unfolding, strides and padding (a convolution enters as its dot products, or as a map on channels);
  recurrent layers, attention, embeddings.
* The tracer (fx/), the JIT (jit.py, TorchScript), ONNX graph construction and serialisation.
* The table-driven part of graph/quantize.py, graph/quantize_impl.py beyond what the properties above need; target/flexml.py.
* The Python object model: metaclasses beyond attribute resolution, monkey patching, hooks beyond their effect.
* Random number generators: a random draw is an arbitrary value.

## Trusted base

* Lean's kernel. No `native_decide`, `bv_decide`, `sorry`, or axiom of our own.
* Axioms. Over all theorems listed in MANIFEST.json, `#print axioms` reports only `propext`, `Classical.choice`, `Quot.sound`:
  - propext, Classical.choice, Quot.sound: 842 theorems
  - propext, Quot.sound: 161 theorems
  - propext: 41 theorems: `C14_no_delay`, `C39_rows_partial`, `C48_disabled_lost`, `C48_frozen_lost`, `C48_not_enabled`, `C48_made_before_entering`, `C48_gptq_quant_activations`, `C49_axis_two_dims`, `C49_axis_lower_rank`, `C53_disabling_clears`, `C53_act_scale_uncached`, `C53_act_scale_stale`, `C55_per_elem_ops`, `C69_lstm_shared_partial`, `C69_lstm_gates_crossed`, `C69_coupled_not_shared`, `C86_clash_swaps`, `C86_clash_overwrites_weights`, `C86_method_renamed`, `C87_builtin_raises`, `C88_name_clash`, `C88_split_group`, `C88_called_twice`, `C88_empty_round`, `C89_short_row_raises`, `C99_nested_export`, `C99_unsupported_leaves_eval`, `C99_grads_lost`, `C99_retry_uses_stale_cache`, `C101_hook_left_behind`, `C101_flags_not_restored`, `C101_disabled_not_neutral`, `C106_entries`, `C115_other_branch_false`, `C115_optional_argument_false`, `C115_late_attribute_false`, `C115_buffer_update_false`, `C115_augmented_assignment_false`, `C115_tracing_raises_false`, `C116_leaky_from_map_false`, `C123_attribute_name_differs`
  - no axioms: 7 theorems: `C53_never_cached_outside_export`, `C58_replaced_twice`, `C58_failed_read`, `C69_rnn_shared`, `C75_error_swallowed`, `C92_blacklist_covers_inside`, `C107_accumulators_raise`
* That the model is faithful to the lines it cites.
* That exact arithmetic stands for IEEE arithmetic.

## Disagreements between the code and the properties

Where the code violates a property, the negation is proved on a concrete witness (or for every model), and a theorem with the suffix `_partial`
covers what remains true.

* `C07_odd_needs_narrow`: without the narrow range oddness fails at the most negative code, so the narrow hypothesis is needed.
* `C07_dpu_not_odd`: DPU rounding is not odd, so it is excluded from `C07_odd`.
* `C10_full_range_clips`: The half-step bound does not hold with the full range: the positive extreme is clipped by one step.
* `C11_parameter_below_min`: fails for a learned scale: with threshold 127 and minimum 1e-10 a collapsed value gives a scale 127 times below the minimum.
* `C11_const_ignores_min`: fails for a constant scale even without an integer threshold (threshold one): the documented example `ConstScaling(1.0, scaling_min_val=3.0)` returns 1, not 3, because the threshold is clamped too.
* `C12_min_val_not_power_of_two`: fails for a tensor of zeros: the shipped fixed-point quantisers set `scaling_min_val = 1e-10`, which is what they return, and it is not a power of two.
* `C12_per_channel_not_power_of_two`: fails for the per-channel fixed-point weight quantiser (src/brevitas/quant/base.py:249-254): it is configured with the plain float restriction, so a channel with maximum 3 and 8 bits (threshold 127) gets the scale 3/127.
* `C13_all_negative_fails`: fails for all-negative tensors: the scale ignores the distance of the largest value from zero while the zero point saturates, so `-3` comes back as `-2`, an error of more than 100 scale steps.
* `C16_local_loss_transition_changes_state`: fails at the transition: a training-mode call under local-loss mode finalises the calibration.
* `C17_uncalibrated_not_loadable`: fails for a module that was saved before its first training call: its state dict omits the value, so loading it strictly reports a missing key, also into an identical module.
* `C18_load_below_min_mirrors`: loading a constant width below the minimum silently mirrors it above the minimum: a 2-bit checkpoint loaded into a layer with minimum 4 gives 6 bits.
* `C19_overremoval_fails`: fails when more bits are removed than the input has: the absolute value makes the width grow again.
* `C19_not_integral`: The removal is never exactly the configured number of bits (because of the epsilon), so the resulting width is not an integer: removing 2 of 8 bits gives strictly between 6 and 7 bits.
* `C20_zero_channel_divides_by_zero`: The all-zero channel: without a minimum value (which `AccumulatorAwarePerChannelPreNorm` does not forward) the pre-scale is zero and the quantiser divides 0 by 0, for every other parameter.
* `C23_wide_format_not_nearest`: fails without the bound on epsilon: for E8M7 in float32 (epsilon `2^-126`, subnormal step `2^-133`) the representable value `2^-126 + 2^-133` is not a fixed point, so the output is not the closest value.
* `C24_unsigned_returns_negative_infinity`: fails for unsigned non-saturating formats with infinity codes: a large negative input returns `-inf`, which has no code in the format.
* `C24_infinite_input_becomes_nan_any`: The same for every format and policy that does not raise: infinity in, NaN out.
* `C25_gap_in_special_codes`: fails for special codes that are not the topmost mantissas: E4M2 with the single NaN mantissa `01`. The declared maximum is the code `1111.00`, while `1111.10` and `1111.11` are ordinary codes with larger values, and are clipped.
* `C26_clamped_binary_needs_positive_scale`: with a negative scale (not excluded by the type of the scale) clamping does change the result.
* `C26_ternary_large_threshold`: with a threshold of one or more the ternary quantiser is not idempotent: its own output is in the dead zone.
* `C27_round_does_not_fit`: fails for round-to-nearest: truncating the 8-bit code 127 to 4 bits gives 8, which is not a signed 4-bit code.
* `C28_uint32_overflows`: fails for unsigned 32-bit tensors: the code `2^31` is a code of the container, the tensor is valid, but the integer does not fit the `int32` that `int()` returns.
* `C28_constant_binary_rejected`: fails for one bit: a binary tensor all of whose elements have the same sign is declared invalid, so `int()` raises.
* `C28_binary_accepts_any_two_values`: fails for one bit in the other direction too: any two integers of which one is negative pass as signed binary.
* `C29_mixed_sign_overflows`: fails for mixed signs: int8 + uint8 declares 9 signed bits, while 127 + 255 = 382 needs 10; the sum is not valid.
* `C29_one_bit_overflows`: fails for one-bit operands: the sum of two unsigned one-bit tensors is declared one bit wide although it can be 2.
* `C29_close_scales_not_exact`: fails for scales that are close but not equal: the averaged scale does not denote the sum of the integers. (22-bit code of a tensor with scale `1.000005` added to a zero of a tensor with scale `1`: `int()` of the sum is off by ten.)
* `C30_division_not_valid`: division: the result really can be invalid (3 / 2 with 3-bit operands has scale 1/4: 6; 1/3 is not on the grid).
* `C31_neg_overflows`: fails at the most negative code: negating an int8 tensor that contains -128 gives an invalid tensor.
* `C31_neg_wrong_with_zero_point`: fails with a zero point: negating the value 3 (code 8, zero point 5) returns -13, which is not even a code.
* `C31_sub_wrong_with_zero_point`: fails for subtraction with zero points: `x - x` is not zero (code 8, zero point 5: 3 - 3 is returned as -10).
* `C31_abs_overflows`: fails for the absolute value of the most negative code.
* `C31_abs_wrong_with_zero_point`: fails for the absolute value with a zero point: `|-4|` (code 1, zero point 5) is returned as -4.
* `C32_training_mismatch_accepted`: fails in training mode, where scale mismatches are accepted and averaged: the result is not on the grid of its own scale.
* `C32_order_dependent`: the check depends on the order of the operands: only the training flag of the first one is consulted.
* `C33_full_range_weights_overflow`: fails for full-range signed weights: 8-bit unsigned input, 4-bit signed weights, 17 products: 16 bits are declared, the sum `17 * 255 * (-8) = -34680` needs 17.
* `C33_conv_transpose_overflows`: fails for transposed convolutions: 8 input channels, one output channel, one tap, 2-bit unsigned operands: 4 bits are declared, the output can be 72.
* `C33_avg_pool_signed_overflows`: fails for average pooling of signed inputs: 2-bit codes, five of them: 4 bits are declared and -10 does not fit.
* `C33_hadamard_always_overflows`: fails for the Hadamard classifier on every unsigned input width and size (except a single one-bit input): the first row of the Hadamard matrix is all ones and the output is negated, so the largest codes produce an accumulator that the declared signed width cannot hold.
* `C34_bias_sign_ignored`: fails for the sign: unsigned input, unsigned weight and a bias of -5 with the accumulator's scale: the output holds the integer -5 but is declared unsigned.
* `C34_rank3_bias_misplaced`: fails for three-dimensional inputs with a float bias: the zero point at row 0, channel 1 is computed from the bias of channel 0, so the output does not denote the dot product (nor, here, any integer).
* `C35_padding_kept`: the padding is never removed, so the shape of the quantized value is the shape of the input exactly when the group size divides the grouped dimension.
* `C35_last_dim_groups_wrong`: with groups of 4 over 8 features, the first four features do not share a scale.
* `C35_from_expanded_last_dim_rejected`: re-expanding with `group_dim = -1` looks at the dimension before the last and rejects a tensor it produced.
* `C36_share_missed`: the index is rounded to the nearest integer, so that fewer elements than the requested share can be covered (here one third of the elements for a 40th percentile), and a small share of a small tensor raises.
* `C37_fib_not_best`: for the weights `[12, 5, 4]` and 4 iterations the result is worse than a candidate the search evaluated itself, and for `[1, 1, 3]` it is worse than the plain absolute maximum.
* `C37_fib_few_iterations`: with fewer than two iterations the Fibonacci search raises.
* `C38_learned_default_floors`: With the default initialization of the quantizer (all parameters zero) a model that has not been trained rounds everything down.
* `C39_rows_four_dims_wrong`: for inputs of four dimensions the rows have the wrong width (the sum of the last two dimensions instead of the last one), so the statistics are not those of the layer inputs.
* `C40_block_size_matters_for_dynamic_scale`: if the scale of the quantizer is computed from the weights at each call, as in the default weight quantizers, the result depends on the number of blocks.
* `C40_dynamic_scale_not_fixed_point`: with such a quantizer the updated weights are not fixed points of the quantizer, because later updates change the scale; the quantized layer does not use the values that the algorithm chose.
* `C40_transposed_convolution_update_lost`: for a transposed convolution with more than one input channel, more than one output channel and more than one kernel element, flattening copies the weight, so the layer keeps its old weights and the whole update is lost.
* `C41_v2_damping_shrinks`: the memory-efficient variant damps the matrix, so its targets are not the least-squares optima. With a single column and the same float and quantized input, the stored weight is the float weight divided by one plus the damping factor (0.01 by default), instead of the float weight itself.
* `C42_sum_with_constant_changed`: is false of the code for sums with a constant: only tensor operands of an addition are looked at, so that the constant is not rescaled.
* `C42_square_changed`: is false of the code for products of a tensor with itself (or with another tensor of the same region): the factor enters the product twice.
* `C42_shared_layer_changed`: is false of the code for layers used at several places: the weights are rescaled for one of the uses only.
* `C42_second_concatenation_changed`: is false of the code for a source that goes into two concatenations: an operation after the second one that cannot be equalised is forgotten instead of making the region invalid.
* `C44_shared_layer_changed`: is false of the code when the layer is called at another place too: the check on the number of users is about the node, not the module, so the other call gets the merged weights.
* `C45_sum_with_constant_changed`: is false of the code for sums with a constant when the producing weights are halved: the constant enters twice.
* `C45_square_changed`: is false of the code for the product of a tensor with itself when the producing weights are halved.
* `C45_shared_layer_changed`: is false of the code for layers used at several places, in both modes: a second use of the producing layer sees the additional channels.
* `C45_gate_mismatch`: is false of the code for products with a tensor from outside of the region, in both modes: one of the operands of the product gets more channels, the other does not, and the network can no longer run.
* `C46_repeated_operand_changed`: is false of the code when a concatenation is repeated in the operands of another one: `cat([c, c])` with `c = cat([x, x])` becomes `cat([x, x])`.
* `C46_shared_operand_changed`: is false of the code even when all operands of each concatenation are different: a concatenation used both by a concatenation and by the one nested in it is merged once instead of twice.
* `C46_move_eps_changed`: fails for a batch norm with another `eps`: the parts are built with the default one. Here the batch norm with `eps = 0` returned its input.
* `C46_move_name_clash_changed`: fails when the name of a new module is taken: with the batch norm called `bn` and a layer called `bn_0`, the layer is overwritten by the first part of the batch norm.
* `C47_uneven_batches`: Batches of different sizes count alike. After a batch of one sample with error `1/2` and a batch of three samples without error, the bias is `1/4`, although the mean error of the four samples is `1/8`.
* `C47_linear_four_dims`: Linear layers with outputs of four dimensions are corrected along the wrong dimension: all errors are in channel `0` (the last dimension), but both channels are corrected by half of it.
* `C47_reused`: Used a second time, the same object applies its old errors again, and forgets how many there were. The layer has mean error `1/2`. A first use makes the bias `1/2`. The reference includes the new bias, so a second use with a new object adds `1/2` again; with the same object it adds `1`.
* `C48_disabled_lost`: A quantiser that is disabled on entry (a layer kept in floating point) is enabled on leaving.
* `C48_frozen_lost`: A quantiser that is in evaluation mode on entry, in a model in training mode, is in training mode on leaving.
* `C48_not_enabled`: With `enabled=False`, leaving ends the collection of statistics (which had gone through 5 of 300 steps) and enables a disabled quantiser.
* `C48_made_before_entering`: If the model's training mode changes between making the context manager and entering it, leaving restores the former: here quantisers are in training mode in a model in evaluation mode.
* `C48_collectors_changed`: The number of steps and the kind of average are not restored: collectors keep an unlimited number of steps and a true average.
* `C48_gpfq_return_flags_lost`: `gpfq_mode` without quantised activations, for every model and prior flag assignment: after a forward pass, no layer returns quantised tensors any more, also after leaving.
* `C48_gpfq_training_flags_lost`: After at least one forward pass with GPFQ and quantised activations, all quantisers are in evaluation mode, whatever the training mode of the model, also after leaving.
* `C48_gpfq_raises`: An exception in the pass without quantisation leaves all quantisers of weights and activations disabled, also after leaving.
* `C49_odd_zero_point_tie`: fails for odd zero points: `0.5` with scale 1 and zero point 1 is quantised to 1 by the layer (code `round(1.5) = 2`) and to 0 by the exported nodes (code `round(0.5) + 1 = 1`).
* `C49_bias_scale_changed`: (biases) fails when the scale passed at run time is not the one recorded at export time: the stored integers are reinterpreted. The layer itself would re-quantise the bias with the new scale.
* `C49_inference_ignores_rounding`: (inference export) fails for quantisers with another rounding: the handler rounds to nearest whatever the quantiser does and nothing refuses it. Here a floor quantiser returns 0 for `0.9` and the handler returns 1.
* `C49_dynamic_act_all_negative`: (dynamic activations) fails for all-negative tensors: the layer takes the range from the minimum to the negative maximum and shifts everything out of it, the exported node always includes zero.
* `C49_axis_two_dims`: (per-channel parameters) fails with two dimensions of size different from 1: for a scale of shape `[2, 3]` and element `[1, 2]` broadcasting reads entry 5, the exported axis reads entry 1.
* `C49_axis_lower_rank`: (per-channel parameters) fails when the scale has fewer dimensions than the tensor: broadcasting aligns the last dimensions, the exported axis counts from the first. A scale of shape `[3, 1]` for a tensor of shape `[2, 3, 4]`, element `[1, 2, 0]`: broadcasting reads entry 2, the axis reads entry 1.
* `C50_overflow_clipped`: fails on overflow: the largest 8-bit code, truncated to 4 bits, is 8 in the layer and 7 in the export.
* `C50_zero_point_differs`: fails for non-zero zero points: code 16 with zero point 16 stands for 0; truncated from 8 to 4 bits the layer gives the code 1, that is -15, the export gives 0 clipped to the code 7, that is -9.
* `C50_wide_output_saturates`: fails for outputs wider than 8 bits: the 16-bit code `2^14`, truncated to 12 bits, is 1024 in the layer and 127 in the export.
* `C51_count_include_pad_ignored`: fails for pools with `count_include_pad=False`: the pool averages the elements inside the image, the convolution counts the padding.
* `C51_ceil_mode_ignored`: fails for pools with `ceil_mode=True`: the output sizes differ.
* `C51_divisor_override_ignored`: fails for pools with a divisor override.
* `C51_trunc_adaptive_uneven`: fails for truncated adaptive pooling from 5 to 3 positions: the first window has two elements but is rescaled by three, so the code sum 1 of the codes `1, 0` becomes one and a half.
* `C52_traced_blocks_gradient`: fails while a model is being traced: the recorded operation is the plain one and blocks the gradient. The value is the same.
* `C53_stale_after_update`: fails when the weight is updated while a value is cached: inference mode then serves the old weight. Here caching is switched on, a forward pass is made, the weight goes from 0.7 to 1.8, and inference mode with weight caching returns 1 instead of 2 from its second forward pass on (its first one, outside export mode, returns 2).
* `C53_training_inside_export`: fails in training mode if the module was put there inside inference mode: the cached weight is served although it changed.
* `C53_caching_left_on`: inference mode without weight caching leaves (metadata) caching switched on for good: leaving the session does not undo it.
* `C53_act_scale_stale`: fails for the scales reported by activation quantisers: once one forward pass was made with caching on (as inference mode and every export do), switching caching off does not forget the cached scale, and from then on every request returns it, however the scale is trained, calibrated or loaded afterwards, until caching is switched on again.
* `C55_scale_read_counts`: fails if the scale of an activation quantiser is read between two forward passes: reading calls the quantiser with a scalar, whose output counts as one more element (`retrieve_attribute`, src/brevitas/proxy/runtime_quant.py:110-125).
* `C57_zero_point_search_not_repeatable`: the zero-point search updates the module's own `beta`, so that quantizing the same weights a second time can select a different zero point (2-bit weights `[-2, 1/2, 2]` with scale 1, starting from the minimum, two iterations).
* `C58_shared_ancestor`: With a shared ancestor the nearest definition need not win. `A` defines `x = 1`, `B` and `C` derive from `A`, `C` defines `x = 2`, `D` derives from `B` and `C`: Python's order is `D, B, C, A`, but the injector resolves `x` to `1`.
* `C58_replaced_twice`: An attribute replaced twice is not put back. `x` is chosen by `c`, the choice is again a choice, by `d`: reading `x` with `c = d = 0` gives `1` and leaves the second choice as the definition of `x`. An override `c = 1` then still gives `1`, although the definitions give `3`.
* `C58_failed_read`: A failed read leaves its replacements behind. `x` is chosen by `c`: with `c = 0` it needs `y`, which is missing, so that reading `x` raises. An override `c = 1` then still raises, although the definitions give `3`.
* `C59_mx_act_not_tight`: fails for MX activations: the restriction is applied to `stats / threshold` instead of its logarithm, so every group with maximum in `(0, threshold]` gets the scale 2, however small its values are.
* `C59_mx_act_flushes_to_zero`: The consequence for MX int8 activations (threshold 128): a whole group of values below 1 in magnitude is quantised to zero.
* `C60_resume_fails`: fails across a checkpoint: the counter is not saved, so the first training call after loading multiplies the loaded statistic by the new one instead of averaging: after loading 4 and seeing 4 again the running statistic is 16.
* `C61_large_scale_rejected`: fails for scales above one: the E4M3 tensor with scale 2 holding the representable 9/8 is rejected, because the position of its significant bits is computed from the value before division by the scale.
* `C61_extra_bits_accepted`: conversely a tensor is accepted whose only value is not scale times any representable number: E4M3 with scale 1/16 and 1 + 1/64 (which needs six mantissa bits).
* `C61_out_of_range_accepted`: values beyond the largest number of the format are accepted too (the code says that this check is missing).
* `C62_neg_unsigned_raises`: fails for unsigned tensors: negation always raises.
* `C62_zero_point_wrong`: fails with a non-zero zero point: the value 1 (a minifloat of an E4M3 tensor with scale 1 and zero point 1) is negated to -2. The code subtracts the zero point although neither `is_valid` nor `minifloat` adds it.
* `C62_large_scale_raises`: fails for scales above one: negation and absolute value raise for the tensor of `C61_large_scale_rejected`.
* `C63_no_infinity_raises`: fails for every format without infinity codes, in particular for the OCP E4M3 format and for the plain minifloat formats, whose `inf_values` is `None`: concatenating two or more such tensors always raises.
* `C63_mantissa_mismatch_accepted`: fails for operands that differ in one width only: an E5M2 tensor and an E5M3 tensor are concatenated, and the result declares two mantissa bits although it holds 9/8, which has no code in E5M2.
* `C63_nan_codes_mismatch_accepted`: fails for operands whose NaN codes (or infinity codes) alone differ, and for different saturation flags: the result carries those of the first operand.
* `C64_relu6_off_grid`: fails for `relu6` unless 6 is on the grid: with scale 4, 8 becomes 6, which has no code; the result claims to be a quant tensor and is not valid.
* `C64_hardtanh_off_grid`: fails for `hardtanh` with its default limits -1 and 1 unless they are on the grid.
* `C64_dropout_training`: fails for dropout in training: kept values are divided by `1 - p`, off the grid (`p = 1/4`) or out of range (`p = 1/2`, code 100).
* `C64_pad_off_grid`: fails for padding with a value off the grid.
* `C64_relu_zero_point_outside`: fails for ReLU when the zero point is not a code: an unsigned 8 bit tensor with zero point 300 and the value -200 (code 100).
* `C64_pixel_shuffle_per_channel`: fails for pixel shuffle with per-channel scales: four channels with scales 1, 2, 4, 8 and codes 1 become one channel of 2 by 2 values, the scales still have four channels, and the result (which broadcasts to 1 by 4 by 2 by 2) is not valid.
* `C65_lower_rank_scale`: fails for scales of a smaller rank than the value: a 2 by 2 tensor with scales 1 and 2 along the last dimension and all codes 1 is valid, its transpose is not (the scales were not moved).
* `C65_reshape_per_channel`: fails for reshaping with per-channel scales: flattening a 2 by 2 tensor with scales 1 and 2 for its rows keeps the 2 by 1 scales, so that the codes have 2 by 4 elements and are not integers.
* `C66_given_states_raise`: Missing from the previous theorem: a stack of two or more layers with one direction rejects every state of the shape it itself returns (one entry per layer).
* `C66_lstm_given_states_raise`: A stack of two or more LSTM layers with one direction rejects every hidden state of the shape it itself returns.
* `C71_disable_has_no_effect`: Disabling the quantisation of the activations of a layer that does not quantise its input (every layer of a stack but the first) has no effect on its values, when no state is passed in: for every input the outputs and the final state are those of the layer with quantisation enabled.
* `C71_disable_not_float`: A layer of 4 bits with quantisation disabled does not compute the float recurrence: input 1/3 gives 1/4.
* `C69_lstm_gates_crossed`: With separate gates, the right-to-left direction of an LSTM layer gets the forget gate's weight as the weight of its input gate and the input gate's weight as the weight of its forget gate: neither gate is shared with its counterpart.
* `C69_coupled_not_shared`: With coupled gates, the input gate of the right-to-left direction is not shared.
* `C70_eleven_layers_raise`: A float state dict cannot be loaded into a stack of eleven layers or more: whatever else the dict holds, a parameter of the eleventh layer (`weight_ih_l10`) makes loading raise, because its key also contains the suffix of the second one.
* `C70_module_name_breaks_reload`: A stack whose module name contains a layer suffix does not reload its own state dict: for a module called `enc_l0`, the bias it saved is moved to a key it does not look for.
* `C72_reserved_codes`: A saturating format that reserves codes (so that its largest value `m` is below the largest float): in inference mode a finite element comes out as outside of it exactly when its quantised value does not exceed `m`; any larger one gives a value that has no code.
* `C72_overflow_ignores_scale`: A format that turns overflow into NaN: in inference mode a finite element becomes NaN when the input exceeds the largest float, outside of it when the input divided by the scale and rounded does; the results agree exactly when these two conditions do.
* `C73_network_inputs_taken_for_unsigned`: Whatever is computed from the network inputs by additions, concatenations, reshapes and sign-preserving modules only, graph quantisation takes for unsigned - although it has itself put signed quantisers after the network inputs.
* `C73_network_inputs_clipped`: Hence a network that adds its two inputs loses all negative sums: whatever the quantisers of the map (the unsigned one being an unsigned integer quantiser with zero point 0) and whatever the inputs, no output is negative.
* `C73_added_number_ignored`: A number that is added does not count: an unsigned activation plus any number, however negative, gets the unsigned quantiser.
* `C73_buffer_ignored`: Buffers and parameters do not count either: an unsigned activation plus a tensor of the model gets the unsigned quantiser, whatever the tensor holds.
* `C74_buffer_ignored`: A buffer or a network input among the inputs is not noticed: next to one quantised activation, or alone, it is found quantised and aligned although no quantiser has touched it.
* `C75_unbatched_convolution`: Without the condition on convolutions the statement is false. A convolution calibrated on an unbatched signal of as many positions as channels has its positions taken for channels, and computes something else afterwards.
* `C75_extra_dimension`: Without the condition on ranks the statement is false. A linear layer calibrated on inputs with three dimensions returns three dimensions when it is then given two.
* `C75_error_swallowed`: An error raised while calibrating, for instance because a batch has the wrong shape, is silently dropped: whatever is raised in the body of `with activation_equalization_mode(...)`, nothing leaves the statement when equalisation itself succeeds.
* `C75_unused_layer`: A layer the calibration never calls makes equalisation raise.
* `C78_float_padding_is_boolean`: **C78, disagreement.** With a boolean attention mask, a float padding mask is not added to the scores: for every module and all inputs it has the effect of a boolean mask, which hides every position where it is not zero.
* `C78_two_float_masks_raise`: **C78, disagreement.** A float padding mask with a float attention mask always raises.
* `C78_different_features_raise`: **C78, disagreement.** Keys and values with a different number of features raise, although the module has a projection for each of them: a module built with `kdim` and `vdim` that differ cannot be called.
* `C78_float_padding_not_added`: **C78, disagreement.** With the float padding mask `[0, -1]` and an attention mask that hides nothing, the second position is hidden instead of losing a factor `e`: the output is 0, not `1 / (e + 1)`.
* `C78_shared_memory`: **C78, disagreement.** A packed projection takes tensors for the same one when they start at the same place in memory: the query alone is used, for instance, when it is the first positions of the keys. Whatever keys and values of the same shape are passed.
* `C79_takes_other_layers`: **C79, disagreement.** Names are searched anywhere in the key: when the whole checkpoint is handed over (as PyTorch did before 1.13), a layer takes for itself the weights of every layer whose path ends with its own path.
* `C79_wrapper_own_checkpoint`: **C79, disagreement.** A wrapper that is itself the model drops the output projection of its own checkpoint.
* `C80_grouped_heads_raise`: **C80, disagreement.** Llama layers in which several heads share keys and values cannot be scaled: an assertion fails, whatever the scales.
* `C80_norm_last`: **C80, disagreement.** The same scales are applied to OPT layers that normalise last (`do_layer_norm_before=False`, as in OPT-350m), in which the norm comes after the layers it is scaled with: the output of this layer changes from 1 to -1.
* `C81_cpu_weights_changed`: **C81, disagreement.** With parameters on the CPU the search leaves every layer multiplied by the scales of ratio zero: what was saved is the memory of the parameters.
* `C82_positive_group_collapses`: **C82, disagreement.** No element of a group of positive weights becomes larger than the difference between the largest and the smallest of them (or `1e-5`): the largest weight loses as much as the smallest weight is.
* `C83_per_channel_raises`: **C83, disagreement.** Clipping per output channel, which is documented by a group size of -1, always raises.
* `C84_reshaping_diverges`: **C84, disagreement.** If the node after a norm reads it and is a reshaping, merging never returns.
* `C84_merged_twice`: **C84, disagreement.** If a linear layer follows the norm and a reshaping reads the norm too, the linear layer is merged into twice and what is behind the reshaping is not: the graph then computes something else. Here a norm multiplies by two, and both linear layers return what they are given.
* `C85_one_bit`: an integer quantiser of one bit is exported as the bipolar quantiser, which returns the scale for every non-negative input; the layer returns zero or less there when it is signed, and zero for every negative input, where the export returns minus the scale.
* `C85_ternary_threshold`: for every other threshold there is an input on which the exported ternary quantiser computes something else than the layer.
* `C85_bias_last_scale`: a layer that is called several times is exported with the bias scale of its last call in every place, whatever scale the accumulator has there: the exported bias is the layer's with that other scale.
* `C85_bias_changed`: with scales 1/2 and then 1/4 the first call's bias of 3/4 is exported as 3/4 although the layer computed 1.
* `C86_clash_swaps`: a module that happens to have the name of a copy is overwritten by it, and the calls are exchanged: with `act` called twice after `act_1`, the graph computes something else afterwards.
* `C86_clash_overwrites_weights`: a module with weights that has the name of a copy is lost, and the copy called in its place.
* `C86_method_renamed`: a call of a method that has the name of a stateless module is renamed as if it were a call of the module, and the graph raises afterwards.
* `C87_training_ignored`: `F.dropout(x)` drops values whatever the mode of the model; the module that replaces it does so only in training mode.
* `C87_builtin_raises`: A built-in function without a readable signature, with a positional constant, as `F.leaky_relu_(x, 0.2)`: the constant stays an argument of the call and the module raises, for every class.
* `C87_node_parameter_raises`: A function with an argument the graph computes, `f(x, n)`, is turned into a module called with two tensors, which raises for every class.
* `C88_hooks_left`: Leaving the mode does not remove the hooks: after leaving it without any round, every call of the model raises StopFwdException.
* `C88_name_clash`: A layer whose name is the names of a group joined by `_` loses its entry to the group: it gets no hook and is not optimised.
* `C88_split_group`: A group whose layers are not next to each other, `a` and `c` around `b`: the pass is never stopped, and `b` is optimised on what it receives from the `a` that is not optimised (2 instead of 3).
* `C88_called_twice`: A layer of a group that is called twice in a pass, `q q k` before `o`: `k` is left to the next round, which is then never stopped, and `o` is optimised on what it receives from the `k` that is not optimised.
* `C88_empty_round`: A round without data is lost: the last layer is not optimised, keeps its hook, and the model raises afterwards.
* `C89_negative_destroys`: Signed codes of four bits: the sign bits of a negative code overwrite its neighbour, whatever it is.
* `C89_odd_column_dropped`: Four bits and an odd number of columns: the last column is dropped, here the only one.
* `C89_last_column_dropped`: Three bits and nine columns: the last column is dropped.
* `C89_short_row_raises`: Three bits and three columns: the export raises.
* `C23_floor_epsilon_not_monotone`: in exact arithmetic: just below a power of two the epsilon selects the coarser step, and rounding down with it is not monotone.
* `C90_strict_load_raises`: By default loading any batch norm raises: its own entries were deleted, and then they are missing.
* `C90_batch_norm_1d_wrong_shape`: The one-dimensional layer never returns a tensor of the shape of its input, which has rank two or three.
* `C90_batch_norm_1d_outer_product`: On a batch of samples the one-dimensional layer silently returns one value for every pair of a channel and an element.
* `C90_size_not_checked`: Parameters of another size replace those of the layer without an error.
* `C90_missing_counter_raises`: A batch norm saved without the counter of its batches cannot be loaded.
* `C90_no_bias_raises`: A quantised scale layer without bias raises on every input.
* `C90_float_layer_raises`: The unquantised layer with a bias raises on every input, unless it has exactly one channel.
* `C91_variance`: what becomes of the variance: the geometric mean of the old variance and the average variance of the batches.
* `C91_momentum_and_mode_lost`: The momentum is lost and the batch norm is left in training mode, whatever they were.
* `C91_no_batch_destroys`: Entering and leaving without a batch destroys the statistics.
* `C92_shared_in_one_module_stays_float`: It is replaced under its first name only: under the second the floating point layer remains.
* `C92_shared_in_two_modules_is_untied`: It is replaced under both names, by two different layers: their parameters are no longer tied.
* `C92_blacklisted_alias_is_replaced`: If one of its names is on the black list, it is the black listed name that gets the quantised layer, and the other one keeps the floating point layer.
* `C92_layer_itself_not_replaced`: It is not replaced: the quantised layer becomes a child of it, with the empty name.
* `C93_transpose_method_fails`: If an input of an addition or concatenation is the result of the method `transpose`, as in `x.transpose(1, 2) + y`, the graph cannot be quantised: alignment fails, whatever its inputs are.
* `C93_overlapping_additions_fail`: A network with inputs `x`, `y` and `z` that computes `x + y` and `y + z` cannot be quantised: the two additions undo each other's alignment.
* `C93_relu_plus_cat_fails`: A network that adds the concatenation of two tensors to the output of a ReLU, as in `relu(z) + cat([x, y])`, cannot be quantised, because the check of an addition expects the inputs of the concatenation to have the very quantiser of the ReLU.
* `C94_shared_layer_raises`: Disagreement: every network that calls a layer twice fails with a KeyError, if the class of the new layer is a subclass of a class in the map without an entry of its own, as QuantLinear and all QuantConv are.
* `C94_second_input_not_quantised`: Disagreement: only the first input of a layer with several is quantised, here for the second time; the second, which is not quantised, stays so.
* `C94_buffer_not_quantised`: Disagreement: a layer that reads a buffer or a parameter is replaced, but its input is not quantised.
* `C95_grouped_transposed_raises`: A grouped transposed convolution has `out / groups` rows in its weight but announces `out` channels: with a scale per channel the quantiser always raises.
* `C95_max_ave_shared_raises`: Two layers with a different number of weights per channel cannot share a quantiser with the mean of the channel maxima: it raises.
* `C96_conv3d_depth_not_padded`: A convolution over three dimensions with a kernel and a stride along the depth only: the input is not padded, although five frames by steps of two need one frame of padding on each side, so there are two outputs along the depth and not three.
* `C96_conv3d_depth_raises`: With the kernel as deep as the clip the same convolution raises in place of giving `⌈2 / 2⌉ = 1` output.
* `C97_channel_bias_in_zero_point`: where the claim about quantised biases fails: convolution or transposed convolution with one weight scale per channel, two of them not (within a relative 1e-5) equal. The comparison of the scale of the bias with the scale of the output fails although the scales are equal channel by channel, so the bias is not added to the integers: it becomes a zero point, minus the code of the bias. The output still denotes the right values.
* `C97_channel_bias_next_layer`: the consequence of `C97_channel_bias_in_zero_point` for the next layer: a convolution of the output of a convolution with per-channel weights and a quantised bias returns a plain tensor, a convolution of the output of one with per-tensor weights a quant tensor.
* `C97_channel_input_not_integer`: fails for inputs with one scale per channel outside depthwise convolutions: a 1x1 convolution of two channels, codes 1 and 1 with scales 1 and 1/2, all the weights one. Every output is 3/2 and the declared scale of the first channel is 1, so that no integer denotes it.
* `C97_channel_multiplier_scale_shape`: fails for depthwise convolutions with several outputs per input channel: with one scale per input channel the output has a scale that does not even broadcast to it.
* `C97_linear_float_bias_axis`: fails for a float bias of a linear layer on three-dimensional inputs: the channels of the bias are put along dimension 1 instead of the last one. With as many channels as positions the zero point is that of another channel, so that no integer denotes the output (here 5/2 with scale 1 and zero point 0); with another number of channels the zero point does not have the shape of the output.
* `C98_zero_point_assertion`: negation: with an input quantiser that has a zero point (and no output quantiser), a layer that is to return a quant tensor passes the check of its configuration and then raises an assertion error, whenever its function returns.
* `C98_unbatched_float_bias_raises`: negation: a linear layer with quantised input and weight and a float bias raises on an input without batch dimension, although the float layer does not.
* `C99_frozen_module_thawed`: negation: a module that had been put in evaluation mode inside a model in training mode (a frozen batch normalisation, say) is in training mode after an export.
* `C99_unsupported_leaves_eval`: negation: an export that raises because of an unsupported quantiser leaves the whole model in evaluation mode.
* `C99_grads_lost`: negation: a TorchScript export that raised while tracing, followed by one that succeeds, leaves parameters that no longer require gradients and a model in evaluation mode.
* `C99_retry_uses_stale_cache`: negation: an ONNX export that raised while tracing is tried again with another input. The dummy forward pass of the second export does not cache activations, so that the exporter works with what the first one had cached.
* `C100_last_dim_groups_wrong`: with groups of 4 over 8 features the first four features do not share a scale.
* `C100_calibration_unreadable`: while activations are calibrated (`observer_only`), the quant tensor that the group-wise activation returns cannot be read, for any tensor: the value has not been viewed but the scale has the rank of the view.
* `C100_passthrough_unreadable`: a disabled quantiser that is given a group-wise quant tensor returns a quant tensor that cannot be read if the grouped dimension is the last one, since the value is flattened twice.
* `C100_passthrough_reshapes`: with a dimension after the grouped one, the disabled quantiser merges that dimension too: the shape of a 1 × 2 × 2 tensor becomes 1 × 4.
* `C100_metadata_cache_raises`: caching the metadata of a group-wise activation in evaluation mode (the default of `cache_inference_quant_act`) always raises: the field that is reset does not exist. Caching the whole tensor works.
* `C100_negation_raises`: a group-wise integer quant tensor can be neither negated nor subtracted, and its absolute value raises if it is signed.
* `C101_hook_left_behind`: Leaving the block without a call leaves the hook behind: the next call of the model, outside, switches it over, and nothing switches it back.
* `C101_flags_not_restored`: Flags that were on before are off after; the flag of the weight, off before, is on after.
* `C101_disabled_not_neutral`: A context object with `enabled=False` is not without effect.
* `C101_reuse_breaks`: A context object that has been used and is entered again: from then on every call that gets through its forward pass raises an assertion error, inside the block and after it, for ever.
* `C102_weight_norm_differs`: (negation, for scales computed from the tensor passed). With a weight-normalising quantiser (`ParameterPreScalingWeightNorm`, A2Q) a column quantised on its own is normalised by its own norm: the weights 1, 3 are quantised to 1, 3, but column 0 alone to 4.
* `C102_reinit_stale`: (negation, for a quantiser built again). The modules to tell about slices are looked up once. When the quantiser is built again after that (`layer.weight` assigned a parameter, learned rounding set up, …), its learned rounding is not told, and the column asked for comes back with the shape of the whole weight.
* `C102_failed_call_poisons`: (negation, for a call that raises). A slice the scale does not fit raises, and the slice stays set in the learned rounding: the whole weight cannot be quantised any more.
* `C102_row_slice_wrong`: (negation, for a slice of the dimension of the scales). Asked for one row of a weight with a scale for each row, the layer returns that row quantised with the scale of every row in turn, in the shape of the whole weight.
* `C102_cache_holds_slice`: (negation, for the cache of the quantiser). With caching on, the first tensor quantised is kept even if it is a slice, and it stays when the whole weight is quantised.
* `C102_jit_extra_none`: (negation, beyond the rank). With more entries than dimensions, all `None`, eager mode raises and TorchScript does not.
* `C103_embedding_many_scales_raise`: embedding, negation: a weight quantiser with more than one scale makes the layer raise for every input, even if it is to return a plain tensor.
* `C103_quant_cat_raises`: negation: `QuantCat` raises for every list of tensors.
* `C103_tied_raises`: negation: a layer with tied input and output quantisers cannot be constructed.
* `C103_export_handler_raises`: negation: asking a `QuantEltwiseAdd` or `QuantCat` whether it needs an export handler raises exactly if its input quantiser is off.
* `C103_different_scales_raise`: negation: in evaluation, with an input quantiser with one scale that depends on the input, the layer raises if the scales of its two inputs differ by more than the tolerance of `torch.allclose`.
* `C103_training_sum_not_valid`: negation: in training, with scales that depend on the input, the layer returns a quant tensor that is not valid: its values are not multiples of the scale it declares.
* `C103_mixed_order_matters`: negation: without an input quantiser, a quant tensor plus a tensor is a quant tensor, but the tensor plus the quant tensor is not: a layer that is to return quant tensors raises for one order only.
* `C103_cat_channels_broken`: negation: concatenating two quant tensors with the same per-channel scales along the channels is accepted, but the result keeps the scales of the first: they do not fit its values, and reading its integers raises.
* `C104_hardtanh_off_is_identity`: fails for a `QuantHardTanh` whose quantiser is disabled (as during calibration, or for a float reference): `_is_act_enabled` has dropped the clamp when the layer was made, so that the layer is the identity.
* `C104_hardtanh_exceeds`: fails for a `QuantHardTanh` whose quantiser represents more than `[min_val, max_val]`: values above `max_val` are returned.
* `C104_hardtanh_passthrough_off_grid`: fails for a `QuantHardTanh` without quantiser on a quant tensor: its limits need not be multiples of the scale, and what it returns claims to be a quant tensor of the scale of its input, of which it is not a multiple.
* `C105_plain_input_raises`: fails for plain tensors: every upsampling layer raises, in mode `nearest` too.
* `C105_bicubic_overflows`: fails for `bicubic`: interpolated values leave the range of the container (8 bit here), and what is returned is not a valid quant tensor.
* `C105_fractional_zero_point`: fails for zero points that are not integers, as a layer with a float bias returns them: the values of a quant tensor are rounded to multiples of the scale, which are not codes of the zero point.
* `C106_default_raises`: fails for a layer made with the default `return_quant_tensor=False`: it raises for every input (line 55 calls `any` of `False`).
* `C106_plain_input_raises`: fails for plain tensors.
* `C106_unsigned_overflows`: fails for unsigned inputs: the declared width leaves no room for the sign. Two 8 bit features of 255 have a sum of 510, of which the negated value is declared to be a signed number of 9 bits.
* `C106_most_negative_overflows`: fails for the most negative code: two 8 bit features of -128 have the sum -256, of which the negated value does not fit 9 bits.
* `C107_nine_of_sixteen`: fails for windows whose size is not a power of two: the average of nine sixteens is nine, since the sum of 12 bits is shifted by 4, that is divided by 16.
* `C107_wider_output`: fails for a truncation quantiser that is wider than the input, as that of 8 bits for inputs of 4 bits: the average of four ones is sixteen.
* `C107_zero_point`: fails for inputs with a zero point: it is added to the sum once, and shifted with it. The average of zeros is -96.
* `C107_uneven_windows`: fails for adaptive pooling where the sizes do not divide: the layer returns different numbers for windows of sixteens of different sizes.
* `C107_accumulators_raise`: accumulators: the constructors of `TruncQuantAccumulator` and `ClampQuantAccumulator` raise whatever their arguments, since neither runs `nn.Module.__init__` before the quantiser is assigned; that of `TruncAvgPool2d` succeeds.
* `C108_per_channel_fixed_point_is_float`: The class named `Int8WeightPerChannelFixedPoint` gives a channel with largest weight 3 the scale 3/127, which is not a power of two: its settings are those of `Int8WeightPerChannelFloat`.
* `C108_shifted_negative_clips`: A shifted quantiser clips weights that are all negative: the smallest, -3, becomes -2.
* `C109_half_precision_not_kept`: in half precision (smallest normal number `2 ^ -14`): E5M2 weights that are numbers of the format already, with scale 1, are changed.
* `C109_unscaled_raises`: the classes without scaling cannot quantise a weight: nothing provides the view of the input.
* `C109_bias_not_recognised`: with `exponent_bias` overridden the numbers are not those of OCP, yet the weight is taken for one: exporters write the OCP data type, whose bias is 7.
* `C110_last_dim_groups_wrong`: with groups of 4 over 8 features the first four features do not share a scale.
* `C110_passthrough_unreadable`: what comes out has no readable value.
* `C110_mx_act_scale_two`: every group whose largest absolute value is positive and at most the largest number of the format gets the scale 2, however small its elements are.
* `C110_mx_act_flushes`: a tensor of any shape all of whose elements are below the smallest positive number of the format comes out as zeros. (MX weights with the same elements are kept: `C110_mx_weight`.)
* `C111_minifloat_raises`: `is_valid` and `minifloat()` of every group-wise minifloat tensor, and so its negation, its absolute value if it is signed, and every difference with it on the right, raise.
* `C112_top_clips`: The flows turn the narrow range off but take the scale from the largest absolute value over `2 ^ (b - 1)`: a positive peak is one code out of range, so the largest weight, 1, loses a whole scale.
* `C112_po2_per_channel_is_float`: With `po2_scale` and `per_channel` the scales are not powers of two: a channel with largest weight 3 gets 3/128.
* `C112_bare_format_raises`: the format `eEmM` by itself, which the help of the option names and its validator accepts, is refused: the underscore before it is missing, so the widths stay in the key.
* `C112_quantize_model_raises`: `quantize_model` passes its arguments by position but leaves out the group dimension, so all options for inputs are taken for their neighbours. It raises for every choice of the options that their help allows (a format given as a string and a precision of scales that is one of the two or left out), with or without quantised inputs.
* `C113_input_per_row_raises`: Not so for the inputs of convolutions and attention: with scales per row, their quantiser cannot be built, because how rows are taken is never set.
* `C113_zeros_are_nan`: Elements that share a scale and are all 0 become NaN, in every input, for both types.
* `C113_negatives_saturate`: What a symmetric dynamic quantiser makes of elements that share a scale and are all further below 0 than apart: its scale comes from how far apart they are, and they all become that distance below 0, whatever they were.
* `C114_default_raises`: with the default options of `export_onnx` no model with a minifloat weight can be exported.
* `C114_unsigned_exported_as_signed`: an unsigned FNUZ activation quantiser (7 bits: no sign) returns 0 for -1; it is exported with the signed type, and the nodes compute -1.
* `C114_not_saturating_exported_saturating`: an OCP E5M2 activation quantiser that does not saturate returns infinity for 100000; the nodes saturate to 57344.
* `C114_bias_not_exported`: an E4M3 quantiser with `exponent_bias` 4 returns 3584 for 3584; it is exported as OCP E4M3, whose largest number is 448.
* `C115_other_branch_false`: On an input for which the code goes another way the graph still goes the traced one: silently wrong.
* `C115_optional_argument_false`: A parameter that defaults to `None` and was given no value is not in the signature of the graph: passing it raises, although the model takes it.
* `C115_late_attribute_false`: Attributes are read in the graph where they are first used, not where the model reads them: an update in between is seen. The graph is wrong on the very input that was traced.
* `C115_buffer_update_false`: Updates of buffers without traced arguments happen once, while tracing, and are not in the graph.
* `C115_augmented_assignment_false`: An augmented assignment of a tensor is recorded as the operator: what else refers to the tensor is not updated.
* `C115_tracing_raises_false`: `return self.count + x` with a buffer, `return torch.cat(x)` without `dim`, and an argument in a named tuple: the model runs, tracing with a value raises.
* `C115_leaf_with_submodules_false`: A leaf module whose `forward` calls a module cannot be traced with values: whatever the module, the input and the recursion limit.
* `C116_ceil_mode_false`: fails in ceil mode: the windows cut off at the border are divided by fewer elements, and the values of the output are no longer multiples of its scale.
* `C116_zero_point_false`: fails with a zero point: the zero point is kept although the codes are multiplied, and the code of the output leaves the container.
* `C116_signed_width_false`: fails for the lowest code of a signed input: three-bit codes -4 under a `3 x 3` kernel give a sum that does not fit the declared width.
* `C116_fixed_point_false`: The factor is not a fixed-point number, although its quantiser restricts scales to powers of two: for a `3 x 3` kernel its scale is `1 / 1152`.
* `C116_steep_slope_false`: fails for slopes above one: the larger of the input and its multiple is not the leaky ReLU.
* `C116_shared_slopes_false`: fails for layers made with the default quantisers: these are shared, so that after a training call of each of two layers with slopes `1 / 100` and `1 / 5` the second multiplies by less than `1 / 32`. The error at `-1` exceeds `1 / 8`, where the bound of `C116_leaky_calibrated` is below `1 / 64`.
* `C116_leaky_from_map_false`: `quantize_flexml` raises for a model with `nn.LeakyReLU`: the handler passes the quantisers of the map, and not the slope.
* `C42_sum_before_concatenation_changed`: is false of the code when an operand of a concatenation is a sum: the channels of the operands after it are given the wrong positions.
* `C42_sum_beside_concatenation_changed`: is false of the code when the layer that feeds an operand of a concatenation is reached first through a sum: the channels of the operands after it are given the wrong positions.
* `C117_single_weight_nan`: Disagreement: a channel with a single weight (a depthwise 1×1 convolution) has no variance, so its scale is NaN.
* `C117_learned_sigma_raises`: Disagreement: `StatsOp.MEAN_LEARN_SIGMA_STD` raises for every tensor, its parameter being stored under another name than it is read.
* `C118_constant_clipped`: Disagreement: when all elements are equal and positive, no range keeps anything after quantisation (its last bin gets nothing), so that the smallest range wins: the threshold is far below the elements, and every one of them is clipped.
* `C118_sign_matters`: … whereas with the opposite sign nothing is clipped.
* `C119_grouped_transpose_raises`: is false of the code for transposed convolutions with groups: `update_batch` raises on every input, unless a group has one input channel and the kernel one tap.
* `C119_output_padding_missed`: is false of the code for transposed convolutions with output padding: the outputs in the padding change although the matrix says that nothing changes.
* `C120_windows_missed`: is false of the code for convolutions with a stride below the size of the kernel: windows are missed. The only window looked at is zero, the layer output is not.
* `C120_foreign_windows`: is false of the code for convolutions with a stride above the size of the kernel: windows that the layer does not have are looked at. All the outputs are zero, the second window looked at is not.
* `C120_smaller_batch_raises`: is false of the code if a later batch has one sample less than the first, for a layer with one window per sample: an index is out of range.
* `C120_larger_batch_ignored`: is false of the code if a later batch is larger than the first: its last samples are not used.
* `C120_drawn_with_replacement`: is false of the code for `p = 1`: indices are drawn with replacement, so that a window may be used several times and others not at all.
* `C120_linear_four_axes`: is false of the code for the inputs of linear layers with four axes: the vectors are as long as the sum of the last two axes. Here two vectors of two numbers are put into one of four, three vectors of which are left.
* `C121_float_first_raises`: A pass without quantisation that no pass with quantisation came before raises.
* `C122_read_twice_wrong`: Not every graph: a node that reads the same stochastic node twice loses one of its arguments, so `add(d, d)` becomes `add(x)`.
* `C122_by_name_wrong`: The pass goes by the name of the node: a layer of the model that is only called so is taken out as well, and the result changes.
* `C122_other_readers_raise`: A stochastic node with two readers, or read only inside a tuple or as a keyword argument, makes the pass raise, although the graph is ordered, the node passes its input on and the graph runs.
* `C122_mean_keyword_raises`: The dimensions passed by keyword: the call is matched, and rewriting it raises, for every tensor.
* `C122_mean_rewritten_raises`: `keepdim` passed by position is not looked at, and `keepdim=False` is left on the node: both calls are rewritten into calls of the module that raise. So is a mean over a tensor with five dimensions, and over an empty batch.
* `C123_axes_swapped`: Otherwise the exported layer squeezes a dimension that is not one: whatever the parameters and states, the graph is not valid. Without `batch_first` the exporter squeezes the batch, with it the sequence.
* `C123_no_bias_raises`: A layer built without biases computes, and its export raises.
* `C123_partially_quantised_raises`: A cell some of whose quantisers are enabled and some not cannot be exported.
* `C123_attribute_name_differs`: The narrow range of the output gate is written under a name that does not follow the others: the attribute that its name predicts is missing.
* `C124_clash_loses`: With both keys in the dictionary the value of the current one is lost.
* `C124_min_value_differs`: Below the minimal value the two differ: the statistics-based quantiser clamps the quotient, the learned one the dividend.
* `C124_round_differs`: With scales rounded to the nearest power of two, ties to even, they differ as well.
* `C125_widths_swapped`: The widths of exponent and mantissa are exchanged: no other format comes out as it went in.
* `C125_becomes_invalid`: A value of a format with two exponent and three mantissa bits (an OCP 6-bit type) is no longer valid after a disabled QuantIdentity.
* `C125_int_raises`: Integer quant tensors do not pass a disabled quantiser that would keep them: it raises.
* `C125_no_quantiser`: An activation function in a proxy without quantiser raises for every input; without either the input is returned as it is.
* `C126_plain_input_refused`: A plain input is refused, whatever happened before.
* `C126_stale_quant_weight`: What `quant_weight()` returns after later inputs were wider but not cached is for the narrower ones: with the wider ones it overflows. The forward pass itself does not.
* `C127_shared_raises`: A bias quantiser that takes its scale from the layer cannot be shared by two layers, not even of the same class: every forward pass on a quantised input and weight raises (even with the quantiser off).
* `C127_recorded_scale_is_kept`: What `quant_bias()` returns is not what the next forward pass uses when the input's scale has changed since, or when that pass was made with caching off: the recorded scale is kept.
* `C129_rnn_ignores_gate_acc`: Disagreement: the number of bits of the gate's accumulator cannot be set in RNN layers with the keyword that LSTM layers have for it; it is ignored.
* `C129_tied_quantisers_raise`: Disagreement: asking for the same quantiser at the input and the output of an addition or concatenation always raises.
* `C130_shift_always_raises`: Disagreement: a shift cannot be had with the factor either.
* `C130_log_scale_at_least_one`: Disagreement: where scales are restricted to powers of two or learned in the logarithm, the magnitude is taken of the logarithm: the scale is never below one, whatever the factor.
* `C130_log_scale_inverted`: Disagreement: so a quantiser that has just been made has the inverse of the scale of the statistic, if that is below one.
* `C131_bias_never_loads`: Disagreement: the weights of a layer with biases are never loaded, since biases are not fused.
* `C131_equal_sizes_refuse_encoder`: Disagreement: a layer whose query and encoder have the same size refuses states of an encoder, although the layer that it replaces takes them.
* `C131_caller_dict_is_changed`: Disagreement: loading takes the weights out of the caller's dict, so the layer that they came from can no longer load it.
* `C132_two_heads`: Disagreement: with two outputs only the last is made plain.
* `C132_read_twice`: Disagreement: the output of a layer that is also read elsewhere stays a quant tensor.
* `C132_inner_layer_changed`: Disagreement: where the last layer returns plain tensors already, a layer inside of the model is made to return plain tensors.
* `C133_two_rows`: Disagreement: with tokens in several rows, the number of windows is that of all rows together: windows lie beyond the end and nothing is reported.
* `C133_uneven_windows`: Disagreement: for windows of different lengths it is not the perplexity.
* `C134_no_mask_raises`: Disagreement: the mask is declared optional, but without one the layer raises.
* `C134_one_position_mask_raises`: Disagreement: for one position that attends to several, the mask with two dimensions that `MultiheadAttention` takes raises.
* `C135_lstm_without_bias`: Disagreement: an LSTM without bias is replaced by one with bias.
* `C135_lstm_dropout_lost`: Disagreement: dropout between the layers of an LSTM and its projections are lost, unless the rewriter is given them.
* `C135_attention_bias`: Disagreement: multi-head attention is always replaced by a layer with bias and without learned key and value, whatever the old layer has.
* `C135_dtype_not_kept`: Disagreement: device and number format of a linear layer are not kept: the replacement is made with the defaults of torch.
* `C135_two_arguments_need_name`: Disagreement: a lambda with two arguments raises where modules are replaced by class or by name: only the replacement of an instance passes the name.
* `C136_mask_is_converted`: Disagreement: a buffer that is not persistent, such as a mask of truth values, has the target format afterwards, even if nothing was done.
* `C136_counter_is_converted`: Disagreement: a new tensor of integers, such as a counter, has the target format afterwards.
* `C136_double_precision_lost`: Disagreement: double precision is lost: the value afterwards is what single precision makes of it.
* `C137_factor_ignored`: Disagreement: the gradient of a multiple of the loss, or of any function of it with slope `c` there, is that of the loss itself. It is right only for slope 1 or if it vanishes.
* `C137_twice_the_loss`: Disagreement, seen from the loss: whenever the loss has a slope at all, the gradient of twice the loss is not its derivative.
* `C139_not_straight_through`: The gradient of an input that is not clipped is not the gradient of the output, unlike that of integer quantisers.
* `C144_zero_channel`: what is not guaranteed: a channel of zeros is not quantised to zeros. All its weights become NaN.
