{"id": "C01", "title": "Integer quantisation never leaves the declared integer range", "statement": "Whatever finite value is quantised, the integer code produced by the integer quantiser lies between min_int and max_int of the declared signedness, narrow-range flag and bit width, and there are exactly 2^b codes in that interval (2^b-1 with narrow range).", "quantifier": "every finite input, every non-zero scale, every zero point, every rounding function, every bit width, both sign settings, both narrow settings", "why_tests_cant": "the input domain and the bit width are unbounded; a test samples a handful of values and widths", "anchors": ["src/brevitas/core/quant/int_base.py:IntQuant.to_int", "src/brevitas/function/ops.py:min_int,max_int,tensor_clamp", "src/brevitas/core/function_wrapper/clamp.py:TensorClamp"]}
{"id": "C02", "title": "Fake-quantised values sit on the affine grid", "statement": "Every value returned by the integer quantiser equals (n - zero_point) * scale for some integer n inside the declared range, so an integer backend can represent it exactly.", "quantifier": "every finite input, every non-zero scale, every integer or non-integer zero point, every bit width and flag", "why_tests_cant": "unbounded inputs and parameters", "anchors": ["src/brevitas/core/quant/int_base.py:IntQuant.forward,DecoupledIntQuant.forward"]}
{"id": "C03", "title": "Fake quantisation is idempotent", "statement": "Quantising an already quantised tensor with the same scale, zero point, bit width and flags returns it unchanged.", "quantifier": "every finite input, every non-zero scale, every zero point, every rounding function that fixes integers (round, floor, ceil, round-to-zero, DPU)", "why_tests_cant": "equality must hold for all inputs including ties and saturated values", "anchors": ["src/brevitas/core/quant/int_base.py:IntQuant.forward", "src/brevitas/function/ops.py:round_to_zero,dpu_round"]}
{"id": "C04", "title": "In-range values are rounded to the nearest grid point", "statement": "With round-to-nearest and a positive scale, a value whose scaled position lies inside the integer range is moved by at most half a scale, and no other representable value is closer; more generally the output is the representable value closest to the input, also when the input saturates.", "quantifier": "every finite input, every positive scale, every integer zero point, every bit width and flag", "why_tests_cant": "nearest-point optimality quantifies over all inputs and all representable values", "anchors": ["src/brevitas/core/quant/int_base.py:IntQuant.forward", "src/brevitas/function/ops_ste.py:round_ste"]}
{"id": "C05", "title": "Fake quantisation is monotone", "statement": "With a positive scale, if x <= y then quantise(x) <= quantise(y), for every supported rounding function (round, floor, ceil, round-to-zero, DPU round).", "quantifier": "all pairs of finite inputs, all positive scales, all zero points, all widths", "why_tests_cant": "pairs of reals cannot be enumerated", "anchors": ["src/brevitas/core/quant/int_base.py:IntQuant.forward", "src/brevitas/function/ops.py:round_to_zero,dpu_round", "src/brevitas/core/function_wrapper/ops_ste.py"]}
{"id": "C06", "title": "Out-of-range values saturate at the end points", "statement": "Values above (below) the representable interval map exactly to the largest (smallest) representable value; nothing wraps around.", "quantifier": "all finite inputs beyond the interval, all positive scales, zero points, widths", "why_tests_cant": "unbounded input magnitude", "anchors": ["src/brevitas/core/quant/int_base.py:IntQuant.to_int", "src/brevitas/function/ops.py:tensor_clamp"]}
{"id": "C07", "title": "Zero is exactly representable and symmetric quantisers are odd", "statement": "With an integer zero point inside the integer range, quantising 0 returns exactly 0; with zero point 0 and a signed narrow range, quantise(-x) = -quantise(x).", "quantifier": "every scale, in-range integer zero point, every width; every finite x for oddness", "why_tests_cant": "unbounded domain", "anchors": ["src/brevitas/core/quant/int_base.py:IntQuant.forward", "src/brevitas/core/zero_point.py"]}
{"id": "C08", "title": "Rounding functions obey their documented meaning", "statement": "round returns a nearest integer with ties to even; floor/ceil the greatest/least integer bound; round_to_zero never increases magnitude and is within one unit; dpu_round is a nearest integer whose ties go up for negative numbers; binary_sign is +1 for x >= 0 and -1 otherwise, never 0.", "quantifier": "every finite input", "why_tests_cant": "documented on examples only; ties and signs form infinite families", "anchors": ["src/brevitas/function/ops.py:binary_sign,round_to_zero,dpu_round", "src/brevitas/core/function_wrapper/ops_ste.py"]}
{"id": "C09", "title": "Clamping is exact and in-place agrees with out-of-place", "statement": "tensor_clamp returns the input when it is between the bounds and the violated bound otherwise; the in-place variant gives the same result whenever min <= max, elementwise for tensors of any length with broadcast scalar bounds.", "quantifier": "every finite input and bound pair, every tensor length", "why_tests_cant": "unbounded inputs; the two implementations use different primitives", "anchors": ["src/brevitas/function/ops.py:tensor_clamp,tensor_clamp_", "src/brevitas/core/function_wrapper/clamp.py:TensorClamp,ScalarClamp,ClampMin"]}
{"id": "C10", "title": "Static max-statistics scaling never clips", "statement": "When the scale is derived from the maximum absolute value of the tensor divided by the integer threshold of a signed symmetric quantiser, every element of the tensor is reconstructed with an error of at most half a scale.", "quantifier": "every tensor of every length with at least one non-zero element, every bit width >= 2 (narrow) ", "why_tests_cant": "depends on all elements of arbitrary tensors", "anchors": ["src/brevitas/core/quant/int.py:RescalingIntQuant.forward", "src/brevitas/core/stats/stats_op.py:AbsMax", "src/brevitas/core/scaling/int_scaling.py:IntScaling"]}
{"id": "C11", "title": "Scale factors respect the configured minimum", "statement": "A scale produced through the restrict/clamp pipeline is never smaller in absolute terms than scaling_min_val and hence never zero, for the FP, log-FP and power-of-two restrictions.", "quantifier": "every learned or measured raw value, every min value > 0, every restriction type", "why_tests_cant": "the raw value can be any number during training", "anchors": ["src/brevitas/core/restrict_val.py:_RestrictClampValue,FloatRestrictValue,LogFloatRestrictValue,PowerOfTwoRestrictValue", "src/brevitas/core/scaling/runtime.py"]}
{"id": "C12", "title": "Power-of-two quantisers return power-of-two scales", "statement": "A quantiser documented as fixed point or MX returns a scale that is exactly 2^k for an integer k whatever statistics it has seen.", "quantifier": "every positive statistic, every bit width, every shipped fixed-point quantiser", "why_tests_cant": "statistics range over all positive numbers", "anchors": ["src/brevitas/core/restrict_val.py:PowerOfTwoRestrictValue", "src/brevitas/core/scaling/int_scaling.py:PowerOfTwoIntScaling", "src/brevitas/quant/fixed_point.py", "src/brevitas/quant/base.py:PerChannelPoTScaling8bit,PerTensorPoTScaling8bit", "src/brevitas/core/scaling/runtime.py:RuntimeDynamicGroupStatsScaling", "src/brevitas/quant/experimental/mx_quant_ocp.py"]}
{"id": "C13", "title": "Asymmetric quantisation covers the observed range", "statement": "With scale from the min/max interval and zero point from the negative minimum, the zero point is an integer inside the integer range and every observed element is reconstructed within one scale step (up to half a step of zero-point rounding plus half a step of value rounding).", "quantifier": "every tensor of every length, every bit width", "why_tests_cant": "ranges over arbitrary tensors", "anchors": ["src/brevitas/core/zero_point.py:_ScaleShiftZeroPoint,StatsFromParameterZeroPoint", "src/brevitas/core/stats/stats_op.py:AbsMinMax,NegativeMinOrZero"]}
{"id": "C14", "title": "Quantisation delay counts forward passes exactly", "statement": "With quant_delay_steps = n > 0 the first n forward calls return the input unquantised and every later call returns the quantised value; with n <= 0 every call is quantised.", "quantifier": "every n, every sequence of forward calls of any length and inputs", "why_tests_cant": "call histories are unbounded", "anchors": ["src/brevitas/core/quant/delay.py:_DelayQuant,DelayWrapper"]}
{"id": "C15", "title": "Activation scale calibration averages exactly the first k training batches", "statement": "While fewer than collect_stats_steps training calls have been made, the returned scale is the statistic of the current batch and the buffer accumulates a mean (or momentum mean); at the next training call the parameter is initialised from the buffer and afterwards statistics are never read again.", "quantifier": "every collect_stats_steps, every sequence of training and inference calls, every statistic sequence", "why_tests_cant": "the state machine must be right for every interleaving of training, eval and local-loss calls", "anchors": ["src/brevitas/core/scaling/standalone.py:ParameterFromRuntimeStatsScaling.training_forward,forward", "src/brevitas/core/utils.py:inplace_momentum_update"]}
{"id": "C16", "title": "Inference does not change calibration state", "statement": "Calls in eval mode, and calls under local loss mode, leave the counter, the statistics buffer and the learned value unchanged, so evaluating a model between calibration batches never changes the calibrated scale.", "quantifier": "every history in which eval/local-loss calls are interleaved anywhere", "why_tests_cant": "all interleavings", "anchors": ["src/brevitas/core/scaling/standalone.py:ParameterFromRuntimeStatsScaling.forward", "src/brevitas/core/zero_point.py:ParameterFromRuntimeZeroPoint", "src/brevitas/core/stats/stats_wrapper.py:_RuntimeStats"]}
{"id": "C17", "title": "Learned scale checkpoints round-trip", "statement": "Saving the state dict of a runtime-statistics scaling module and loading it into a freshly built module gives a module that returns the same scales for every later inference input.", "quantifier": "every calibration history before saving, every later input", "why_tests_cant": "all histories and crash points", "anchors": ["src/brevitas/core/scaling/standalone.py:ParameterFromRuntimeStatsScaling.state_dict,_load_from_state_dict"]}
{"id": "C18", "title": "Learned bit widths stay integral and above the minimum", "statement": "The bit width returned by a learned bit-width parameter is always an integer not smaller than the configured minimum, whatever value the optimiser writes, and equals the initial bit width before any update.", "quantifier": "every optimiser-written offset, every min/initial width", "why_tests_cant": "gradient updates can write any number", "anchors": ["src/brevitas/core/bit_width/parameter.py:BitWidthParameter"]}
{"id": "C19", "title": "MSB clamp and removal keep bit widths inside bounds", "statement": "The clamped bit-width stack returns input_bit_width minus the learned removal clamped into [min_overall, max_overall].", "quantifier": "every input width, every removal parameter", "why_tests_cant": "unbounded inputs", "anchors": ["src/brevitas/core/bit_width/const.py:MsbClampBitWidth", "src/brevitas/core/bit_width/parameter.py:RemoveBitwidthParameter"]}
{"id": "C20", "title": "Accumulator-aware weights cannot overflow the accumulator", "statement": "Weights quantised by the accumulator-aware quantiser with target accumulator width P have, per output channel, a dot product with any vector of N-bit inputs that fits a signed P-bit accumulator, and so does every partial sum in any order.", "quantifier": "every weight tensor, every learned norm parameter, every input vector of the declared width and sign, every summation order, every P, N", "why_tests_cant": "overflow freedom is a worst-case claim over all inputs and weights", "anchors": ["src/brevitas/core/scaling/pre_scaling.py:AccumulatorAwareParameterPreScaling", "src/brevitas/core/quant/int_base.py:DecoupledIntQuant", "src/brevitas/function/ops.py:get_upper_bound_on_l1_norm,round_to_zero", "src/brevitas/quant/base.py:AccumulatorAwareWeightQuant"]}
{"id": "C21", "title": "Zero-centred accumulator-aware weights cannot overflow", "statement": "The same guarantee for the zero-centred variant, which uses a larger norm budget because positive and negative weight mass balance.", "quantifier": "every weight tensor, input vector and width", "why_tests_cant": "worst case over all inputs", "anchors": ["src/brevitas/core/scaling/pre_scaling.py:AccumulatorAwareZeroCenterParameterPreScaling", "src/brevitas/core/zero_point.py:PreZeroCenterZeroPoint"]}
{"id": "C22", "title": "Minifloat quantisation returns representable values", "statement": "Every finite value returned by the saturating minifloat quantiser is scale times a number that has an exponent/mantissa encoding in the configured format and is not larger than the format maximum.", "quantifier": "every finite input, every exponent width >= 1, mantissa width >= 1, every bias, every positive scale", "why_tests_cant": "all inputs, all formats", "anchors": ["src/brevitas/core/quant/float.py:FloatQuant.quantize", "src/brevitas/utils/torch_utils.py:float_internal_scale", "src/brevitas/core/function_wrapper/clamp.py:FloatClamp", "src/brevitas/function/ops.py:max_float"]}
{"id": "C23", "title": "Minifloat quantisation is idempotent, monotone and nearest", "statement": "Quantising a minifloat-quantised value again changes nothing; larger inputs never give smaller outputs; within the format range the output is a closest representable value.", "quantifier": "every finite input (pair), every format, every positive scale", "why_tests_cant": "all inputs, all formats", "anchors": ["src/brevitas/core/quant/float.py:FloatQuant", "src/brevitas/utils/torch_utils.py:float_internal_scale"]}
{"id": "C24", "title": "Minifloat overflow policy", "statement": "Saturating formats clip to the largest finite value; non-saturating formats with inf codes send overflow to signed infinity; formats with only NaN codes send overflow and infinities to NaN; unsigned formats never return negative values.", "quantifier": "every input including infinities, every combination of saturating/inf/nan/sign configuration", "why_tests_cant": "decision table over unbounded inputs", "anchors": ["src/brevitas/core/function_wrapper/clamp.py:FloatClamp"]}
{"id": "C25", "title": "Declared largest minifloat is the largest available code", "statement": "The maximum value used for clamping is the largest value whose code is neither an inf nor a NaN code: with no special codes it equals the all-ones code, and for every choice of special mantissa codes no non-special code exceeds it.", "quantifier": "every exponent/mantissa width, every bias, every set of inf/NaN mantissa codes", "why_tests_cant": "format space is unbounded", "anchors": ["src/brevitas/utils/float_quant_utils.py:get_max_available_float,get_minifloat_value,mantissa_bits_to_float", "src/brevitas/function/ops.py:max_float"]}
{"id": "C26", "title": "Binary and ternary quantisers emit only their alphabet", "statement": "Binary quantisation returns +scale or -scale, ternary returns -scale, 0 or +scale with zero exactly when |x| <= threshold*scale; the returned bit width is 1 and 2.", "quantifier": "every finite input, every scale, every threshold", "why_tests_cant": "unbounded inputs", "anchors": ["src/brevitas/core/quant/binary.py", "src/brevitas/core/quant/ternary.py"]}
{"id": "C27", "title": "Truncation drops exactly the requested least significant bits", "statement": "Truncating a valid integer quant tensor from bit width b to b' returns the integer divided by 2^(b-b') and rounded with the configured function, minus the zero point, times the scale; with floor and zero point 0 this is an arithmetic right shift, and the result fits b' bits.", "quantifier": "every integer in range, every b >= b', every scale", "why_tests_cant": "unbounded widths and values", "anchors": ["src/brevitas/core/quant/int.py:TruncIntQuant.forward"]}
{"id": "C28", "title": "A valid quant tensor round-trips through its integer representation", "statement": "For a valid integer quant tensor, int() lies inside the declared range and (int() - zero_point) * scale reproduces the value exactly; is_valid accepts exactly those tensors up to the documented tolerance.", "quantifier": "every value, scale, zero point and width", "why_tests_cant": "unbounded domain", "anchors": ["src/brevitas/quant_tensor/int_quant_tensor.py:IntQuantTensor.int,is_valid,_pre_round_int_value"]}
{"id": "C29", "title": "Quant tensor addition is exact and declares enough bits", "statement": "Adding two valid quant tensors with equal scale and zero points returns a valid quant tensor whose value is the sum: the integers add and the declared bit width can hold every possible sum.", "quantifier": "all pairs of valid tensors, widths and signs", "why_tests_cant": "worst case over all codes and widths", "anchors": ["src/brevitas/quant_tensor/int_quant_tensor.py:IntQuantTensor.__add__"]}
{"id": "C30", "title": "Quant tensor multiplication is exact and declares enough bits", "statement": "Multiplying two valid zero-point-free quant tensors returns a valid quant tensor: integers multiply, scales multiply, and the declared bit width and sign can hold every possible product.", "quantifier": "all pairs of valid tensors, all widths, all sign combinations", "why_tests_cant": "worst case over all codes and widths", "anchors": ["src/brevitas/quant_tensor/int_quant_tensor.py:IntQuantTensor.__mul__"]}
{"id": "C31", "title": "Quant tensor negation and absolute value stay valid", "statement": "Negating, or taking the absolute value of, a valid quant tensor gives a valid quant tensor with the mathematically negated/absolute value.", "quantifier": "every valid tensor, width, zero point", "why_tests_cant": "worst case codes such as the most negative integer", "anchors": ["src/brevitas/quant_tensor/int_quant_tensor.py:IntQuantTensor.__neg__,__abs__"]}
{"id": "C32", "title": "Quant tensor concatenation preserves values, order and metadata", "statement": "Concatenating quant tensors with the same scale, zero point, bit width and sign yields the concatenated values with valid metadata; any mismatch is rejected with an error.", "quantifier": "every list of tensors", "why_tests_cant": "list length and contents unbounded", "anchors": ["src/brevitas/quant_tensor/int_quant_tensor.py:IntQuantTensor.cat", "src/brevitas/quant_tensor/float_quant_tensor.py:FloatQuantTensor.cat"]}
{"id": "C33", "title": "Declared accumulator bit width holds every dot product", "statement": "The output bit width that a quantised linear or convolution layer declares from input and weight bit widths can hold the integer dot product for all codes of those widths.", "quantifier": "all code vectors, all reduction sizes, all widths", "why_tests_cant": "worst-case sum over exponentially many code vectors", "anchors": ["src/brevitas/quant_tensor/int_torch_handler.py:max_acc_bit_width_linear,max_acc_bit_width_convNd,max_acc_bit_width_convtransposeNd", "src/brevitas/quant_tensor/int_torch_handler.py:quant_layer"]}
{"id": "C34", "title": "Quantised linear layers commute with dequantisation", "statement": "The float output of a linear layer on quant tensors equals output_scale * (integer accumulator - output zero point), with output scale the product of input and weight scales; a bias quantised with that scale is added to the integers, any other bias is carried exactly by the output zero point; the integers belong to the declared container; and inputs or weights with a zero point give the plain float result.", "quantifier": "every input, weight and bias tensor, every size", "why_tests_cant": "algebraic law over arbitrary tensors", "anchors": ["src/brevitas/quant_tensor/int_torch_handler.py:quant_layer,quant_output_scale_impl", "src/brevitas/proxy/parameter_quant.py:BiasQuantProxyFromInjector"]}
{"id": "C35", "title": "Group-wise reshaping is lossless and groups have the declared size", "statement": "Padding plus expansion splits the grouped dimension into consecutive blocks of exactly group_size elements sharing one scale, and expanding then restoring the original shape returns the original tensor.", "quantifier": "every shape, every group dimension, every group size", "why_tests_cant": "shape arithmetic over unbounded shapes", "anchors": ["src/brevitas/core/function_wrapper/shape.py:OverSubChannelBlockView,DynamicOverSubChannelBlockView", "src/brevitas/utils/torch_utils.py:padding", "src/brevitas/quant/solver/parameter.py:SolveParameterScalingShape", "src/brevitas/quant_tensor/groupwise_int_quant_tensor.py"]}
{"id": "C36", "title": "Percentile statistics are order statistics of the data", "statement": "The percentile used for scaling is one of the absolute values of the tensor, at least the requested share of elements are not above it, and the index passed to kthvalue is always legal.", "quantifier": "every tensor, every percentile in (0,100]", "why_tests_cant": "all tensors and percentiles", "anchors": ["src/brevitas/core/stats/stats_op.py:AbsPercentile,NegativePercentileOrZero,PercentileInterval"]}
{"id": "C37", "title": "MSE search returns the best candidate examined", "statement": "The grid search over clipping scales returns the candidate with the smallest loss among the candidates it evaluated.", "quantifier": "every loss function, every candidate sequence", "why_tests_cant": "losses are arbitrary functions", "anchors": ["src/brevitas/core/stats/stats_op.py:MSE.mse_grid_search,mse_fib_search"]}
{"id": "C38", "title": "Learned and stochastic rounding pick a neighbouring integer", "statement": "Learned rounding in inference mode and stochastic rounding return floor(x) or floor(x)+1; stochastic rounding is unbiased in expectation.", "quantifier": "every input, every learned parameter, every random draw", "why_tests_cant": "all parameters and draws", "anchors": ["src/brevitas/core/function_wrapper/learned_round.py", "src/brevitas/core/function_wrapper/stochastic_round.py"]}
{"id": "C39", "title": "Hessian accumulation is independent of batching", "statement": "After any sequence of calibration batches the matrix accumulated for GPTQ equals (2/N) times the sum of x x^T over all columns seen with N the number of samples, however the samples were split into batches.", "quantifier": "every batch sequence of any length and sizes", "why_tests_cant": "all histories of batches", "anchors": ["src/brevitas/graph/gptq.py:GPTQ.update_batch"]}
{"id": "C40", "title": "GPTQ leaves every weight column quantised and is independent of the block size", "statement": "After the layer update every column holds the quantised value chosen for it (later steps never modify it again), each column is processed exactly once, and lazy block updates give the same result as updating all later columns immediately.", "quantifier": "every weight matrix, inverse Hessian factor, block count and column permutation", "why_tests_cant": "loop invariant over arbitrary sizes", "anchors": ["src/brevitas/graph/gptq.py:GPTQ.single_layer_update"]}
{"id": "C41", "title": "GPFQ tracks the exact layer output residual", "statement": "While GPFQ quantises columns greedily, its running residual equals the difference between the float layer output and the quantised layer output on the columns processed so far, and each step's target minimises the next residual norm.", "quantifier": "every weight matrix, calibration inputs and quantiser", "why_tests_cant": "loop invariant over arbitrary sizes", "anchors": ["src/brevitas/graph/gpfq.py:GPFQ.single_layer_update,update_batch"]}
{"id": "C42", "title": "Cross-layer equalisation preserves the network function", "statement": "Dividing source channel weights and biases by positive factors and multiplying the matching sink input channels by the same factors leaves the network output unchanged for every input, through positively homogeneous activations; factors are positive for every weight statistic.", "quantifier": "every weight, bias, input, alpha, number of iterations, number of sources and sinks", "why_tests_cant": "functional equivalence over all inputs", "anchors": ["src/brevitas/graph/equalize.py:_cross_layer_equalization,_equalize,_extract_regions,find_srcs,find_sinks"]}
{"id": "C43", "title": "Cross-layer equalisation balances channel ranges", "statement": "With alpha 0.5, after one equalisation step each non-degenerate channel has the same range in the source as in the sink.", "quantifier": "every pair of positive ranges", "why_tests_cant": "all real ranges", "anchors": ["src/brevitas/graph/equalize.py:_cross_layer_equalization"]}
{"id": "C44", "title": "Batch-norm merging preserves the function", "statement": "Folding batch norm statistics into the preceding layer's weight and bias gives, in inference, the same output as layer followed by batch norm.", "quantifier": "every weight, bias, statistics with var + eps > 0, every input", "why_tests_cant": "functional equivalence", "anchors": ["src/brevitas/nn/utils.py:mul_add_from_bn,merge_bn", "src/brevitas/graph/fixed_point.py:MergeBatchNorm,MoveSplitBatchNormBeforeCat"]}
{"id": "C45", "title": "Channel splitting preserves the function", "statement": "Duplicating a channel and halving either its producing weights (and bias) or its consuming weights leaves the composed network output unchanged, for any number of splits.", "quantifier": "every network weights, inputs, list of channels", "why_tests_cant": "functional equivalence, arbitrary split lists", "anchors": ["src/brevitas/graph/channel_splitting.py:_split_channels,_split_channels_region"]}
{"id": "C46", "title": "Graph rewriting of concatenations preserves the function", "statement": "Collapsing nested concatenations along the same dimension, and moving a batch norm before a concatenation, do not change the computed tensor.", "quantifier": "every concatenation tree, every operand list including repeated operands", "why_tests_cant": "arbitrary graphs", "anchors": ["src/brevitas/graph/fixed_point.py:CollapseConsecutiveConcats,MoveSplitBatchNormBeforeCat"]}
{"id": "C47", "title": "Bias correction applies the mean error", "statement": "After bias correction over any sequence of batches the bias equals the original bias plus the average over iterations of (float mean - quantised mean) per channel.", "quantifier": "every batch sequence", "why_tests_cant": "all histories", "anchors": ["src/brevitas/graph/calibrate.py:_BiasCorrection"]}
{"id": "C48", "title": "Calibration and disabling contexts restore what they changed", "statement": "Leaving calibration mode re-enables quantisation and restores the return-quant-tensor flags and training flags that were in force on entry.", "quantifier": "every model, every prior flag assignment, enabled or not", "why_tests_cant": "arbitrary model states", "anchors": ["src/brevitas/graph/calibrate.py:calibration_mode,DisableEnableQuantization", "src/brevitas/graph/gpfq.py:gpfq_mode"]}
{"id": "C49", "title": "QCDQ export computes what the layer computed", "statement": "The exported quantize-clip-dequantize sequence returns the same value as the layer's fake quantiser for every input, for every bit width up to the container width.", "quantifier": "every input, scale, zero point, width, flags", "why_tests_cant": "equivalence of two programs on all inputs", "anchors": ["src/brevitas/export/common/handler/qcdq.py", "src/brevitas/export/common/handler/base.py:ClipMixin.int_clip_symbolic_kwargs", "src/brevitas/export/torch/qcdq/handler.py", "src/brevitas/export/inference/handler.py"]}
{"id": "C50", "title": "Truncation export computes what the layer computed", "statement": "The exported QCDQ form of a truncation returns the same value as the truncation layer.", "quantifier": "every valid input integer, widths, zero point", "why_tests_cant": "equivalence on all inputs", "anchors": ["src/brevitas/export/common/handler/qcdq.py:QCDQCastTruncQuantProxyHandlerMixin", "src/brevitas/core/quant/int.py:TruncIntQuant"]}
{"id": "C51", "title": "Adaptive average pooling rewrite is exact", "statement": "Replacing an adaptive average pool by a fixed average pool when sizes divide, and reading kernel/stride for truncated pooling, pools exactly the same windows.", "quantifier": "every input and output size", "why_tests_cant": "all sizes", "anchors": ["src/brevitas/graph/per_input.py:AdaptiveAvgPoolToAvgPool", "src/brevitas/nn/quant_avg_pool.py:TruncAdaptiveAvgPool2d.compute_kernel_size_stride"]}
{"id": "C52", "title": "Straight-through estimators leave the forward value alone", "statement": "Every straight-through op returns exactly the plain op in the forward pass and passes gradients unchanged (or the documented mask) in the backward pass.", "quantifier": "every input and gradient", "why_tests_cant": "all values", "anchors": ["src/brevitas/ops/autograd_ste_ops.py", "src/brevitas/function/ops_ste.py"]}
{"id": "C53", "title": "Weight quantisation caching is transparent", "statement": "With inference caching enabled, a proxy returns in eval mode the same quantised weight as without caching as long as the weight does not change, and never serves a cached value in training mode.", "quantifier": "every sequence of mode switches, calls and weight updates", "why_tests_cant": "all histories", "anchors": ["src/brevitas/proxy/parameter_quant.py:WeightQuantProxyFromInjectorBase.forward"]}
{"id": "C54", "title": "Flat to n-d index conversion is the row-major bijection", "statement": "When a layer is quantised column-block-wise, the flat column index is converted to the multi-index that addresses the same element in row-major order.", "quantifier": "every shape, every index", "why_tests_cant": "all shapes", "anchors": ["src/brevitas/graph/gpxq.py:GPxQ.get_quant_weights"]}
{"id": "C55", "title": "Bit-width losses are size-weighted averages", "statement": "The weighted bit-width loss equals the element-weighted mean of the bit widths seen since the last reset, and lies between the smallest and largest of them.", "quantifier": "every sequence of layers and sizes", "why_tests_cant": "all histories", "anchors": ["src/brevitas/loss/weighted_bit_width.py"]}
{"id": "C56", "title": "Graph user replacement rewires exactly the intended uses", "statement": "Inserting a module after a node makes every user except the listed exceptions read the new node, and leaves every other argument untouched.", "quantifier": "every graph, node and exception list", "why_tests_cant": "arbitrary graphs", "anchors": ["src/brevitas/graph/utils.py:replace_all_uses_except", "src/brevitas/graph/base.py:InsertModuleCallAfter"]}
{"id": "C57", "title": "Half-quadratic search only ever returns a scale at least as good as the first", "statement": "The HQO scale/zero-point search keeps the candidate with smallest error among those evaluated before it stops.", "quantifier": "every data tensor, iteration count, parameters", "why_tests_cant": "iterates are data dependent", "anchors": ["src/brevitas/core/stats/stats_op.py:HalfQuadraticOptimizerScale,HalfQuadraticOptimizerZeroPoint"]}
{"id": "C58", "title": "Configuration overrides take effect", "statement": "Overriding an attribute of a quantiser (let / keyword arguments) makes every dependent attribute resolve with the override, the nearest definition in the inheritance order winning.", "quantifier": "every dependency graph, every override set", "why_tests_cant": "arbitrary dependency graphs", "anchors": ["src/brevitas/inject/__init__.py:_ExtendedInjectorType.__getattr__"]}
{"id": "C59", "title": "Dynamic power-of-two group scales never clip and stay tight", "statement": "The microscaling (MX) quantisers choose per group a power-of-two scale that is large enough not to clip the largest element of the group and less than twice the smallest such scale.", "quantifier": "every group of values, every threshold", "why_tests_cant": "depends on the position of the maximum relative to every power of two", "anchors": ["src/brevitas/quant/experimental/mx_quant_ocp.py", "src/brevitas/core/scaling/runtime.py:RuntimeDynamicGroupStatsScaling", "src/brevitas/core/restrict_val.py:PowerOfTwoRestrictValue"]}
{"id": "C60", "title": "Running statistics stay an average of what was observed", "statement": "The statistic used at inference by a running-statistics scale is the average (or exponential moving average) of the statistics of all training calls, whatever inference calls are interleaved, and also when training is resumed from a checkpoint.", "quantifier": "every history of training / inference calls, saves and loads", "why_tests_cant": "histories are unbounded; resume points arbitrary", "anchors": ["src/brevitas/core/stats/stats_wrapper.py:_RuntimeStats", "src/brevitas/core/utils.py:inplace_momentum_update"]}
{"id": "C61", "title": "Minifloat quant tensors round-trip through minifloat()", "statement": "A minifloat quant tensor whose values are its scale times numbers representable in its declared format is valid, and minifloat() returns exactly those numbers; a tensor holding anything else is not valid.", "quantifier": "every format, scale, tensor of values", "why_tests_cant": "the position of the significant bits depends on every value and scale", "anchors": ["src/brevitas/quant_tensor/float_quant_tensor.py:is_valid,minifloat"]}
{"id": "C62", "title": "Negation and absolute value of minifloat quant tensors are exact", "statement": "-t and abs(t) have the negated / absolute values of t, declare a format in which these are representable, and are valid.", "quantifier": "every format, scale, zero point and tensor of values", "why_tests_cant": "must hold for all values of all formats", "anchors": ["src/brevitas/quant_tensor/float_quant_tensor.py:__neg__,__abs__"]}
{"id": "C63", "title": "Concatenation of minifloat quant tensors keeps values and rejects mixed formats", "statement": "Concatenating minifloat quant tensors of one format gives the concatenated values in that format, each element still representable; operands of different formats, scales or zero points are rejected.", "quantifier": "every list of tensors, every format", "why_tests_cant": "arbitrary lists and pairs of formats", "anchors": ["src/brevitas/quant_tensor/float_quant_tensor.py:cat,check_bit_width_same,check_inf_nan_same"]}
{"id": "C64", "title": "Functions said not to change quantisation keep a valid quant tensor", "statement": "ReLU, clamping, dropout, max pooling, nearest interpolation, padding and pixel shuffle of a quant tensor return a quant tensor with the same scale, zero point and bit width whose values are the function of the input values and still have codes.", "quantifier": "every tensor shape, per-tensor or per-channel metadata, window, padding value, limits", "why_tests_cant": "depends on whether every output value lies on the grid of its position", "anchors": ["src/brevitas/quant_tensor/torch_handler.py:quant_invariant_handler"]}
{"id": "C65", "title": "Moving elements of a quant tensor moves their scale with them", "statement": "Transposing, permuting, reshaping or flattening a quant tensor keeps every element's code, scale and zero point.", "quantifier": "every shape, permutation, target shape and metadata shape", "why_tests_cant": "arbitrary ranks and broadcast metadata", "anchors": ["src/brevitas/quant_tensor/int_quant_tensor.py:transpose,permute,view,reshape,flatten"]}
{"id": "C66", "title": "A quantised RNN or LSTM without quantisers is the PyTorch one", "statement": "After loading the parameters of a float RNN / LSTM and with no quantiser configured, a QuantRNN / QuantLSTM returns the outputs and final states of the float network, for any number of layers, one or both directions, with or without initial states; with coupled gates it computes the LSTM whose forget gate is one minus its input gate.", "quantifier": "every number of layers and units, direction choice, sequence, batch, weights, biases, initial states", "why_tests_cant": "the recurrence is unbounded in time and depth", "anchors": ["src/brevitas/nn/quant_rnn.py:QuantRNN,QuantLSTM,_QuantRNNLayer,_QuantLSTMLayer,_load_from_state_dict"]}
{"id": "C67", "title": "Recurrent layers treat time and batch as sequences", "statement": "Feeding a sequence in pieces and handing over the states gives the outputs of the whole; a right-to-left layer is a left-to-right layer on the reversed sequence; layers do not look ahead; batch_first only exchanges dimensions; samples of a batch do not influence each other; a missing state is a zero state.", "quantifier": "every sequence, cut, batch, stack, state and quantiser", "why_tests_cant": "sequences and stacks are unbounded", "anchors": ["src/brevitas/nn/quant_rnn.py:QuantRecurrentLayerMixin,_QuantRNNLayer.forward,_QuantLSTMLayer.forward,QuantRecurrentStackBase.forward"]}
{"id": "C68", "title": "Outputs and states of quantised recurrent layers lie on the declared grid", "statement": "Every output and final state of a quantised RNN / LSTM is a code of its output (cell state) quantiser times the scale, with that scale, zero point and bit width declared; with coupled gates the forget gate is the quantised one minus the input gate.", "quantifier": "every input, weight, state, number of layers, directions, layout", "why_tests_cant": "must hold at every time step of every sequence", "anchors": ["src/brevitas/nn/quant_rnn.py:_QuantRNNCell,_QuantLSTMCell,QuantRecurrentStackBase.forward", "src/brevitas/nn/mixin/base.py"]}
{"id": "C71", "title": "Disabling activation quantisation reaches recurrent layers", "statement": "While activation quantisation is disabled, a recurrent layer computes its float recurrence.", "quantifier": "every layer, input and initial state", "why_tests_cant": "a difference at any step of any sequence violates it", "anchors": ["src/brevitas/nn/quant_rnn.py:_QuantRNNLayer.forward", "src/brevitas/graph/calibrate.py:DisableEnableQuantization"]}
{"id": "C69", "title": "Sharing input weights between directions shares each gate with its counterpart", "statement": "With shared_input_hidden_weights=True the two directions of a bidirectional layer use the same input weight for each gate; with False each has its own.", "quantifier": "every layer, coupled or separate gates", "why_tests_cant": "a wrong pairing leaves shapes and training working", "anchors": ["src/brevitas/nn/quant_rnn.py:_QuantRNNLayer,_QuantLSTMLayer.__init__,weights_to_share"]}
{"id": "C70", "title": "Float RNN and LSTM checkpoints load into the quantised stack", "statement": "Loading the state dict of a PyTorch RNN / LSTM puts every parameter under the key of its layer and direction, whatever the number of layers and the module's name, and reloading the stack's own state dict changes no key.", "quantifier": "every number of layers, module path, subset and order of keys", "why_tests_cant": "keys are matched by substring, so any name can collide", "anchors": ["src/brevitas/nn/quant_rnn.py:QuantRecurrentStackBase._load_from_state_dict"]}
{"id": "C72", "title": "Inference mode gives the values of normal evaluation for minifloats", "statement": "Inside quant_inference_mode a minifloat quantiser returns, for every input, the value it returns in normal evaluation - for every format, with reserved codes for infinities and NaN, saturating or not, and every scale.", "quantifier": "every format, scale, zero point and input value", "why_tests_cant": "the handler recomputes the format's limits, and differences show only near them", "anchors": ["src/brevitas/export/inference/handler.py:FloatInferencetHandler,FloatWeightInferencetHandler"]}
{"id": "C73", "title": "Graph quantisation uses an unsigned quantiser only where no value is negative", "statement": "Where quantize() inserts an unsigned quantiser after an addition, a concatenation, a reshape or a sign-preserving layer, no value reaching it is negative, whatever the inputs of the network.", "quantifier": "every graph, every input of the network", "why_tests_cant": "models under test have ReLUs in front of their residual additions", "anchors": ["src/brevitas/graph/quantize_impl.py:are_inputs_unsigned,output_quant_handler,_get_quant_module,inp_placeholder_handler"]}
{"id": "C74", "title": "Additions and concatenations that graph quantisation leaves alone have inputs on one grid", "statement": "If quantize() finds the inputs of an addition or concatenation quantised and aligned, all of them are multiples of one scale, and so is the result; inputs that come from one quantiser are always found aligned.", "quantifier": "every graph of additions, concatenations, reshapes and layers that keep the grid, every input", "why_tests_cant": "an input that is skipped is only wrong for values off the grid", "anchors": ["src/brevitas/graph/quantize_impl.py:are_inputs_quantized_and_aligned,_tensor_quant_in_list,residual_handler"]}
{"id": "C75", "title": "Activation equalisation does not change what a layer computes", "statement": "A model equalised with `activation_equalization_mode(layerwise=True)` computes, layer by layer, what it computed before: for every calibration data, exponent, statistic, weights and input, the linear or convolutional layer returns the same tensor, of the same shape. An error raised during calibration reaches the caller.", "quantifier": "all layers (linear, dense and depthwise convolutions of any dimension), calibration data, exponents, statistics, inputs of any shape", "why_tests_cant": "Tests equalise a few models and compare outputs on one input of the shape used to calibrate; the claim is for every shape, weight and statistic.", "anchors": ["src/brevitas/graph/equalize.py: activation_equalization_mode, LayerwiseActivationEqualization, _cross_layer_equalization", "src/brevitas/nn/equalized_layer.py: EqualizedModule", "src/brevitas/nn/quant_scale_bias.py: ScaleBias"]}
{"id": "C76", "title": "Activation equalisation balances activations and weights", "statement": "After layerwise activation equalisation with exponent one half and the largest absolute value as statistic, in every channel the largest absolute value reaching the layer on the calibration data equals the largest absolute weight multiplying it, unless one of the two is below the threshold of the code.", "quantifier": "all layers with dense weights, all calibration data, all channels", "why_tests_cant": "Tests only look at outputs of the equalised model; the balance must hold for every channel and any data.", "anchors": ["src/brevitas/graph/equalize.py: ActivationEqualization.forward_stats_hook, _cross_layer_equalization, create_mul_node"]}
{"id": "C77", "title": "Euclidean-projection initialisation gives the closest weights within the accumulator budget", "statement": "`apply_ep_init` replaces each output channel by the closest vector, in Euclidean distance, whose absolute values sum up to at most the accumulator budget times the scale: it leaves channels within the budget alone, changes no sign, enlarges no weight, uses the budget fully otherwise, and afterwards the accumulator-aware quantiser does not rescale the weights.", "quantifier": "all weight vectors, radii, scales, bit widths", "why_tests_cant": "The sort-based projection is only exercised on random vectors; that it returns the minimiser over a continuum of candidates cannot be tested.", "anchors": ["src/brevitas_examples/imagenet_classification/a2q/ep_init.py: euclidean_projection_onto_l1_ball, l1_proj_matrix_per_channel, apply_ep_init"]}
{"id": "C78", "title": "Quantised multi-head attention computes multi-head attention", "statement": "`QuantMultiheadAttention` returns scaled dot-product attention per head of the projected queries, keys and values, concatenated and projected, together with the attention weights it is asked for (per head or averaged): for positions first, batch first and single sequences, boolean and float masks, padding masks, a learned extra position and a position of zeros. With quantisers the same formula holds with each quantiser applied at its place, and without them the layer is the float layer.", "quantifier": "all inputs, lengths, batch sizes, numbers of heads and features, masks, weights, options, element-wise quantisers", "why_tests_cant": "Tests compare a few random inputs of one size with PyTorch; masks, layouts and options multiply, and the softmax over hidden positions must be right for every score.", "anchors": ["src/brevitas/nn/quant_mha.py: QuantMultiheadAttention.forward, multi_head_attention, mha_shape_check"]}
{"id": "C79", "title": "Checkpoints of float attention layers load into quantised ones", "statement": "Loading the state dict of a float attention layer into a quantised one gives every parameter, with its values, the name it has in the quantised layer, whatever the path of the layer, the order of the items and whether the input projections of either are packed: thirds of packed weights and biases go to the query, key and value projections. Checkpoints under other names are left alone. The wrapper of the LLM examples packs three projections into one, in any order of the items.", "quantifier": "all paths, parameter values, orders of items, packed and separate projections", "why_tests_cant": "Keys are matched by substring while the dict is being edited, so what happens depends on the path of the layer and on the other keys; tests only load one unnested layer.", "anchors": ["src/brevitas/nn/quant_mha.py: QuantMultiheadAttention._load_from_state_dict", "src/brevitas_examples/llm/llm_quant/mha_layers.py: MultiheadAttentionWrapper._load_from_state_dict"]}
{"id": "C80", "title": "Applying AWQ scales does not change what a decoder layer computes", "statement": "Applying a list of AWQ scales to an OPT or Llama decoder layer leaves the output of the layer as it was for every input, whatever the positive scales, weights, biases, norms and attention weights; the cached features are divided by the same scales as the inputs of the layers. For the layers it cannot handle it raises rather than change the function.", "quantifier": "every decoder layer (any sizes, weights, attention function and positively homogeneous activation), every list of positive scales in the order they are found, every input sequence", "why_tests_cant": "Tests compare outputs of one or two small models within a tolerance; which weights are divided and multiplied by which scales must cancel for every architecture option and every input.", "anchors": ["src/brevitas_examples/llm/llm_quant/awq/auto_scale.py: apply_scale, scale_ln_fcs, scale_fc_fc, auto_scale_block"]}
{"id": "C81", "title": "The search for AWQ scales returns the best candidate and restores the block", "statement": "Searching the scales of a group of layers leaves the weights of the block as they were and returns, among the twenty candidates, the first with the least difference between the output of the block and its output with quantised weights; all scales are positive and the largest times the smallest is one.", "quantifier": "every block, quantiser, loss, weight and activation statistics, on any device", "why_tests_cant": "The search edits the block in place and restores it from a saved copy; that nothing leaks between candidates or out of the search depends on aliasing, and a test on one device sees one case.", "anchors": ["src/brevitas_examples/llm/llm_quant/awq/auto_scale.py: auto_scale_block, _search_module_scale, get_weight_scale"]}
{"id": "C82", "title": "AWQ fake quantisation stays on the grid and within half a step", "statement": "Fake quantisation maps every weight to one of at most 2^n equally spaced values of its group, and no weight moves by more than half the spacing; it raises exactly for shapes that do not consist of groups or without a zero point.", "quantifier": "every tensor, shape, group size and bit width", "why_tests_cant": "Rounding, zero points and clamping interact at ties and at the ends of the range, and groups of one sign are a measure-zero event for random test weights with large groups.", "anchors": ["src/brevitas_examples/llm/llm_quant/awq/quantizer.py: pseudo_quantize_tensor"]}
{"id": "C83", "title": "AWQ clipping never increases the error it measures", "statement": "The bound found for each group of weights is between half of and the largest magnitude of the group, clipping to it before quantisation does not make the error of the sampled outputs of any group larger than quantising without clipping, the first best of the ten candidates is chosen, and only layers other than query and key projections are clipped. It works for any number of calibration tokens and group size.", "quantifier": "every weight, features, group size, number of tokens and block of layers", "why_tests_cant": "Optimality over candidates for every group at once, each with its own quantisation grid, cannot be observed from a few examples; the sampling stride depends on the number of tokens.", "anchors": ["src/brevitas_examples/llm/llm_quant/awq/auto_clip.py: auto_clip_layer, auto_clip_block, apply_clip"]}
{"id": "C84", "title": "Merging layer norm parameters into linear layers preserves the graph's function", "statement": "After the weights and biases of layer norms have been merged into the linear layers that read them, every other node of the traced graph has the value it had, and these norms only normalise. Where that is not possible it raises.", "quantifier": "every traced graph, its modules and inputs", "why_tests_cant": "The merge walks all users of all norms and edits shared state; whether each layer is merged exactly once and all readers are covered depends on the graph's shape and the order of its nodes.", "anchors": ["src/brevitas_examples/llm/llm_quant/ln_affine_merge.py: merge_layernorm_affine_params, _merge_ln, replace_bias"]}
{"id": "C85", "title": "A QONNX export computes what the layer computes", "statement": "For every quantiser that is accepted by the QONNX export, the exported node returns on every input the value, scale, zero point and bit width that the layer returns: activations, weights (shared between any number of layers), biases with the scale of the accumulator, and truncations. Quantisers that the format cannot hold are refused.", "quantifier": "All quantisers (integer of every width, sign, range and rounding mode; binary; ternary with every threshold), all scales and zero points, all inputs, all sets of layers sharing a quantiser, all histories of calls before the export.", "why_tests_cant": "Tests export a few models and compare outputs on random inputs at tolerance; they do not cover every bit width, threshold, rounding mode and call history.", "anchors": ["src/brevitas/export/onnx/qonnx/handler.py: BrevitasQuantProxyHandler, BrevitasWeightQuantProxyHandler, BrevitasBiasQuantProxyHandler, BrevitasTruncQuantProxyHandler", "src/brevitas/export/onnx/qonnx/function.py: BrevitasQuantFn, BrevitasBinaryQuantFn, BrevitasTruncFn"]}
{"id": "C86", "title": "Giving every call of a shared stateless module its own copy keeps what the graph computes", "statement": "After the pass that duplicates shared stateless modules, the graph gives on every input the value it gave before, and every stateless module is called by at most one node, provided the names given to the copies are free and no method called in the graph has the name of a stateless module.", "quantifier": "every graph, every assignment of modules to names, every choice of which modules are stateless, every environment", "why_tests_cant": "The generated names can clash with names the model already uses, which depends on the whole name table; tests use one network.", "anchors": ["src/brevitas/graph/standardize.py:DuplicateSharedStatelessModule"]}
{"id": "C87", "title": "Turning a functional call into a module call keeps what it computes", "statement": "A node that calls a function on one tensor and constants, in any mixture of positional, keyword and default arguments and in any order, is replaced by a call of a module on the same tensor that gives the same value, for every function that the module class implements, as long as the `training` argument is the mode of the model.", "quantifier": "every signature, every way of passing the arguments, every function and class implementing it, every environment and mode", "why_tests_cant": "Tests call a few functions with one argument style; the ways of passing arguments to every function and class are unbounded.", "anchors": ["src/brevitas/graph/base.py:CallableToModule", "src/brevitas/graph/base.py:FnToModule", "src/brevitas/graph/standardize.py:TorchFunctionalToModule"]}
{"id": "C88", "title": "GPTQ and GPFQ optimise every layer once, in execution order, on the model quantised so far", "statement": "Inside the GPTQ or GPFQ mode, for a model whose supported layers are each called once per forward pass, with disjoint groups of parallel layers that run next to each other, running the announced number of rounds of calibration (each on at least one batch) and calling update() after each optimises every layer exactly once: group after group in the order of execution, on exactly the inputs it receives on the batches of its round in the model whose earlier groups are optimised and whose later ones are not. Afterwards calling the model no longer stops.", "quantifier": "every model and execution order, every choice of groups, every number and content of batches per round, every per-layer optimisation", "why_tests_cant": "The order results from exceptions, a counter and removed hooks over the whole calibration history; tests run one small network.", "anchors": ["src/brevitas/graph/gpxq.py:gpxq_mode", "src/brevitas/graph/gptq.py:gptq_mode", "src/brevitas/graph/gptq.py:GPTQ", "src/brevitas/graph/gpfq.py:gpfq_mode", "src/brevitas/graph/gpfq.py:GPFQ"]}
{"id": "C89", "title": "Packed weights of a group-quantised export decode to the integer weights", "statement": "The bytes that the language model export writes for a row of integer weights of 2, 3, 4, 5, 6 or 8 bits hold exactly these weights: reading the bytes back gives every weight of the row, in order, for signed and unsigned weights and any number of columns.", "quantifier": "every bit width, every row length and every row of codes", "why_tests_cant": "A test packs a few rows; what bits of neighbouring codes do to each other depends on all their values and on the row length.", "anchors": ["src/brevitas_examples/llm/llm_quant/export.py: BlockQuantProxyLevelManager, WeightBlockQuantHandlerBase.pack_int_weights"]}
{"id": "C90", "title": "A batch norm loaded into a quantised scale and bias layer computes the batch norm", "statement": "Loading the checkpoint of a batch norm into the quantised scale and bias layer of the same dimension makes the layer compute, on every input the batch norm accepts and up to the quantisers, what the batch norm computes at inference; the checkpoint of the layer itself loads unchanged.", "quantifier": "every number of channels, every parameters and statistics, every input tensor, strict and non-strict loading", "why_tests_cant": "A test loads one batch norm of one dimension with one configuration; shapes that broadcast by accident and the order in which entries are consumed only show on the other cases.", "anchors": ["src/brevitas/nn/quant_bn.py: BatchNorm1dToQuantScaleBias, BatchNorm2dToQuantScaleBias, _load_from_state_dict", "src/brevitas/nn/quant_scale_bias.py: ScaleBias, QuantScaleBias", "src/brevitas/nn/utils.py: mul_add_from_bn"]}
{"id": "C91", "title": "Norm correction re-estimates the statistics of batch norms", "statement": "After running any number of batches in norm correction mode every batch norm normalises with the average mean and the average variance of the batches it saw inside the context, and is otherwise as before (momentum, training flag).", "quantifier": "every batch norm state and every sequence of batches", "why_tests_cant": "It is a statement about the statistics after every history of batches; a test sees one accuracy number.", "anchors": ["src/brevitas/graph/calibrate.py: norm_correction_mode"]}
{"id": "C92", "title": "Layerwise quantisation replaces exactly the layers it is told to", "statement": "After layerwise quantisation of a model whose modules have one name each and which is not itself a layer: the name of every layer whose class is mapped to a quantised class, which is not inside another module whose class is in the map, and which is not black listed or inside a black listed module, refers to a layer of the quantised class made from that layer; every other name refers to the module it referred to before.", "quantifier": "every tree of modules, every map of classes and every black list", "why_tests_cant": "tests quantise one or two small models and count the quantised layers; the claim is over all module trees, and shared modules are the cases in which the replacement goes wrong.", "anchors": ["src/brevitas/graph/quantize_impl.py: layerwise_layer_handler, find_module, _module_class_name", "src/brevitas/graph/base.py: ModuleToModuleByInstance, _replace_old_module", "src/brevitas/graph/utils.py: replace_module, name_from_module, set_module, get_module_name_and_parent", "src/brevitas/graph/quantize.py: layerwise_quantize"]}
{"id": "C93", "title": "Graph quantisation aligns the inputs of additions and concatenations", "statement": "Graph quantisation of a model with additions and concatenations returns; afterwards all inputs of every concatenation come from one quantiser and all inputs of every addition from quantisers with one scale factor, through operations that keep values; and it has done nothing else than insert quantisers and replace quantised activations by activations of the same kind.", "quantifier": "every graph, with any number of additions and concatenations", "why_tests_cant": "the alignment is a loop that rewrites the graph until a check passes; tests run it on a few networks for which it stops. Whether it stops depends on how the additions of a graph overlap and on the order of operands.", "anchors": ["src/brevitas/graph/quantize_impl.py: residual_handler, recursive_input_handler, are_inputs_quantized_and_aligned, _get_quant_module", "src/brevitas/graph/quantize.py: align_input_quant", "src/brevitas/graph/base.py: InsertModuleCallAfter, ModuleInstanceToModuleInstance"]}
{"id": "C94", "title": "Graph quantisation replaces layers, quantises what they read and requantises what they return", "statement": "Graph quantisation puts a quantiser behind every input of the network, replaces every layer for which its map has an entry by a layer of the class given there with the same parameters, wherever and however often the layer is called; afterwards the inputs of every such layer come from quantisers, through operations that keep values, unless the layer quantises its inputs itself, and the results of these layers and of additions are read by quantisers only, or by batch norms of which the same holds. Nothing else changes.", "quantifier": "every graph, and every map of layer classes", "why_tests_cant": "where quantisers go depends on who reads a value and on what has been inserted before; tests look at a few architectures whose layers are called once and have one input.", "anchors": ["src/brevitas/graph/quantize_impl.py: inp_placeholder_handler, output_quant_handler, add_output_quant_handler, layer_handler, are_inputs_quantized_and_aligned", "src/brevitas/graph/base.py: InsertModuleCallAfter, ModuleToModuleByInstance", "src/brevitas/graph/quantize.py: quantize"]}
{"id": "C95", "title": "The scale of an output channel comes from the weights of that channel", "statement": "A weight quantiser configured for a scale per output channel gives every weight a scale computed from the statistic of exactly the weights of the same output channel, over all the layers sharing the quantiser, and laid out so that it broadcasts to each weight tensor (output channels along dimension 0 for convolutions and linear layers, dimension 1 for transposed convolutions), for any statistic that does not depend on the order of its elements. Configured for one scale per tensor, the statistic is that of all the weights of all the layers sharing the quantiser. Hence with a signed narrow integer quantiser and the largest absolute value, every weight of a channel with a non-zero weight is reconstructed to within half the scale of its own channel.", "quantifier": "all weights, ranks, kernel sizes, numbers of channels, lists of layers sharing a quantiser and order-independent statistics", "why_tests_cant": "the permutations, reshapes and concatenations move elements between rows; a test checks a few shapes with one layer, an error in the layout shows only for particular shapes and shared layers", "anchors": ["src/brevitas/quant/solver/weight.py: SolveWeightScalingPerOutputChannelShapeFromModule, SolveWeightScalingStatsInputDimsFromModule", "src/brevitas/quant/solver/common.py: SolveStatsReduceDimFromEnum, SolveScalingStatsInputViewShapeImplFromEnum", "src/brevitas/core/stats/stats_wrapper.py: _ParameterListStats", "src/brevitas/core/stats/view_wrapper.py: _ViewCatParameterWrapper", "src/brevitas/core/function_wrapper/shape.py: OverOutputChannelView, OverTensorView"]}
{"id": "C96", "title": "Strided convolutions with 'same' padding", "statement": "A quantised convolution built with padding='same' and a stride larger than one along some axis returns, for an input with n elements along an axis of stride s, ceil(n / s) outputs along that axis, each the dot product of the weights with the window of the input continued by zeros, for the least padding that lets those windows fit, split evenly with the odd element at the end; for every kernel size, dilation, number of groups, batch size and input size, in one, two and three dimensions.", "quantifier": "all inputs, weights, biases, input sizes, kernel sizes, strides, dilations and group counts", "why_tests_cant": "whether the windows fit depends on the remainder of the sizes by the strides and on which axes need padding at all; tests use a few square sizes", "anchors": ["src/brevitas/nn/quant_conv.py: QuantConv1d.conv1d_same_zeros_pad_stride, QuantConv2d.conv2d_same_zeros_pad_stride, QuantConv3d.conv3d_same_zeros_pad_stride, inner_forward_impl"]}
{"id": "C97", "title": "Layers of quant tensors compute on integers", "statement": "Applying a linear layer, a convolution or a transposed convolution (any rank, stride, padding, dilation and groups) to integer quant tensors without zero point, the input with one scale and the weight with one scale or one per output channel, returns a quant tensor that denotes, element by element, the same layer applied to the integer codes: every value is an integer times the scale that the output declares there, and that scale is the scale of the input times the scale of the weights of the output channel. Without a bias, or with a bias quantised with the scale that the layer hands to the bias quantiser, the output has no zero point and its integers are the sums of products plus the codes of the bias; a float bias is carried exactly by the zero point. When the declared accumulator width holds every sum of products, reading the integers of the output gives exactly those integers. With a zero point in input or weight the result is a plain tensor with the value of the float layer.", "quantifier": "every layer kind, rank, shapes, stride, padding, output padding, dilation, groups, codes, bit widths, positive scales and biases", "why_tests_cant": "the views and broadcasts of the scales, zero points and biases depend on ranks and shapes; a test checks a few of them and compares values, not the integers that the metadata denotes", "anchors": ["src/brevitas/quant_tensor/int_torch_handler.py:quant_layer", "src/brevitas/quant_tensor/int_torch_handler.py:quant_output_scale_impl", "src/brevitas/quant_tensor/torch_handler.py", "src/brevitas/proxy/parameter_quant.py:BiasQuantProxyFromInjector", "src/brevitas/utils/torch_utils.py:compute_channel_view_shape"]}
{"id": "C98", "title": "Forward pass of a quantised layer", "statement": "A linear, convolutional or transposed convolutional layer with quantisers for input, weight, bias and output: (a) it reports a wrong configuration exactly if it is to return a quant tensor, has no active output quantiser, and not both input and weight are quantised; (b) when it returns, it returns a quant tensor exactly if return_quant_tensor is set; (c) with all quantisers absent or off it is the float layer; (d) with symmetric input and weight quantisers (one input scale, one weight scale or one per output channel) it returns the layer of the integer codes times the product of the scales, plus the float bias or plus the codes of a bias quantised at the scale of the accumulator; (e) for values within the ranges of its quantisers, whatever the shapes of scales and zero points, its result differs from that of the float layer by at most L(|x|, sw/2) + L(sx/2, |w|) + L(sx/2, sw/2), plus half the accumulator scale for a quantised bias, L being the layer without bias; (f) an output quantiser is applied to the result of the layer without it. It raises where the float layer does not in these cases only as stated: a bias quantiser without quantised input or cached scale, a zero point of the input with return_quant_tensor, and a float bias with an input without batch dimension.", "quantifier": "every layer kind with every stride, padding, dilation and number of groups, every weight, bias, input (tensor or quant tensor), every combination of quantisers and flags, every shape, bit width, and static or dynamic scale", "why_tests_cant": "The claims range over all the shapes, values and combinations of quantisers; tests compare a few layers on random inputs and never state an error bound.", "anchors": ["src/brevitas/nn/quant_layer.py: QuantWeightBiasInputOutputLayer.forward_impl", "src/brevitas/nn/mixin/base.py: pack_output", "src/brevitas/proxy/parameter_quant.py: BiasQuantProxyFromInjector.forward", "src/brevitas/proxy/runtime_quant.py: ActQuantProxyFromInjectorBase.forward", "src/brevitas/quant_tensor/int_torch_handler.py: quant_layer"]}
{"id": "C99", "title": "An export leaves the model as it was", "statement": "Exporting a model to TorchScript or ONNX, if it succeeds and all modules of the model were in the same mode (training or evaluation) before, leaves every module and parameter as it was, but for cached values: mode, caching flags, export handlers, export mode, requires_grad, and the global flag of a running export; modules that occur several times in the model included. What is traced is the model in evaluation mode in which every quantiser the exporter has a handler for is in export mode with that handler; if an enabled quantiser has none, the export raises. Whatever is raised, and wherever, the global flag is reset and nothing outside the model changes; an ONNX export that raises during the final clean-up has put the model back; and after any history of exports that raised, a successful export gives the caching flags the values they had at the start. Exports that raise earlier leave the model in evaluation mode, and in export mode if tracing raised.", "quantifier": "all module trees (with shared modules), all kinds of modules, all managers, all behaviours of forward passes, handlers and tracing, all points where an exception can be raised, all histories of exports", "why_tests_cant": "Tests export small models once, in evaluation mode, and compare outputs; they do not look at the state of the model afterwards, nor at exports that raise.", "anchors": ["src/brevitas/export/manager.py: BaseManager.jit_inference_trace, BaseManager._cache_inp_out, ExportContext", "src/brevitas/export/onnx/manager.py: ONNXBaseManager.export_onnx", "src/brevitas/common.py: ExportMixin.export_mode", "src/brevitas/export/torch/qcdq/manager.py: TorchQCDQManager.export"]}
{"id": "C100", "title": "Group-wise quantisation treats each group on its own", "statement": "Quantising a tensor with a group-wise integer quantiser along a (non-negative) dimension gives a quant tensor whose value, scale and zero point have the input's shape with that dimension rounded up to a multiple of the group size. At each index the value is the input there (zero in the padding) quantised with the scale and zero point of the block of group_size consecutive elements it belongs to; the result does not depend on the other groups. The quant tensor is valid, int() returns the code of each element, the value is (code - zero point) * scale, and with an absolute-maximum scale no element moves by more than half the scale of its group. Weights and activations with the same data are quantised alike, and a disabled quantiser returns the input, padded.", "quantifier": "every tensor of every rank and sizes, group size, group dimension, statistic giving scale and zero point of a group, bit width, signedness and rounding", "why_tests_cant": "Tests use a few shapes divisible by the group size; the property must hold for each index of each shape, with and without padding", "anchors": ["src/brevitas/quant_tensor/groupwise_int_quant_tensor.py:GroupwiseIntQuantTensor", "src/brevitas/proxy/groupwise_int_runtime_quant.py:GroupwiseActQuantProxyFromInjector", "src/brevitas/proxy/groupwise_int_parameter_quant.py:GroupwiseWeightQuantProxyFromInjector", "src/brevitas/core/function_wrapper/shape.py:DynamicOverSubChannelBlockView", "src/brevitas/core/scaling/runtime.py:RuntimeDynamicGroupStatsScaling"]}
{"id": "C101", "title": "Inference mode gives the model back", "statement": "With a new quant_inference_mode object entered on a model that has no such hook pending, the model computes as before until a call gets through its forward pass, with all caches on. That call then puts every quantisation proxy and quantised recurrent layer that needs a handler in export mode and makes all modules return plain tensors, or raises if a handler is missing or a module is in training mode. After leaving the block, if at least one call got through its forward pass, export mode is off everywhere it was switched on, no handler is left there, return_quant_tensor and training mode of every module are what they were, and the hook is gone; this holds however many calls were made and whichever of them, or the switch, raised.", "quantifier": "every model tree (with shared modules), every kind of module, every initial state, every sequence of calls with any outcome, every behaviour of forward passes and handlers", "why_tests_cant": "an exception at any point of any call must not leave a module in export mode; the calls, modules and failures cannot be enumerated", "anchors": ["src/brevitas/export/inference/manager.py: quant_inference_mode", "src/brevitas/export/manager.py: _set_export_handler, _set_proxy_export_mode", "src/brevitas/common.py: ExportMixin.export_mode", "src/brevitas/graph/calibrate.py: disable_return_quant_tensor, restore_return_quant_tensor"]}
{"id": "C102", "title": "Quantising a slice of the weight gives the slice of the quantised weight", "statement": "For a layer whose weight quantiser uses plain or learned rounding (the latter with a parameter for each weight) and scales and zero points that are constants, parameters or statistics of the layer's own weight, and for any list of slices that takes whole the dimensions along which these vary: quant_weight(subtensor_slice_list=...) returns exactly the slice of what quant_weight() returns, with the same scale and zero point, in training and evaluation, with quantisation enabled or disabled, eagerly or under TorchScript; it leaves the layer as it was, so that this holds after any history of weight updates, mode changes and earlier (sliced or whole) calls as long as the quantiser is not built again. Consequently the columns on which GPTQ and GPFQ work, for linear layers and plain, grouped and transposed convolutions, are the right columns of the quantised whole weight, taken in the order of the permutation.", "quantifier": "all weights of any rank and shape, all slices (also with negative or out-of-range bounds), all scales and zero points with their broadcasting, all roundings, all histories of calls, all column permutations", "why_tests_cant": "the optimised column-by-column path must agree with whole-tensor quantisation for every shape, slice and history; tests compare a few layers once, and a stale slice only shows up in a later call", "anchors": ["src/brevitas/nn/mixin/parameter.py: QuantWeightMixin.quant_weight", "src/brevitas/core/utils.py: SliceTensor", "src/brevitas/core/function_wrapper/learned_round.py: LearnedRoundSte", "src/brevitas/graph/gpxq.py: GPxQ.get_quant_weights", "src/brevitas/core/quant/int_base.py: IntQuant, DecoupledIntQuant"]}
{"id": "C103", "title": "Layers that combine quantised tensors add, join and look up the integers", "statement": "Adding two quantised tensors that share their scales (per-tensor or per-channel, with broadcasting) yields a quantised tensor whose integers are the sums of the integers, at the same scales, in a container wide enough for them when the operands have the same sign and two or more bits. The element-wise addition layer with a static input quantiser therefore adds the integers that the quantiser gives its two inputs; whenever it returns, its result is the float sum up to half a scale per operand; it does not depend on the order of the operands; an output quantiser is applied to that sum; the layer returns a quant tensor exactly if asked to; and without quantisers it is the float sum. Concatenating quantised tensors that share one scale, zero point, bit width and sign is concatenating their integers, in training and evaluation. A quantised embedding with one scale returns the integers of the rows of the quantised table, which is also what quantising the rows of the float table gives.", "quantifier": "every pair or list of tensors, every shape that broadcasts or can be concatenated, every index tensor, every integer quantiser with positive scales, training and evaluation", "why_tests_cant": "tests use a few tensors, one shape and eight bits; they do not cover every shape, broadcasting pattern, bit width, order of operands and index", "anchors": ["src/brevitas/nn/quant_eltwise.py:QuantEltwiseAdd.forward", "src/brevitas/nn/quant_eltwise.py:QuantCat.forward", "src/brevitas/nn/quant_embedding.py:QuantEmbedding.forward", "src/brevitas/nn/quant_layer.py:QuantInputOutputLayer", "src/brevitas/quant_tensor/int_quant_tensor.py:IntQuantTensor.__add__", "src/brevitas/quant_tensor/int_quant_tensor.py:IntQuantTensor.cat", "src/brevitas/quant_tensor/int_torch_handler.py:embedding_handler"]}
{"id": "C104", "title": "A quantised activation layer is the float activation, quantised", "statement": "An activation layer (ReLU, sigmoid, tanh, identity, or a custom function) whose quantiser is on returns the float activation of what reaches it, quantised: each element is a code of the declared container times the scale, within half a scale of the float activation where that is in range. For an unsigned quantiser with zero point zero the ReLU is absorbed by the quantiser; for a hard tanh the quantiser replaces the clamp, with the same result when everything it can represent lies between the limits. Outputs of non-negative activations are never negative, monotone activations stay monotone, and quantising an already quantised ReLU or identity output changes nothing. With the quantiser off, layers other than the hard tanh compute the float activation. The layer returns a quant tensor exactly if asked to, and raises if it has none to return.", "quantifier": "every input of every shape, plain or quant tensor, every activation function, every integer quantiser with positive scales (static for monotonicity and idempotence), training and evaluation, quantiser on, off or absent", "why_tests_cant": "tests run a few layers on random inputs; they cannot settle that no input gives a negative or non-monotone output or a value off the grid", "anchors": ["src/brevitas/nn/quant_activation.py:QuantReLU", "src/brevitas/nn/quant_activation.py:QuantHardTanh", "src/brevitas/nn/quant_activation.py:QuantIdentity", "src/brevitas/nn/quant_layer.py:QuantNonLinearActLayer.forward", "src/brevitas/proxy/runtime_quant.py:FusedActivationQuantProxy", "src/brevitas/proxy/runtime_quant.py:ActQuantProxyFromInjectorBase", "src/brevitas/proxy/runtime_quant.py:_is_act_enabled"]}
{"id": "C105", "title": "Upsampling a quantised tensor gives codes of the same container", "statement": "Upsampling a quant tensor whose scales do not vary within a channel, in nearest or (bi/tri)linear mode, returns a quant tensor with the same scale, zero point, bit width and sign, of the shape torch gives. In nearest mode each element is a copy of an input element of the same channel, and a whole factor k repeats every element k times in each spatial dimension. In linear modes (zero points being integers) each element is a code between the smallest and largest code of its channel, within half a scale of the float interpolation, and upsampling to the present size changes nothing. Without return_quant_tensor the layer returns the values of that quant tensor.", "quantifier": "every quant tensor of every rank and size, every target size or factor, aligned corners or not, per-tensor and per-channel scales", "why_tests_cant": "tests upsample one image by a factor of two; that no interpolated value leaves the grid or the container must hold for every size, factor and content", "anchors": ["src/brevitas/nn/quant_upsample.py:QuantUpsample.forward", "src/brevitas/nn/quant_upsample.py:QuantUpsamplingBilinear2d.forward", "src/brevitas/nn/quant_upsample.py:QuantUpsamplingNearest2d.forward"]}
{"id": "C106", "title": "The Hadamard classifier works on the integers", "statement": "The fixed projection of a Hadamard classifier has entries 1 and -1 and orthogonal rows. Of a quant tensor (one scale, no zero point) the classifier returns -scale/norm times the product of that matrix with the input; the integers of the result are minus the product of the matrix with the integers of the input, and they fit the bit width it declares.", "quantifier": "every quant tensor of features, all numbers of features and classes, all bit widths, all values of the learned scale", "why_tests_cant": "orthogonality and the absence of overflow must hold for each size and each content; the extreme codes that overflow are not met by random inputs", "anchors": ["src/brevitas/nn/hadamard_classifier.py:HadamardClassifier.forward", "src/brevitas/nn/hadamard_classifier.py:HadamardClassifier.max_output_bit_width"]}
{"id": "C107", "title": "Average pooling by truncation returns rounded averages of the codes", "statement": "TruncAvgPool2d, given a quant tensor whose scales do not vary within a channel and that has no zero point, adds the integer codes of each window and shifts the sum right, from the bit width declared for the sum to the output bit width, with the rounding of the truncation quantiser; scale, zero point and sign are those of the input. For windows of 2^k elements and an output bit width equal to that of the input this is the rounded average: a code of the container of the input, between the smallest and the largest code of its window, less than one scale from the float average (half a scale for rounding to nearest). TruncAdaptiveAvgPool2d gives the same as TruncAvgPool2d with windows side by side whenever the output size divides the input size. With return_quant_tensor=False the same values are returned as a plain tensor. A plain input, or no truncation quantiser, gives the float averages, or an error if a quant tensor was asked for. (Outside these provisos the layers do not average: windows whose size is no power of two, quantisers wider than the input, zero points, and uneven adaptive windows. The accumulator layers TruncQuantAccumulator and ClampQuantAccumulator cannot be constructed at all.)", "quantifier": "all batch, channel and image sizes, kernels, strides and window positions, all codes, scales, bit widths and shipped roundings", "why_tests_cant": "the tests run two window sizes on random inputs and compare shapes and the enabled path only", "anchors": ["src/brevitas/nn/quant_avg_pool.py:TruncAvgPool2d", "src/brevitas/nn/quant_avg_pool.py:TruncAdaptiveAvgPool2d", "src/brevitas/nn/quant_accumulator.py:TruncQuantAccumulator", "src/brevitas/nn/quant_accumulator.py:ClampQuantAccumulator", "src/brevitas/proxy/runtime_quant.py:TruncQuantProxyFromInjector", "src/brevitas/core/quant/int.py:TruncIntQuant", "src/brevitas/quant_tensor/int_torch_handler.py:avg_pool2d_handler", "src/brevitas/quant_tensor/int_torch_handler.py:adaptive_avg_pool2d_handler"]}
{"id": "C108", "title": "The shipped quantisers do what their names say, with any overridden settings", "statement": "Setting weight_quant of a layer to one of the shipped classes, possibly with settings overridden, gives the quantiser that the name announces. Int8WeightPerTensorFloat and Int8WeightPerChannelFloat (any bit_width b from 2): signed, no zero point, codes from -(2^(b-1)-1) to 2^(b-1)-1, one scale or one per output channel, equal to the largest absolute value of the weights sharing it over 2^(b-1)-1 and at least 1e-10, every weight within half a scale of its quantised value, tensors of zeros included. ShiftedUint8Weight...: unsigned codes from 0 to 2^b-1, an integer zero point that is a code, scale from the range, half a scale if some weight sharing the scale is not negative. Int8WeightPerTensorFixedPoint: the scale is the smallest power of two covering the largest absolute value (unless below 1e-10), within one scale of every weight. SignedTernaryWeightPerTensorConst: each weight becomes the nearest of -0.1, 0, 0.1. NoneWeightQuant: the weight unchanged. Overriding scaling_per_output_channel turns a per-tensor class into the per-channel one and back; overriding bit_width or signed gives results with that width or sign. Activation classes initialised from min_val and max_val use the scale that puts the larger absolute value at the end of the integer range. (The class Int8WeightPerChannelFixedPoint should likewise have scales that are powers of two.)", "quantifier": "every bit width, every weight tensor of any shape, every list of layers sharing the quantiser, every set of overridden settings of the stated kind", "why_tests_cant": "tests instantiate each class on a few layers with random weights and check the attributes; the half-step bound for all weights, widths and sharing layers, and the equivalence of overrides, range over infinitely many inputs", "anchors": ["src/brevitas/quant/base.py:NarrowIntQuant", "src/brevitas/quant/base.py:PerChannelPoTScaling8bit", "src/brevitas/quant/scaled_int.py:Int8WeightPerTensorFloat", "src/brevitas/quant/shifted_scaled_int.py:ShiftedUint8WeightPerTensorFloat", "src/brevitas/quant/fixed_point.py:Int8WeightPerTensorFixedPoint", "src/brevitas/quant/ternary.py:SignedTernaryWeightPerTensorConst", "src/brevitas/quant/solver/common.py", "src/brevitas/quant/solver/weight.py"]}
{"id": "C109", "title": "The shipped minifloat weight quantisers quantise to the format they are named after", "statement": "With a weight quantiser set to a signed minifloat format with E exponent and M mantissa bits of the OCP or FNUZ standard (or of neither), rounding to nearest, with float scales from the largest absolute value, per tensor or per output channel, every layer sharing it gets from quant_weight() a result of the shape of the weight that declares E, M, the bias of the standard and signed; whose scales have one element or one per output channel and are the largest absolute value of the weights sharing them divided by the largest number of the format (448 for OCP E4M3, 57344 for OCP E5M2 and FNUZ E5M2, 240 for FNUZ E4M3), at least the configured minimum; and whose values are all finite, saturating or not, each a number of the format times the scale, as near to the weight as any, and within half a unit in the last place of it. This holds if the smallest normal number of the data type is below half the smallest number of the format (so for float32, bfloat16 and float64 with the shipped 8-bit formats, not for float16 with E5M2). Widths that do not add up raise. The tests the exporters use say OCP (FNUZ) exactly if the quantiser has that standard and an 8-bit format of it, unless the bias was overridden.", "quantifier": "all formats, standards, weights of any shape, sets of layers sharing a quantiser, granularities and overrides", "why_tests_cant": "Tests quantise a few random tensors in one or two formats and compare with a reference implementation that uses the same formulas.", "anchors": ["src/brevitas/quant/experimental/float_base.py:ScaledFloatWeightBase", "src/brevitas/quant/experimental/float_quant_ocp.py:FpOCPMixin", "src/brevitas/quant/experimental/float_quant_fnuz.py:FpFNUZMixin", "src/brevitas/core/quant/float.py:FloatQuant", "src/brevitas/proxy/float_parameter_quant.py:WeightFloatQuantProxyFromInjector"]}
{"id": "C110", "title": "Group-wise minifloat (MX) quantisation rounds each element to its group's format", "statement": "A tensor quantised group-wise to a minifloat format, as weight or as activation, with a non-negative group dimension, has the shape of the input with the grouped dimension rounded up to a multiple of the group size. Every element becomes a number of the format times the scale of its group, the block of group_size consecutive elements that contains it, as near to the element as any such number; padding is zero; elements in other groups have no influence. MX weights have the smallest power-of-two scale that covers the group and are within half a unit in the last place. With quantisation disabled the elements are unchanged.", "quantifier": "every tensor of any rank and sizes, every group size and non-negative group dimension, every exponent and mantissa width, every scale function (MX: all real elements)", "why_tests_cant": "tests fix a few shapes, group sizes and one format; closeness to all numbers of every format for all reals cannot be sampled", "anchors": ["src/brevitas/quant_tensor/groupwise_float_quant_tensor.py:GroupwiseFloatQuantTensor", "src/brevitas/proxy/groupwise_float_parameter_quant.py:GroupwiseWeightFloatQuantProxyFromInjector", "src/brevitas/proxy/groupwise_float_runtime_quant.py:GroupwiseActFloatQuantProxyFromInjector", "src/brevitas/quant/experimental/mx_quant_ocp.py:MXFloat8e4m3Weight"]}
{"id": "C111", "title": "Arithmetic on group-wise minifloat tensors is that of their values", "statement": "Sums, differences, products and quotients of group-wise minifloat tensors equal those of their values at each index; negating one or taking its absolute value gives a valid tensor with the negated or absolute values; minifloat() returns the numbers of the format that are stored.", "quantifier": "every group-wise minifloat tensor of any shape, group size and format", "why_tests_cant": "no test calls these operations on group-wise minifloat tensors, and a test could only sample shapes and values", "anchors": ["src/brevitas/quant_tensor/groupwise_float_quant_tensor.py:GroupwiseFloatQuantTensor", "src/brevitas/quant_tensor/base_quant_tensor.py:QuantTensor", "src/brevitas/utils/torch_utils.py:float_internal_scale"]}
{"id": "C112", "title": "The weight options of the LLM and diffusion flows give the quantiser they name", "statement": "generate_quantizers with scales from statistics returns a weight quantiser that does what the options say. For integers of any width b from 2 bits, per tensor or per channel: 'sym' gives signed b-bit codes, zero point 0 and scales max(largest absolute weight / 2^(b-1), minimum), and every weight within half a scale unless it is above the last half step of the positive codes (then within one scale); 'asym' gives unsigned b-bit codes, scales from the distance between the largest weight and the smallest weight or 0, a zero point that is a code if it is to be quantised and otherwise exact, and every weight within half a scale if one that shares the scale is not negative; 'po2_scale' per tensor gives the smallest power of two that covers the weights. For a minifloat format float, float_ocp or float_fnuz followed by _eEmM with the width E + M + 1, every weight becomes a nearest number of that format times its scale; any other width is refused. The minimum scale is 1e-4 in half precision and 1e-10 otherwise. The weight quantiser does not depend on the options for inputs, and without an input width no input quantisers are returned.", "quantifier": "all widths, granularities, data types, zero point options, formats and all weights of all layers that share the quantiser", "why_tests_cant": "tests run a few option combinations on one model and check accuracy or that nothing raises", "anchors": ["src/brevitas_examples/common/generative/quantize.py:generate_quantizers", "src/brevitas_examples/common/generative/quantize.py:WEIGHT_QUANT_MAP", "src/brevitas_examples/common/generative/quantize.py:quantize_model", "src/brevitas/core/zero_point.py:ParameterFromStatsFromParameterZeroPoint"]}
{"id": "C113", "title": "Dynamic input quantisers take each scale from the elements that share it and quantise them independently of everything else", "statement": "With integer inputs, dynamic scales in floating point from statistics, granularity per_tensor or per_row, and type sym or asym, the quantisers generated for the LLM and diffusion flows share a scale within the tensor, or within each row of the inputs of linear layers, queries, values and attention weights, and within each column of the transposed keys; the inputs of layers have the type asked for, the operands of attention are symmetric. The scale is the distance between the largest of these elements and the smallest of them or zero, over 2^(b-1) for sym and 2^b - 1 for asym. When one of these elements is not negative and one is not zero, each becomes a signed code of b bits within one scale of it (half a scale unless it exceeds the last half step) for sym, and an unsigned code of b bits, shifted by a zero point that is itself a code if it is to be quantised and the exact smallest element otherwise, within half a scale of it for asym. What an element becomes depends only on the elements that share its scale: a row is quantised the same in every batch.", "quantifier": "every width from one bit, both types, both treatments of the zero point, inputs of every rank and size without empty dimensions, every element, all options for weights", "why_tests_cant": "the scale and the error bound are about the extremes of arbitrarily many elements and about every position of ties and clipping; independence quantifies over pairs of batches of different shapes", "anchors": ["src/brevitas_examples/common/generative/quant_blocks.py:RuntimeDynamicStatsScaling", "src/brevitas_examples/common/generative/quant_blocks.py:RuntimeDynamicStatsZeroPoint", "src/brevitas_examples/common/generative/quantizers.py:Int8DynamicActPerRowFloat", "src/brevitas_examples/common/generative/quantizers.py:ShiftedUint8DynamicActPerRowFloat", "src/brevitas_examples/common/generative/quantize.py:generate_quantizers", "src/brevitas/core/function_wrapper/shape.py:OverOutputFeaturesView", "src/brevitas/core/stats/stats_op.py:AbsMinMax"]}
{"id": "C114", "title": "FP8 quantisers exported to ONNX compute what Brevitas computes", "statement": "Exporting a model to ONNX (QCDQ) turns every FP8 activation quantiser (OCP or FNUZ, E4M3 or E5M2, signed, with the bias of its standard, saturating, rounding to nearest, scales per tensor or per channel) into QuantizeLinear and DequantizeLinear nodes that return, on every input tensor, exactly the values, scales and format that the quantiser returns, in any runtime whose casts to 8-bit floats round to nearest, ties to even, and saturate; with export_weight_q_node=True the same holds for the FP8 weights of every layer, saturating or not. Quantisers that round otherwise, or whose format is not one of these four types, are refused.", "quantifier": "all input tensors, shapes, positive scales, weights and sharing layers; all four types; every conforming runtime; every element type whose smallest normal number is below 2^-18", "why_tests_cant": "Agreement at every tie between adjacent numbers, in the subnormals, at saturation and along the right channel axis, is a statement about all inputs; tests of the export only check that it does not raise.", "anchors": ["src/brevitas/export/common/handler/qcdq.py:FloatQCDQCastActQuantProxyHandlerMixin", "src/brevitas/export/common/handler/qcdq.py:FloatQCDQCastWeightQuantProxyHandlerMixin", "src/brevitas/export/common/handler/base.py:FloatZeroPointHandlerMixin", "src/brevitas/export/onnx/standard/qcdq/handler.py:StdFloatQCDQCastONNXMixin", "src/brevitas/export/onnx/standard/function.py:QuantizeLinearFn"]}
{"id": "C115", "title": "Graphs recorded by value_trace compute the model", "statement": "value_trace(model, value_args) runs the model once on the given values, leaving the state (buffers, random numbers, tensors modified in place) that running the model leaves, and returns a graph that, on every input and in every state for which the code of the model takes the decisions it took while it was traced, returns the same objects and leaves the same state as the model. Provided that the attributes the code reads do not change between reading and use, that calls without traced arguments are constants, and that augmented assignments do what the operator does; the arguments of the graph are the parameters that were given a value or do not default to None.", "quantifier": "every model (calls of functions, operators, methods, leaf modules, parameters, buffers, attributes and decisions, in any order and number), every behaviour of the operations on the state, every set of values to trace with, every input and state to run the graph on", "why_tests_cant": "tests trace a few models on one input; that the recorded graph is the model depends on every sequence of calls, attributes and decisions", "anchors": ["src/brevitas/fx/value_tracer.py:ValueTracer", "src/brevitas/fx/value_tracer.py:ValueProxy", "src/brevitas/fx/brevitas_tracer.py:value_trace", "src/brevitas/fx/brevitas_tracer.py:_gen_torch_fn_patches"]}
{"id": "C116", "title": "FlexML layers are average pooling and the leaky ReLU up to the steps of their quantisers", "statement": "FlexMLQuantAvgPool2d (average pooling with a quantised divisor) returns for every input 127/128 times the average over the window surrounded by zeros, with kernels of any size n below 5 * 10^7. For an input tensor of codes without zero point, unsigned or signed without the lowest code, and without ceil_mode, its output is a valid quant tensor: code 127 times the sum of the codes of the window, scale the input scale over 128 n, and bit width that holds every such sum. FlexMLQuantLeakyReLU with slope at most 1 is monotone, keeps zero, and deviates from the leaky ReLU at x by at most half an output step, an input step and |x| slope / 2^15, for every x that its quantisers can represent, once a training call has calibrated the quantiser of the slope, after any calls in any order of the layers of the model, provided that it is not shared with a layer of another slope.", "quantifier": "all inputs, kernels, strides, paddings, bit widths, scales and slopes of at least 2^16/10^10; every history of training and eval calls of any number of layers", "why_tests_cant": "the pooling factor depends on a quantiser calibrated in the constructor and the bound on bit widths on every window; the quantised slope depends on the whole history of calls of every layer that shares its quantiser", "anchors": ["src/brevitas/nn/target/flexml.py:FlexMLQuantAvgPool2d", "src/brevitas/nn/target/flexml.py:FlexMLQuantLeakyReLU", "src/brevitas/graph/target/flexml.py:FLEXML_QUANT_ACT_MAP", "src/brevitas/graph/quantize_impl.py:act_handler", "src/brevitas/core/scaling/standalone.py:ParameterFromRuntimeStatsScaling"]}
{"id": "C117", "title": "Scale statistics that do not cover the tensor clip a bounded share of it", "statement": "With the statistic mean plus sigma standard deviations (of the absolute values, sigma >= 0, at least two elements sharing the scale) at most one element in 1 + sigma^2 reaches the threshold, whatever the distribution of the data, and with a signed narrow integer quantiser of two bits or more at most that share is changed by more than half a step; with a scale per output channel this holds in every channel, also over several layers sharing the quantiser. With the average of the absolute values at most one element in c exceeds c times the threshold. The mean and the root mean square of channel maxima lie between the smallest and the largest channel maximum, so that some channel is not clipped at all, and the second is never below the first.", "quantifier": "all tensors, shapes, sigma, bit widths, layers sharing a quantiser", "why_tests_cant": "a share that holds for all distributions is an inequality about all tensors; data sampled in tests is bell shaped", "anchors": ["src/brevitas/core/stats/stats_op.py:MeanSigmaStd", "src/brevitas/core/stats/stats_op.py:_MeanSigmaStdImpl", "src/brevitas/core/stats/stats_op.py:MeanLearnedSigmaStd", "src/brevitas/core/stats/stats_op.py:AbsAve", "src/brevitas/core/stats/stats_op.py:AbsMaxAve", "src/brevitas/core/stats/stats_op.py:AbsMaxL2"]}
{"id": "C118", "title": "The divergence-minimising threshold is optimal among its candidates and never beyond the data", "statement": "For every non-empty tensor, odd number of histogram bins and number of quantised bins between one and the number of bins, KLMinimizerThreshold returns the upper end of one of the symmetric ranges of bins around the middle; no other range has a smaller Kullback-Leibler divergence between the histogram with outliers folded into the outermost bins and the histogram quantised and expanded again (the last bin of the range getting nothing), both smoothed and normalised exponentially; of several such ranges it is the smallest. The threshold is at most the largest absolute value and at least the share quantised bins / bins of it. In all other cases it raises; with the default number of bins it is defined for exactly 2 to 10 bits signed and 1 to 9 bits unsigned.", "quantifier": "all tensors, numbers of bins, bit widths, smoothing constants", "why_tests_cant": "optimality among all candidates and definedness for all widths quantify over data, bins and widths", "anchors": ["src/brevitas/core/stats/stats_op.py:KLMinimizerThreshold"]}
{"id": "C119", "title": "The Hessian that GPTQ collects predicts the change of the layer output", "statement": "For a linear layer with inputs of two or three axes, for a convolution with zero padding and any stride, padding, dilation and number of groups, and for a transposed convolution without groups and output padding: after any number of batches of any sizes have passed through the layer under gptq_mode, replacing the weights by any other weights changes the outputs on these batches by a total squared distance of (samples / 2) times the sum over output channels of d H d, where d is the change of the channel's weights as a row in the order GPTQ works on and H the matrix collected for its group. The bias does not matter.", "quantifier": "all layer hyperparameters in the stated classes, all sequences of batches with at least one sample each, all pairs of weights of the same shape", "why_tests_cant": "the statement is about all batch sequences and all changes of the weights; tests run the algorithm on fixed seeds and compare nothing with the layer output", "anchors": ["src/brevitas/graph/gptq.py:GPTQ.update_batch", "src/brevitas/graph/gpxq.py:GPxQ.process_input"]}
{"id": "C120", "title": "The inputs that GPFQ collects are pairs of windows of the layer's own inputs", "statement": "Under gpfq_mode, for linear layers with inputs of two or three axes, the vectors kept of every batch are all its input vectors in order, once from the pass with quantisation and once from the pass without. For convolutions, after any number of batches, vector k kept from the passes with quantisation and vector k kept from the passes without belong to the same batch and the same window, for every group and whatever numbers are drawn; if the stride of the layer is the size of its kernel, the window that belongs to an output is what its weights are multiplied with to get that output.", "quantifier": "all sequences of batches that are processed without an exception, all draws, all fractions p, all groups and weights", "why_tests_cant": "the draws are random and the batches unbounded in number; a test sees one draw", "anchors": ["src/brevitas/graph/gpfq.py:GPFQ.update_batch", "src/brevitas/graph/gpfq.py:gpfq_mode.catch_stopfwd"]}
{"id": "C121", "title": "The matrices that GPFQv2 collects decide which quantised weights are better", "statement": "For a linear layer with inputs of two or three axes and for a convolution with zero padding and any stride, padding, dilation and number of groups: after any number of batches under gpfq_mode with GPFQv2, each seen once with and once without quantisation, the total squared distance between the outputs of the original weights on the unquantised inputs and the outputs of candidate weights on the quantised inputs differs between any two candidates by (columns / 2) times the sum over output channels of q' H q' - q H q - 2 (q' - q) G w, with H and G the collected matrices of the channel's group, q, q' and w the rows of the candidates and of the original weights. How the samples are divided into batches and the bias do not matter.", "quantifier": "all layer hyperparameters in the stated classes, all sequences of batches, all original weights and all pairs of candidates", "why_tests_cant": "the statement is about all batch sequences and all candidates; tests only check that the algorithm runs", "anchors": ["src/brevitas/graph/gpfq.py:GPFQv2.update_batch", "src/brevitas/graph/gpfq.py:gpfq_mode.catch_stopfwd"]}
{"id": "C122", "title": "Passes run before quantisation do not change what the model computes", "statement": "Take a traced model in evaluation mode. (1) If every node called stochastic_depth returns its input and is read once, by one node, as a positional argument, then removing the stochastic-depth nodes succeeds, removes exactly these nodes, and for every input the remaining nodes have the values they had; the new model raises only where the old one did. (2) Whatever the arguments of a call x.mean(...) that the pass turns into global average pooling followed by a reshape, if both the call and its replacement return a result on a tensor, the results have the same shape and entries; and x.mean((2, 3)) is replaced by something that returns on every non-empty batch of non-empty images.", "quantifier": "all graphs with any number and chaining of stochastic-depth nodes, all modules and inputs; all argument lists of mean, all tensors", "why_tests_cant": "A test traces one network and compares one output; whether the rewriting is right depends on how nodes are read, on chains of removed nodes and on the form of each call.", "anchors": ["src/brevitas/graph/standardize.py:RemoveStochasticModules", "src/brevitas/graph/standardize.py:MeanMethodToAdaptiveAvgPool2d", "src/brevitas/graph/base.py:CallableToModule.rewrite_node"]}
{"id": "C123", "title": "LSTM layers exported to ONNX compute what the layer computes", "statement": "For an LSTM layer without activation quantisers and with biases, the ONNX operator LSTM written by the export, read by the ONNX documentation, returns the outputs, hidden state and cell state of the layer, with a direction axis: the gates are stacked in the order of the standard, the second half of the biases is zero, and layout, direction, coupled gates and initial states are those of the layer. The exported layer, which removes the direction axis again, equals the layer. For a quantised cell each of the six values of each quantiser reaches the parameter of the custom operator that bears its name.", "quantifier": "every sequence of batches, both layouts, both directions, coupled gates or not, states given or not, every weight and bias, every activation function; every value of the quantisers", "why_tests_cant": "Tests export a model and look at whether the call returns; what the graph computes for other batch sizes and sequence lengths is not run.", "anchors": ["src/brevitas/export/onnx/handler.py:QuantLSTMLayerHandler", "src/brevitas/export/onnx/function.py:LSTMCellFn", "src/brevitas/export/onnx/qonnx/function.py:BrevitasQuantLSTMCellFn", "src/brevitas/nn/quant_rnn.py:_QuantLSTMLayer"]}
{"id": "C124", "title": "Checkpoints of earlier versions and of statistics-based quantisers load with the same meaning", "statement": "Keys renamed when a checkpoint is loaded carry their values to the new names, leave the old ones and change nothing else, provided no new name is already taken (then the value there is lost). The running statistic of an activation quantiser becomes the learned scale unless there is one already, and no statistics are left over: the loaded quantiser, with a scale learned from statistics, has in eval mode the scale the saved one had. With a scale that is a parameter from the start this holds when the minimal scale does not bite and, for powers of two, when the threshold is a power of two and the rounding commutes with integers. In load_quant_model_mode a layer without bias loads a bias that bias correction added; outside, a strict load fails.", "quantifier": "every dictionary and prefix; every statistic, threshold, minimal scale and restriction of the scale; every layer, bias and mode", "why_tests_cant": "Tests load a few checkpoints and look at missing keys; whether the scale is the same for every statistic and restriction is not compared.", "anchors": ["src/brevitas/nn/utils.py:rename_state_dict_by_prefix", "src/brevitas/proxy/utils.py:ConvertRuntimeStatsToParameter", "src/brevitas/nn/quant_layer.py:QuantWeightBiasInputOutputLayer", "src/brevitas/core/scaling/runtime.py:StatsFromParameterScaling", "src/brevitas/graph/calibrate.py:load_quant_model_mode"]}
{"id": "C125", "title": "Minifloat activation quantisers declare the format of what they return", "statement": "An enabled minifloat activation quantiser returns, for every input, a quant tensor whose elements are the activation quantised to values of the format it declares, with the scale, sign and codes of the quantiser. Disabled, it applies only the activation function; a minifloat quant tensor that passes a QuantIdentity, QuantReLU or QuantHardTanh stays a quant tensor with its scale, zero point, format, codes and sign. Asked for its format the quantiser answers with its own, or, with caching, with that of the last quant tensor it returned in eval mode with caching on.", "quantifier": "every activation function, saturating format and scaling; every input, plain or quantised; every history of forward passes, mode changes and cache settings", "why_tests_cant": "Tests run an enabled quantiser and check that it returns; the metadata that pass through a disabled one are compared for integers only.", "anchors": ["src/brevitas/proxy/float_runtime_quant.py:ActFloatQuantProxyFromInjector", "src/brevitas/proxy/runtime_quant.py:ActQuantProxyFromInjectorBase", "src/brevitas/utils/quant_utils.py:_CachedIOFloat", "src/brevitas/quant_tensor/float_quant_tensor.py:FloatQuantTensor"]}
{"id": "C126", "title": "Layers with accumulator-aware weights never overflow their accumulator, whatever happened to them before", "statement": "After every history of training steps, loaded weights, changes of mode, caching, disabling, and inputs of other bit widths or signs, a forward pass of a layer with accumulator-aware weights on a quantised input uses integer weights whose sums of products with that input, over any subset and in any order, fit the accumulator. A plain input is refused. quant_weight() without input returns the weights a forward pass would use on the last quantised input seen in eval mode with caching on, and raises if there was none; weights asked for this way are for that input and may overflow with wider ones.", "quantifier": "every history of operations, every weight, scale and learned norm, every width of weights, accumulator and input, both quantisers", "why_tests_cant": "Tests quantise random weights once and compare norms; a history of inputs of other widths and of cached metadata is not run.", "anchors": ["src/brevitas/proxy/parameter_quant.py:DecoupledWeightQuantWithInputProxyFromInjector", "src/brevitas/nn/mixin/parameter.py:QuantWeightMixin", "src/brevitas/core/quant/int.py:DecoupledRescalingIntQuantWithInput", "src/brevitas/core/scaling/pre_scaling.py:AccumulatorAwareParameterPreScaling"]}
{"id": "C127", "title": "The bias of a quantised layer has the scale of the accumulator in forward passes and the recorded one outside of them", "statement": "For a layer whose integer bias quantiser takes its scale from the layer (Int8Bias, Int16Bias, Int24Bias, Int32Bias) and is not shared with another layer: in a forward pass on a quantised input and weight the bias is quantised at input scale times weight scale, per output channel, with zero point 0 and the declared bit width, each value being the representable one closest to the bias, whatever happened before; quant_bias() and passes on other inputs use the current bias at the scale of the last inference pass made with the quantiser and caching on, and raise if there was none; scale() answers with that scale or None, zero_point() with 0 and bit_width() with the declared width; asking changes nothing. A quantiser with a scale of its own returns the same in and outside of forward passes. A disabled quantiser returns the bias.", "quantifier": "every bias and number of channels, bit width, sign, rounding function, every history of mode switches, caching switches, new biases, forward passes and questions", "why_tests_cant": "which scale a question is answered with depends on the whole history of modes, switches and passes; tests look at a handful of histories", "anchors": ["src/brevitas/proxy/parameter_quant.py:BiasQuantProxyFromInjector", "src/brevitas/nn/mixin/parameter.py:QuantBiasMixin", "src/brevitas/core/quant/int.py:PrescaledRestrictIntQuant", "src/brevitas/utils/quant_utils.py:_CachedIO"]}
{"id": "C128", "title": "Learned rounding only ever chooses between the two neighbouring integers, and its loss controls the step from training to inference", "statement": "Running the learned-rounding procedure of the post-training quantisation flow on a model works on every layer exactly once, in order. Whatever the optimiser does in however many iterations, the weights, the scales, zero points, bit width and range options of the layer stay as they were, and the layer ends in inference mode with, for every weight element, the integer just below or just above the weight in units of its scale, clipped to the container; an element inside the container moves by at most its scale, and with no iterations a fresh layer is rounded to nearest. The rounding loss is between 0 and its weight times the number of elements, is 0 exactly when every element's rounding is decided, bounds how much the quantised weights change in total when soft rounding is replaced by hard rounding, is absent during the warm-up and is added to the reconstruction error afterwards; its exponent never increases, stays between the end and the start value, and is the end value at the last iteration.", "quantifier": "all layers with all weights, scales, zero points, formats and learned parameters; all length-preserving optimiser steps and iteration counts; all trees of layers; all loss settings with fractions in [0,1)", "why_tests_cant": "tests run a few iterations of one optimiser on small models and look at shapes or accuracy; they cannot cover all optimisers, schedules and weights", "anchors": ["src/brevitas_examples/imagenet_classification/ptq/learned_round_utils.py:Loss", "src/brevitas_examples/imagenet_classification/ptq/learned_round_utils.py:LinearTempDecay", "src/brevitas_examples/imagenet_classification/ptq/learned_round_utils.py:insert_learned_round_quantizer", "src/brevitas_examples/imagenet_classification/ptq/learned_round_utils.py:learned_round_iterator", "src/brevitas_examples/imagenet_classification/ptq/ptq_common.py:apply_learned_round_learning", "src/brevitas/core/function_wrapper/learned_round.py:LearnedRoundSte"]}
{"id": "C129", "title": "Keyword options of a layer reach exactly the quantiser they are addressed to", "statement": "In every quantised layer with weights, for each of its input, output, weight and bias quantisers that is made from a quantiser class (or from None), the value of an option is that of the keyword argument with the quantiser's prefix (input_, output_, weight_, bias_) if one was given, and otherwise that of the class; keywords for one quantiser never change another; no keyword changes that input and output quantisers apply no activation function. Keywords without any prefix are accepted and ignored, and construction fails exactly for a fixed list of reserved keywords and for quantisers that are neither classes nor quantisers. A quantiser that already exists keeps all its options, is told about the layer, and the layer warns if keywords were addressed to it. Activation layers take the options of their quantiser without prefix and those of the input with input_; attention layers those of the projections with in_proj_/out_proj_ before the prefix, for a packed and for three separate input projections alike, and those of the other quantisers with their own prefixes; LSTM layers with one prefix per quantiser, RNN layers too except for the gate accumulator, whose prefix is gate_acc_quant_.", "quantifier": "all quantiser classes (any inheritance), all keyword arguments (any number, any names and values), all combinations of None, classes and existing quantisers", "why_tests_cant": "Tests give a few options to a few layers; that no combination of names reaches the wrong quantiser, and that none is lost, concerns all strings and all classes.", "anchors": ["src/brevitas/nn/mixin/base.py:QuantProxyMixin", "src/brevitas/nn/mixin/utils.py:filter_kwargs", "src/brevitas/nn/mixin/act.py:QuantInputMixin", "src/brevitas/nn/mixin/parameter.py:QuantBiasMixin", "src/brevitas/nn/quant_layer.py:QuantWeightBiasInputOutputLayer", "src/brevitas/nn/quant_mha.py:QuantMultiheadAttention", "src/brevitas/nn/quant_rnn.py:_QuantLSTMLayer"]}
{"id": "C130", "title": "Scales from statistics with a learned factor are the factor's magnitude times the averaged statistic", "statement": "With scaling_impl_type AFFINE_STATS and unrestricted (float) scales, the scale is the statistic over the threshold, times the magnitude of the learned factor, and at least scaling_min_val; as the factor starts at 1 a new quantiser has the scale it would have with STATS. The four 8-bit BatchQuant activation quantisers (signed or unsigned, for 3-d or 4-d tensors with channels in the second dimension) use in training mode the mean over channels of the largest magnitude in each channel of the current batch; in eval mode, once a batch was seen in training mode, they use the true average of those means over all batches seen in training mode, whatever the input, the order of mode switches and the steps of the optimiser, and leave the state unchanged. Values are the 8-bit integer quantisation at that scale with zero point 0.", "quantifier": "All statistics, thresholds, factors and minimum values; all histories of mode switches, factor updates and forward passes on non-empty tensors of the right rank.", "why_tests_cant": "Histories of batches and updates are unbounded and factors range over all reals; tests run a few batches at the initial factor.", "anchors": ["src/brevitas/core/scaling/runtime.py:_StatsScaling", "src/brevitas/core/scaling/runtime.py:_AffineRescaling", "src/brevitas/core/scaling/runtime.py:RuntimeStatsScaling", "src/brevitas/quant/base.py:BatchQuantStatsScaling2d", "src/brevitas/quant/scaled_int.py:Int8ActPerTensorFloatBatchQuant2d"]}
{"id": "C131", "title": "Fused attention projections compute what the attention layer computes", "statement": "QuantizableAttention replaces an attention layer by one with query, key and value projections fused (if query and key have the same input size) or with key and value fused (if not). Loaded with the state dict of an attention layer without projection biases, it computes for every sequence, and in the second case every encoder sequence, exactly the query, key and value of that layer and passes on the layer's other parameters, so that the result is the same whatever follows the projections. A state dict saved from a fused layer is loaded unchanged, with or without biases. A state dict that has some of the weights to be fused but lacks another is refused with a KeyError. The head size computed from the scale of the layer replaced is that layer's head size (in exact arithmetic).", "quantifier": "All dimensions with a positive inner size, all weights, all state dicts in any order, all sequences and all functions that follow the projections.", "why_tests_cant": "Weights, sequences and dimensions are unbounded; a test fixes one model.", "anchors": ["src/brevitas_examples/stable_diffusion/sd_quant/nn.py:QuantizableAttention", "src/brevitas_examples/stable_diffusion/sd_quant/nn.py:AttnProcessor", "src/brevitas_examples/stable_diffusion/sd_quant/nn.py:AttnProcessor2_0", "src/brevitas_examples/stable_diffusion/main.py:main"]}
{"id": "C132", "title": "Graph quantisation ends with a model that returns plain tensors", "statement": "The last step of graph quantisation (DisableLastReturnQuantTensor) changes at most one module, from returning quant tensors to returning plain tensors, and does not change the graph. Afterwards the output of a model that is a chain of calls is a plain tensor in every run, whatever its modules are and also if modules are called several times. For other models this holds if the only quant tensor that can arrive at the output comes from one call, that call is read once, and no later call of a layer that returns quant tensors is read exactly once.", "quantifier": "All graphs in execution order with any number of nodes and modules, and all ways in which values can be quant tensors in a run.", "why_tests_cant": "Graphs are unbounded; a test looks at the output of a few models.", "anchors": ["src/brevitas/graph/standardize.py:DisableLastReturnQuantTensor", "src/brevitas/graph/quantize.py:quantize", "src/brevitas/nn/mixin/base.py:QuantLayerMixin"]}
{"id": "C133", "title": "The perplexity reported for a language model is its perplexity", "statement": "Cutting one sequence of tokens for evaluation gives windows of the requested length that follow each other from the first token without gap or overlap, with fewer tokens than one window left over. The value reported for a model on windows of the requested length (at least 2) is the perplexity of the model on them: the inverse geometric mean of the probabilities that the logits at each position give to the next token, over all tokens but the first of each window. In particular a model that gives every token the same chance is reported with the size of its vocabulary.", "quantifier": "every token sequence, window length of at least 2 and model whose logits cover the vocabulary", "why_tests_cant": "Tests run one model on one dataset and compare with a stored number; that the number is the perplexity for every model and length needs a proof.", "anchors": ["src/brevitas_examples/llm/llm_quant/eval.py:create_validation_dataloader", "src/brevitas_examples/llm/llm_quant/eval.py:model_eval"]}
{"id": "C134", "title": "The attention layer that replaces OPT attention attends under the mask it is given", "statement": "For self-attention and attention to other states, sequence first or batch first, with any boolean or float mask of four dimensions whose sizes for sequences, heads and query positions are full or 1, of three dimensions for all heads of all sequences, or of two dimensions for positions (one row only if there are as many keys as queries), output and weights of the layer are those of multi-head attention in which the score of key s for query t in head h of sequence n gets exactly the entry of the mask for (n, h, t, s), a size of 1 being shared. A key that a boolean mask hides gets weight 0 whatever the states are.", "quantifier": "every layer whose projections fit together, batch size, number of heads, lengths, states and masks of these forms", "why_tests_cant": "Tests run one mask on one model; a mixed-up order of sequences and heads shows only for masks that differ between sequences.", "anchors": ["src/brevitas_examples/llm/llm_quant/mha_layers.py:attention_mask_handler", "src/brevitas_examples/llm/llm_quant/mha_layers.py:QuantizableOPTAttention"]}
{"id": "C135", "title": "A layer that replaces another has its options, unless the rewriter sets them", "statement": "When a rewriter replaces a module by one of another class, an option that the old module stores under its name and the new class has keeps its value unless the rewriter was given one; what the rewriter was given wins, lambdas being called with the old module (and its name, if they take two arguments); other options have the default of the new class. The new layer has a bias exactly if the old one, whose bias is a parameter or None, has one. So linear layers, convolutions and transposed convolutions of any options are replaced by layers with the same sizes, stride, padding, dilation, groups, padding mode, output padding and bias, whatever quantisers are given.", "quantifier": "every signature, old module, set of rewriter arguments and, for the three kinds of layers, all options", "why_tests_cant": "Tests replace a few layers with a few options; that no option is dropped for any combination needs a proof over all of them.", "anchors": ["src/brevitas/graph/base.py:ModuleToModule", "src/brevitas/graph/base.py:ModuleToModuleByInstance", "src/brevitas/graph/base.py:ModuleToModuleByClass", "src/brevitas/graph/utils.py:signature_keys"]}
{"id": "C136", "title": "Working in single precision for a while gives each tensor its number format back", "statement": "While the context that converts a language model to float32 is active, every floating point parameter and persistent buffer is float32 and the others are untouched. When it is left, normally or by an exception and whatever was done to the values meanwhile, every parameter and persistent buffer that the model had before has its old format again, also if it is shared under several names, and a tensor whose names are all new has the target format. If nothing was done and the model has no float64 tensors and no non-persistent buffers, the model is exactly what it was. The provisos are needed: non-persistent buffers (also boolean masks) and new integer tensors are converted to the target format, and float64 values lose precision.", "quantifier": "all models (names, sharing of tensors, formats, values), all blocks, whether they raise, all target formats, all conversions of values", "why_tests_cant": "Tests use one model with one format; sharing, integer buffers, exceptions and tensors that appear inside of the block are combinations no list covers.", "anchors": ["src/brevitas_examples/llm/llm_quant/run_utils.py:cast_to_float32"]}
{"id": "C137", "title": "The gradient of the squared hinge loss is its derivative", "statement": "SqrHingeLoss is the mean over all elements of the square of how far prediction times target is below 1: never negative, and 0 exactly if every product is at least 1. Its hand-written gradient with respect to the predictions is the (Frechet) derivative of the loss at all predictions and targets, also where a product is exactly 1. This holds for the loss itself: the gradient of a multiple of the loss, or of a sum in which it is scaled, ignores the factor, and is wrong whenever the factor is not 1 and the gradient does not vanish.", "quantifier": "all numbers of elements, all real predictions and targets, all factors", "why_tests_cant": "The derivative is a limit at every point of a continuum; finite differences at a few points with tolerances do not settle it, least of all at the kink.", "anchors": ["src/brevitas_examples/bnn_pynq/models/losses.py:squared_hinge_loss", "src/brevitas_examples/bnn_pynq/models/losses.py:SqrHingeLoss"]}
{"id": "C138", "title": "Learned scales and bit widths receive the straight-through gradient", "statement": "When the scale and the bit width of an integer quantiser are learned, the gradient that flows to the learned value of the scale, to the learned offset of the bit width and to the input, together or alone, is the derivative of the quantiser with all that is not smooth held as it is: the rounding errors, what a lower bound adds, the signs of magnitudes and the side on which an input is clipped. In particular the learned value (plain, as a logarithm, or as a rounded logarithm) receives its own slope per step times the rounding error in steps, or times the end of the range for a clipped input, summed over the tensor; the bit width of a signed full-range quantiser receives log 2 times the rounding error, times the step for inputs clipped at the top, and nothing from inputs clipped at the bottom. Needed: the learned value is not 0, the bit width gives a proper range, and the lower bound of the scale is at most the number of steps.", "quantifier": "all inputs, learned values, bit width offsets and base widths, signed or not, narrow or not, the three restrictions of the scale, with or without a lower bound, all differentiable paths of the three, tensors of any length", "why_tests_cant": "Gradients are limits at every point of a continuum of parameters, and a numerical check cannot see through rounding, whose true derivative is 0.", "anchors": ["src/brevitas/core/quant/int.py:RescalingIntQuant", "src/brevitas/core/scaling/standalone.py:ParameterScaling", "src/brevitas/core/bit_width/parameter.py:BitWidthParameter", "src/brevitas/core/restrict_val.py:PowerOfTwoRestrictValue", "src/brevitas/core/scaling/int_scaling.py:IntScaling", "src/brevitas/ops/autograd_ste_ops.py:RoundSteFn"]}
{"id": "C139", "title": "Gradients of minifloat quantisers", "statement": "A saturating minifloat quantiser returns the same values under autograd. An input that is not clipped (or any, with the straight-through clamp) receives the gradient of its output times a ratio: exactly 1 if it is below the normal numbers; otherwise the ratio of quantised number and scaled input up to the epsilon that the code adds, which is within one rounding error of the mantissa of 1, but is not 1 in general. An input that is clipped by the masking clamp receives nothing and gives the scale the end of the range. A learned scale receives the rounding error from subnormal elements, but from normal elements that are not clipped practically nothing: at most the epsilon times a rounding error of the mantissa per unit of gradient, however many elements there are.", "quantifier": "all formats (exponent, mantissa, bias, signed or not, any epsilon above 0), scales other than 0, inputs, gradients, straight-through roundings, both clamps, tensors of any length", "why_tests_cant": "The gradient is a function on a continuum with a different branch in every binade; a test that compares with 1 at some representable inputs passes.", "anchors": ["src/brevitas/core/quant/float.py:FloatQuant", "src/brevitas/utils/torch_utils.py:float_internal_scale", "src/brevitas/core/function_wrapper/clamp.py:FloatClamp", "src/brevitas/function/ops_ste.py:floor_ste"]}
{"id": "C140", "title": "Weights whose scale is their largest magnitude receive the gradient of scale and rounding", "statement": "When the scale of integer weights is taken from their largest magnitude (plain, in the logarithmic domain or rounded to a power of two), every quantised weight is an integer of the range times the scale. In training each weight receives the gradient of its quantised value unchanged, and only the weights of the largest magnitude receive something in addition: between them, with shares that sum to 1 (even over a whole tensor; all for the index that is found per channel), their sign times the slope of the scale times the sum over all weights of gradient times rounding error in steps. If the lower bound of the scale is not active, the products of weights and their gradients sum to those of quantised weights and theirs: the gradient along a common factor of all weights is exact.", "quantifier": "all numbers of weights, all weights that are not all 0, gradients, bit widths that leave a proper range, signed or not, narrow or not, the three restrictions, with or without a lower bound, ties included", "why_tests_cant": "Which weight is the largest, how ties share, and the coupling of all weights through one scale range over all tensors; a finite-difference check cannot see through rounding.", "anchors": ["src/brevitas/core/scaling/runtime.py:StatsFromParameterScaling", "src/brevitas/core/stats/stats_op.py:AbsMax", "src/brevitas/core/quant/int.py:RescalingIntQuant", "src/brevitas/core/restrict_val.py:LogFloatRestrictValue", "src/brevitas/ops/autograd_ste_ops.py:TensorClampSteFn"]}
{"id": "C141", "title": "Checkpoints hold every tensor once, leave out constants, and load back", "statement": "state_dict() of a model has exactly its parameters and buffers under their dotted names, except for the values of constants (such as fixed bit widths and scales) and for the copies of weights that scale statistics track; the latter are there if full state dicts are switched on. Loading such a checkpoint, full or not, into a model of the same structure raises no error, gives every tensor that is named in it the saved value (also where the same tensor is used under another name, as in weight statistics) and leaves all others as they are. With any checkpoint, such as that of a float model, the missing keys are exactly those of ordinary parameters and buffers that it does not have; constants and tracked weights are never missing. Loading raises an error exactly if there are missing keys or keys of no tensor of the model, and a checkpoint that does have a constant overwrites it.", "quantifier": "all trees of modules with distinct names, of any depth and width, with tensors shared in any way; all values; all checkpoints", "why_tests_cant": "Depends on the tree of modules and on which tensors are shared, which are unbounded.", "anchors": ["src/brevitas/core/utils.py:StatelessBuffer", "src/brevitas/core/stats/view_wrapper.py:_ViewParameterWrapper", "src/brevitas/core/stats/view_wrapper.py:_ViewCatParameterWrapper"]}
{"id": "C142", "title": "Truncation passes on the gradient divided by the codes that become one", "statement": "Truncating a quantised tensor from n to m bits returns the short code (the code of the input divided by 2^(n-m), to an integer by the chosen rounding), less the zero point, times the scale. In training the input receives the gradient of the output divided by 2^(n-m), and the gradients of scale, zero point and bit widths are the derivatives of the truncation with both rounding errors held. With zero point 0 and fixed bit widths the scale receives less than 1 + 2^(m-n)/2 times the gradient of an element, however large the input.", "quantifier": "all inputs, scales, zero points and bit widths and all five roundings; all differentiable paths of the arguments", "why_tests_cant": "Gradients at all real inputs and along all paths cannot be sampled.", "anchors": ["src/brevitas/core/quant/int.py:TruncIntQuant", "src/brevitas/core/function_wrapper/ops_ste.py:RoundSte"]}
{"id": "C143", "title": "Integer quantisation with stochastic rounding is unbiased and its errors average out", "statement": "In training (and in evaluation if inference is not deterministic), an integer quantiser with stochastic rounding gives any weighted sum of inputs within its range, such as a dot product, its exact value in expectation over the draws. The expected squared error of the sum is the sum over its terms of squared weight times squared scale times f(1-f), where f is the distance to the code below, and so at most a quarter of the squared scale times the sum of squared weights. Inputs beyond the range are clipped to its ends whatever the draws.", "quantifier": "all tensors, weights, scales, zero points, bit widths, signs, narrow ranges; all draws", "why_tests_cant": "Expectations over all draws for tensors of any size cannot be settled by sampling.", "anchors": ["src/brevitas/core/function_wrapper/stochastic_round.py:StochasticRoundSte", "src/brevitas/core/quant/int_base.py:IntQuant"]}
{"id": "C144", "title": "Weight-normalised quantisers depend on the direction of a channel only", "statement": "For the quantisers with normalised weights (L1 or L2 norm per output channel, learned norm g): if the weights of a channel are not all zero and g is not 0, multiplying the channel by a positive factor does not change its quantised weights; each is an integer of the narrow signed range times the scale, within half a scale of the weight normalised to norm |g| if that is within the range, and the end of the range if it is beyond; and with the g of initialisation the weights are quantised as an ordinary quantiser with this scale does. A channel of zeros has no defined result: its quantised weights are NaN.", "quantifier": "all channels of any size, scales, learned norms, bit widths, both norms", "why_tests_cant": "Ranges over all real weights and factors.", "anchors": ["src/brevitas/core/scaling/pre_scaling.py:ParameterPreScalingWeightNorm", "src/brevitas/quant/base.py:WeightNormPerChannelFloatDecoupled", "src/brevitas/core/stats/stats_op.py:L2Norm"]}
{"id": "C145", "title": "Weight-normalised quantisers send no gradient along the weights", "statement": "In training with a weight-normalised quantiser (L1 or L2 norm, channel not all zero, learned norm g not 0), the quantised weights are those normalised to norm |g|, rounded and clipped. The gradient that a channel receives is orthogonal to its weights, whatever the gradients of the quantised weights, with and without clipping. In detail weight j receives |g| over the norm times its own gradient (0 if it is clipped) less the slope of the norm in weight j times the sum of gradient times weight over the norm, over all weights that are not clipped. The learned norm receives, with its sign, the sum of gradient times weight over the norm, over all weights that are not clipped.", "quantifier": "all channels of any size, gradients, scales, learned norms, bit widths of at least 1, both norms", "why_tests_cant": "Ranges over all real weights and gradients.", "anchors": ["src/brevitas/core/scaling/pre_scaling.py:ParameterPreScalingWeightNorm", "src/brevitas/quant/base.py:WeightNormPerChannelFloatDecoupled", "src/brevitas/core/quant/int_base.py:DecoupledIntQuant"]}
