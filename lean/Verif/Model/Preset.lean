import Verif.Model.ChannelScale
import Verif.Model.WbLayer

/-!
# The shipped weight quantisers and how their settings are solved

`src/brevitas/quant/base.py`, `quant/scaled_int.py`, `quant/fixed_point.py`, `quant/shifted_scaled_int.py`, `quant/ternary.py`, `quant/none.py` (the settings) and
`src/brevitas/quant/solver/common.py`, `quant/solver/parameter.py`, `quant/solver/weight.py`, `quant/solver/act.py` (what is made of them). A quantiser is the dictionary of its settings, nearest definition first:
the keyword arguments of the layer, then the attributes of the class, then those of its bases in order (see `Inject.lean` for the injector). `none` is an exception.
Not modelled: implementations injected directly in place of the enums (`scaling_impl`, `tensor_quant`, ...), scales per group (`GroupQuant.lean`), learned and stochastic rounding,
statistics other than MAX, AVE, MAX_AVE and MIN_MAX, scaling of types HE and AFFINE_STATS, and what training does to learned values.
-/

namespace Brevitas

namespace Preset

open NdTensor ChannelScale WbLayer QuantConv

/-- `QuantType`, inject/enum.py:19-26. -/
inductive QuantType where
  | binary | ternary | int | fp
  deriving DecidableEq

/-- `BitWidthImplType`, inject/enum.py:10-16. -/
inductive BitWidthType where
  | const | parameter | statefulConst
  deriving DecidableEq

/-- `RestrictValueType`, inject/enum.py:29-36. -/
inductive RestrictType where
  | fp | logFp | int | powerOfTwo
  deriving DecidableEq

/-- `FloatToIntImplType`, inject/enum.py:39-49. -/
inductive RoundType where
  | round | ceil | floor | roundToZero | dpu | learnedRound | stochasticRound
  deriving DecidableEq

/-- `ScalingImplType`, inject/enum.py:59-68. -/
inductive ScalingType where
  | he | const | stats | affineStats | parameter | parameterFromStats
  deriving DecidableEq

/-- `ScalingPerOutputType`, inject/enum.py:71-77. -/
inductive PerType where
  | tensor | channel | group
  deriving DecidableEq

/-- `StatsOp`, inject/enum.py:80-95. -/
inductive StatsOp where
  | max | ave | maxAve | meanSigmaStd | meanLearnSigmaStd | percentile | minMax | percentileInterval
  deriving DecidableEq

/-- The zero points used by the weight quantisers: `ZeroZeroPoint`, and `StatsFromParameterZeroPoint` or `ParameterFromStatsFromParameterZeroPoint` with `NegativeMinOrZero`
(quant/base.py:176, 210-211). -/
inductive ZeroPointType where
  | zero | negativeMin | parameter
  deriving DecidableEq

/-- The names of the settings read by the solvers below. -/
inductive Key where
  | quant_type | bit_width_impl_type | bit_width | float_to_int_impl_type | narrow_range | signed | zero_point_impl | quantize_zero_point | scaling_impl_type | scaling_stats_op
  | scaling_min_val | scaling_const | scaling_per_output_type | scaling_per_output_channel | restrict_scaling_type | restrict_value_float_to_int_impl | min_val | max_val
  deriving DecidableEq

/-- The value of a setting. `none` is Python's `None`. -/
inductive Val (K : Type*) where
  | none
  | bool (b : Bool)
  | nat (n : ℕ)
  | num (x : K)
  | quant (t : QuantType)
  | width (t : BitWidthType)
  | restrict (t : RestrictType)
  | round (t : RoundType)
  | scaling (t : ScalingType)
  | per (t : PerType)
  | op (t : StatsOp)
  | zero (t : ZeroPointType)

/-- The settings of a quantiser, nearest definition first. -/
abbrev Settings (K : Type*) := List (Key × Val K)

variable {K : Type*} [Field K] [LinearOrder K] [IsStrictOrderedRing K] [FloorRing K]

/-- Access to an attribute of the injector: the nearest definition (inject/__init__.py, see `Inject.lean`). -/
def Settings.find (d : Settings K) (k : Key) : Option (Val K) := d.lookup k

/-! ### The classes -/

/-- `MaxStatsScaling`, quant/base.py:94-99. -/
def maxStatsScaling : Settings K := [(.scaling_impl_type, .scaling .stats), (.scaling_stats_op, .op .max), (.scaling_min_val, .num (1 / 10 ^ 10))]

/-- `MinMaxStatsScaling`, quant/base.py:102-107. -/
def minMaxStatsScaling : Settings K := [(.scaling_impl_type, .scaling .stats), (.scaling_stats_op, .op .minMax), (.scaling_min_val, .num (1 / 10 ^ 10))]

/-- `ParamMinMaxInitScaling`, quant/base.py:162-165. -/
def paramMinMaxInitScaling : Settings K := [(.scaling_impl_type, .scaling .parameter)]

/-- `IntQuant`, quant/base.py:168-176. -/
def intQuant : Settings K := [(.quant_type, .quant .int), (.bit_width_impl_type, .width .const), (.float_to_int_impl_type, .round .round), (.narrow_range, .bool false), (.signed, .bool true),
  (.zero_point_impl, .zero .zero)]

/-- `NarrowIntQuant`, quant/base.py:179-187. -/
def narrowIntQuant : Settings K := [(.quant_type, .quant .int), (.bit_width_impl_type, .width .const), (.float_to_int_impl_type, .round .round), (.narrow_range, .bool true),
  (.signed, .bool true), (.zero_point_impl, .zero .zero)]

/-- `UintQuant`, quant/base.py:190-198. -/
def uintQuant : Settings K := [(.quant_type, .quant .int), (.bit_width_impl_type, .width .const), (.float_to_int_impl_type, .round .round), (.narrow_range, .bool false), (.signed, .bool false),
  (.zero_point_impl, .zero .zero)]

/-- `ShiftedMinUintQuant`, quant/base.py:201-214. The shape, view and concatenation of the zero point are those of the scale. -/
def shiftedMinUintQuant : Settings K := [(.quant_type, .quant .int), (.bit_width_impl_type, .width .const), (.float_to_int_impl_type, .round .round), (.narrow_range, .bool false),
  (.signed, .bool false), (.quantize_zero_point, .bool true), (.zero_point_impl, .zero .negativeMin)]

/-- `PerChannelFloatScaling8bit`, quant/base.py:233-238. -/
def perChannelFloatScaling8bit : Settings K := [(.scaling_per_output_type, .per .channel), (.restrict_scaling_type, .restrict .fp), (.bit_width, .nat 8)]

/-- `PerTensorFloatScaling8bit`, quant/base.py:241-246. -/
def perTensorFloatScaling8bit : Settings K := [(.scaling_per_output_type, .per .tensor), (.restrict_scaling_type, .restrict .fp), (.bit_width, .nat 8)]

/-- `PerChannelPoTScaling8bit`, quant/base.py:249-254: the restriction is FP in spite of the name. -/
def perChannelPoTScaling8bit : Settings K := [(.scaling_per_output_type, .per .channel), (.restrict_scaling_type, .restrict .fp), (.bit_width, .nat 8)]

/-- `PerTensorPoTScaling8bit`, quant/base.py:257-263. -/
def perTensorPoTScaling8bit : Settings K := [(.scaling_per_output_type, .per .tensor), (.restrict_scaling_type, .restrict .powerOfTwo), (.bit_width, .nat 8),
  (.restrict_value_float_to_int_impl, .round .ceil)]

/-- `PerTensorConstScaling2bit`, quant/base.py:276-280. -/
def perTensorConstScaling2bit : Settings K := [(.scaling_impl_type, .scaling .const), (.restrict_scaling_type, .restrict .fp), (.scaling_per_output_type, .per .tensor), (.bit_width, .nat 2)]

/-- `Int8WeightPerTensorFloat`, quant/scaled_int.py:154-166: the default of the layers with weights. -/
def int8WeightPerTensorFloat : Settings K := narrowIntQuant ++ maxStatsScaling ++ perTensorFloatScaling8bit

/-- `Int8WeightPerChannelFloat`, quant/scaled_int.py:181-193. -/
def int8WeightPerChannelFloat : Settings K := narrowIntQuant ++ maxStatsScaling ++ perChannelFloatScaling8bit

/-- `ShiftedUint8WeightPerTensorFloat`, quant/shifted_scaled_int.py:88-101. -/
def shiftedUint8WeightPerTensorFloat : Settings K := shiftedMinUintQuant ++ minMaxStatsScaling ++ perTensorFloatScaling8bit

/-- `ShiftedUint8WeightPerChannelFloat`, quant/shifted_scaled_int.py:118-131. -/
def shiftedUint8WeightPerChannelFloat : Settings K := shiftedMinUintQuant ++ minMaxStatsScaling ++ perChannelFloatScaling8bit

/-- `Int8WeightPerTensorFixedPoint`, quant/fixed_point.py:24-37. -/
def int8WeightPerTensorFixedPoint : Settings K := narrowIntQuant ++ maxStatsScaling ++ perTensorPoTScaling8bit

/-- `Int8WeightPerChannelFixedPoint`, quant/fixed_point.py:40-53. -/
def int8WeightPerChannelFixedPoint : Settings K := narrowIntQuant ++ maxStatsScaling ++ perChannelPoTScaling8bit

/-- `SignedTernaryWeightPerTensorConst`, quant/ternary.py:16-28. -/
def signedTernaryWeightPerTensorConst : Settings K := (.scaling_const, .num (1 / 10)) :: (narrowIntQuant ++ perTensorConstScaling2bit)

/-- `NoneWeightQuant`, quant/none.py:13-17. -/
def noneWeightQuant : Settings K := [(.quant_type, .quant .fp)]

/-- `Int8ActPerTensorFloatMinMaxInit`, quant/scaled_int.py:42-58. -/
def int8ActPerTensorFloatMinMaxInit : Settings K := intQuant ++ paramMinMaxInitScaling ++ perTensorFloatScaling8bit

/-- `Uint8ActPerTensorFloatMaxInit`, quant/scaled_int.py:61-75. -/
def uint8ActPerTensorFloatMaxInit : Settings K := (.min_val, .num 0) :: (uintQuant ++ paramMinMaxInitScaling ++ perTensorFloatScaling8bit)

/-- `SignedTernaryActPerTensorConst`, quant/ternary.py:31-39. -/
def signedTernaryActPerTensorConst : Settings K := (.min_val, .num (-1)) :: (.max_val, .num 1) :: (narrowIntQuant ++ perTensorConstScaling2bit)

/-! ### The solvers -/

/-- `solve_float_to_int_impl_from_enum`, quant/solver/common.py:37-53, and the functions of these modules. -/
def solveFloatToInt : RoundType → Option (K → ℤ)
  | .round => some torchRound
  | .floor => some torchFloor
  | .ceil => some torchCeil
  | .roundToZero => some roundToZero
  | .dpu => some dpuRound
  | .learnedRound => none
  | .stochasticRound => none

/-- `float_to_int_impl`, quant/solver/common.py:140-142. -/
def Settings.floatToInt (d : Settings K) : Option (K → ℤ) :=
  match d.find .float_to_int_impl_type with
  | some (.round t) => solveFloatToInt t
  | _ => none

/-- `bit_width_impl` and the width it returns before training: `BitWidthConst` and `BitWidthStatefulConst` return the setting, `BitWidthParameter` refuses widths below 2 and
starts at the setting (quant/solver/common.py:56-64, 87-89; core/bit_width/parameter.py:56-87). -/
def Settings.bitWidth (d : Settings K) : Option ℕ :=
  match d.find .bit_width_impl_type, d.find .bit_width with
  | some (.width .const), some (.nat b) => some b
  | some (.width .statefulConst), some (.nat b) => some b
  | some (.width .parameter), some (.nat b) => if b < 2 then none else some b
  | _, _ => none

/-- A required setting that is a truth value. -/
def Settings.flag (d : Settings K) (k : Key) : Option Bool :=
  match d.find k with
  | some (.bool b) => some b
  | _ => none

/-- A setting that is a number, `None` or absent. -/
def Settings.optNum (d : Settings K) (k : Key) : Option (Option K) :=
  match d.find k with
  | none => some none
  | some .none => some none
  | some (.num x) => some (some x)
  | _ => none

/-- `scaling_per_output`, quant/solver/common.py:193-197: the flag has priority over the type. -/
def Settings.perOutput (d : Settings K) : Option PerType :=
  match d.find .scaling_per_output_channel, d.find .scaling_per_output_type with
  | some (.bool b), _ => some (if b then .channel else .tensor)
  | none, some (.per t) => some t
  | some .none, some (.per t) => some t
  | _, _ => none

/-- The restrictions of scales that need a logarithm, as functions of the minimum, of the statistic and of the threshold: `_StatsScaling.forward` (core/scaling/runtime.py:88-97) with
`LogFloatRestrictValue` and `PowerOfTwoRestrictValue` (core/restrict_val.py:101-125, 155-181). -/
structure LogScaling (K : Type*) where
  logFp : Option K → K → K → K
  powerOfTwo : (K → ℤ) → Option K → K → K → K

/-- Over the reals: those of `Scaling.lean`. -/
noncomputable def LogScaling.real : LogScaling ℝ := ⟨statsScaling .logFp, fun f => statsScaling (.powerOfTwo f)⟩

/-- `restrict_value_float_to_int_impl`, `RoundSte` if absent (core/restrict_val.py:157). -/
def Settings.restrictFloatToInt (d : Settings K) : Option (K → ℤ) :=
  match d.find .restrict_value_float_to_int_impl with
  | none => some torchRound
  | some (.round t) => solveFloatToInt t
  | _ => none

/-- `restrict_scaling_impl` (quant/solver/common.py:67-82) within `_StatsScaling.forward` (core/scaling/runtime.py:88-97): the scale from a statistic and a threshold. -/
def Settings.statsScale (L : LogScaling K) (d : Settings K) (minVal : Option K) : Option (K → K → K) :=
  match d.find .restrict_scaling_type with
  | some (.restrict .fp) => some (statsScalingFp minVal)
  | some (.restrict .logFp) => some (L.logFp minVal)
  | some (.restrict .powerOfTwo) => d.restrictFloatToInt.map fun f => L.powerOfTwo f minVal
  | _ => none

/-- `int_scaling_impl`, quant/solver/common.py:161-169: the threshold of a scale. -/
def Settings.threshold (d : Settings K) (signed narrow : Bool) (b : ℕ) : Option K :=
  match d.find .restrict_scaling_type with
  | some (.restrict .fp) => some (intScaling signed narrow b)
  | some (.restrict .logFp) => some (intScaling signed narrow b)
  | some (.restrict .powerOfTwo) => some (powerOfTwoIntScaling signed b)
  | _ => none

/-- `scaling_stats_impl` (quant/solver/common.py:95-113) of the tracked weights, in the shape of the scale. -/
def statistic (op : StatsOp) (per : PerOutput) (layers : List (ChannelScale.Layer K)) : Option (NdTensor K) :=
  match op, per with
  | .max, _ => weightStats absMax per layers
  | .ave, _ => weightStats absAve per layers
  | .minMax, _ => weightStats absMinMax per layers
  | .maxAve, .tensor => maxAveStats layers
  | _, _ => none

/-- `ScalingPerOutputType` without groups. -/
def PerType.solve : PerType → Option PerOutput
  | .tensor => some .tensor
  | .channel => some .channel
  | .group => none

/-- `ConstScaling.forward` with `FloatRestrictValue`, core/scaling/standalone.py:80-89. -/
def constScalingFp (minVal : Option K) (value threshold : K) : K := clampMinVal minVal value / clampMinVal minVal threshold

/-- `ParameterScaling.forward` with `FloatRestrictValue`, core/scaling/standalone.py:160-167, with the value it is initialised with (149). -/
def parameterScalingFp (minVal : Option K) (value threshold : K) : K := |clampMinVal minVal value| / clampMinVal minVal threshold

/-- `scaling_impl` of a weight (quant/solver/parameter.py:71-108) and the scale it returns before training: `StatsFromParameterScaling` (core/scaling/runtime.py:55-60),
`ParameterFromStatsFromParameterScaling` on its first call (core/scaling/standalone.py:218-241), which is the same followed by an absolute value, `ConstScaling` and `ParameterScaling`
with `scaling_const` (only with the FP restriction here). -/
def Settings.weightScale (L : LogScaling K) (d : Settings K) (per : PerOutput) (minVal : Option K) (threshold : K) (layers : List (ChannelScale.Layer K)) : Option (NdTensor K) :=
  match d.find .scaling_impl_type with
  | some (.scaling .stats) =>
    match d.find .scaling_stats_op with
    | some (.op op) => (statistic op per layers).bind fun st => (d.statsScale L minVal).map fun f => st.map fun v => f v threshold
    | _ => none
  | some (.scaling .parameterFromStats) =>
    match d.find .scaling_stats_op with
    | some (.op op) => (statistic op per layers).bind fun st => (d.statsScale L minVal).map fun f => st.map fun v => |f v threshold|
    | _ => none
  | some (.scaling .const) =>
    match d.find .scaling_const, d.find .restrict_scaling_type with
    | some (.num x), some (.restrict .fp) => some ⟨[], fun _ => constScalingFp minVal x threshold⟩
    | _, _ => none
  | some (.scaling .parameter) =>
    match d.find .scaling_const, d.find .restrict_scaling_type, layers with
    | some (.num x), some (.restrict .fp), first :: _ =>
      some ⟨scalingShape per first.weight.shape.length first.dim first.outChannels, fun _ => parameterScalingFp minVal x threshold⟩
    | _, _, _ => none
  | _ => none

/-- `zero_point_impl`: `ZeroZeroPoint.forward` (core/zero_point.py:40-42), `StatsFromParameterZeroPoint.forward` (84-86) or the first call of
`ParameterFromStatsFromParameterZeroPoint.forward` (262-278), with the views of the scale (quant/base.py:212-214). -/
def Settings.weightZeroPoint (d : Settings K) (c : IntQuantCfg K) (b : ℕ) (per : PerOutput) (scale : NdTensor K) (layers : List (ChannelScale.Layer K)) : Option (NdTensor K) :=
  match d.find .zero_point_impl with
  | some (.zero .zero) => some ⟨[], fun _ => 0⟩
  | some (.zero .negativeMin) =>
    match d.find .quantize_zero_point with
    | some (.bool quantize) => (weightStats negativeMinOrZero per layers).bind fun st => bcOp (fun v s => statsZeroPoint c quantize v s b) st scale
    | _ => none
  | some (.zero .parameter) =>
    match d.find .quantize_zero_point with
    | some (.bool quantize) => (weightStats negativeMinOrZero per layers).bind fun st => bcOp (fun v s => scaleShiftZeroPoint c quantize |v| s b) st scale
    | _ => none
  | _ => none

/-- The integer weight quantiser that the settings describe, `RescalingIntQuant` (quant/solver/weight.py:25-29; core/quant/int.py:133-160), and the weight it returns before training.
`layers` are those that share it and `w` the weight of one of them. -/
def intWeightQuant (L : LogScaling K) (d : Settings K) (layers : List (ChannelScale.Layer K)) (w : NdTensor K) : Option (ShapedQT K) :=
  (d.flag .signed).bind fun signed => (d.flag .narrow_range).bind fun narrow => d.floatToInt.bind fun f => d.bitWidth.bind fun b =>
  (d.perOutput.bind PerType.solve).bind fun per => (d.optNum .scaling_min_val).bind fun minVal => (d.threshold signed narrow b).bind fun threshold =>
  (d.weightScale L per minVal threshold layers).bind fun scale => (d.weightZeroPoint ⟨signed, narrow, f⟩ b per scale layers).bind fun zeroPoint =>
  (intQuantTensor ⟨signed, narrow, f⟩ b scale zeroPoint w).map fun y => ⟨y, scale, zeroPoint, b, signed, false⟩

/-- `quant_weight()` of a layer with the quantiser that the settings describe: `tensor_quant` (quant/solver/weight.py:25-35) and the proxy
(proxy/parameter_quant.py:127-150). Binary and ternary quantisers are in `BinTern.lean`. -/
def weightQuant (L : LogScaling K) (d : Settings K) (layers : List (ChannelScale.Layer K)) (w : NdTensor K) : Option (LayerOut K) :=
  match d.find .quant_type with
  | some (.quant .fp) => some (.plain w)
  | some (.quant .int) => (intWeightQuant L d layers w).map .quant
  | _ => none

/-! ### Activations with a scale from their range -/

/-- `min_val` of an activation (quant/solver/act.py:97-102): 0 if there is no setting and the quantiser is unsigned. -/
def Settings.actMin (d : Settings K) : Option K :=
  match d.find .min_val, d.find .signed with
  | some (.num x), _ => some x
  | none, some (.bool false) => some 0
  | _, _ => none

/-- `MinMaxScalingInit` (quant/solver/act.py:31-37). -/
def Settings.actRange (d : Settings K) : Option K :=
  match d.actMin, d.find .max_val with
  | some lo, some (.num hi) => some (max |lo| |hi|)
  | _, _ => none

/-- The activation quantiser that the settings describe, before training, for scales of types CONST and PARAMETER, with the FP restriction and one scale for the tensor
(quant/solver/act.py:42-75, 80-95, 107-114). -/
def actQuant (d : Settings K) : Option (TensorQuant K) :=
  match d.find .quant_type, d.find .scaling_impl_type, d.find .restrict_scaling_type, d.perOutput, d.find .zero_point_impl with
  | some (.quant .int), some (.scaling t), some (.restrict .fp), some .tensor, some (.zero .zero) =>
    (d.flag .signed).bind fun signed => (d.flag .narrow_range).bind fun narrow => d.floatToInt.bind fun f => d.bitWidth.bind fun b =>
    (d.optNum .scaling_min_val).bind fun minVal => d.actRange.bind fun range =>
      match t with
      | .const => some ⟨⟨signed, narrow, f⟩, b, fun _ => ⟨[], fun _ => constScalingFp minVal range (intScaling signed narrow b)⟩, fun _ => ⟨[], fun _ => 0⟩⟩
      | .parameter => some ⟨⟨signed, narrow, f⟩, b, fun _ => ⟨[], fun _ => parameterScalingFp minVal range (intScaling signed narrow b)⟩, fun _ => ⟨[], fun _ => 0⟩⟩
      | _ => none
  | _, _, _, _, _ => none

end Preset

end Brevitas
