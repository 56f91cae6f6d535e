import Verif.Model.Generative

/-!
# Activation quantisers with dynamic scales

`src/brevitas_examples/common/generative/quant_blocks.py` and the integer quantisers of `quantizers.py` with scales per tensor and per row, as `generate_quantizers` configures them
(`Generative.lean`). Scales come from the input, so they can be zero: quotients by zero and what follows from them are modelled. `none` is an exception. Not modelled: groups (`GroupQuant.lean`,
`GroupFloat.lean`).
-/

namespace Brevitas

namespace Dynamic

open NdTensor ChannelScale Generative

variable {K : Type*} [Field K] [LinearOrder K] [IsStrictOrderedRing K] [FloorRing K]

/-! ### Quotients by zero -/

/-- `x / s` for finite numbers; a zero divisor is positive (it is a quotient of an absolute value). -/
def xdiv (x s : K) : XF K := if s = 0 then (if 0 < x then .pinf else if x < 0 then .ninf else .nan) else .fin (x / s)

/-- Sum; opposite infinities give NaN. -/
def xadd : XF K → XF K → XF K
  | .fin x, .fin y => .fin (x + y)
  | .nan, _ => .nan
  | _, .nan => .nan
  | .pinf, .ninf => .nan
  | .ninf, .pinf => .nan
  | .pinf, _ => .pinf
  | _, .pinf => .pinf
  | .ninf, _ => .ninf
  | _, .ninf => .ninf

/-- Rounding keeps infinities and NaN. -/
def xround (f : K → ℤ) : XF K → XF K
  | .fin x => .fin (f x)
  | y => y

/-- `tensor_clamp` (src/brevitas/function/ops.py:74-98) with finite bounds: comparisons with NaN are false. -/
def xclamp (lo hi : K) (x : XF K) : XF K :=
  let out := if x.gt hi then .fin hi else x
  if out.neg.gt (-lo) then .fin lo else out

/-- `IntQuant.to_int`, src/brevitas/core/quant/int_base.py:67-75. -/
def toIntX (c : IntQuantCfg K) (scale : K) (zeroPoint : XF K) (bw : ℕ) (x : K) : XF K :=
  xclamp (c.minInt bw) (c.maxInt bw) (xround c.floatToInt (xadd (xdiv x scale) zeroPoint))

/-- `IntQuant.forward`, src/brevitas/core/quant/int_base.py:86-91. -/
def forwardX (c : IntQuantCfg K) (scale : K) (zeroPoint : XF K) (bw : ℕ) (x : K) : XF K :=
  (xadd (toIntX c scale zeroPoint bw x) zeroPoint.neg).mul (.fin scale)

/-- `_ScaleShiftZeroPoint.forward`, src/brevitas/core/zero_point.py:54-60. -/
def scaleShiftX (c : IntQuantCfg K) (quantize : Bool) (stat scale : K) (bw : ℕ) : XF K :=
  if quantize then toIntX c scale (.fin (c.minInt bw)) bw stat else xadd (xdiv stat scale) (.fin (c.minInt bw))

/-! ### Statistics of the input -/

/-- `over_output_features` and `OverOutputFeaturesView.forward` (src/brevitas/function/shape.py:96-113, core/function_wrapper/shape.py:143-154): `y.reshape(-1, y.shape[-1])` of the permuted
tensor. The size for `-1` can only be found when there are features. -/
def overOutputFeaturesView (dims : Option (List ℕ)) (t : NdTensor K) : Option (NdTensor K) :=
  (match dims with
    | some p => t.permute p
    | none => some t).bind fun y =>
  match y.shape.getLast? with
  | none => none
  | some n => if n = 0 then none else y.reshape [y.shape.prod / n, n]

/-- The statistic of `x` in the shape for broadcasting: the view, the reduction and `dynamic_scaling_broadcastable_fn`, quant_blocks.py:30-34, 54-57. Per tensor (`none`): all of `x`, a scalar
(quantizers.py:66-68). Per row: along the last dimension, `view(*shape[:-1], 1)`, or of the input permuted, `view(shape[0], 1, shape[-1])` (generative/quantize.py:332-345, 370-375). If
`permute_dims` is not set, it is asked of `scaling_stats_permute_dims` (src/brevitas/quant/solver/common.py:211-214), which these quantisers do not have: the quantiser cannot be built. -/
def statOf (stat : List K → Option K) (rows : Option Rows) (x : NdTensor K) : Option (NdTensor K) :=
  match rows with
  | none => (overTensorView x).bind fun v => (reduceAll stat v).bind fun s => s.reshape []
  | some .unset => none
  | some .identity => (overOutputFeaturesView none x).bind fun v => (reduceRows stat v).bind fun s => s.reshape (x.shape.dropLast ++ [1])
  | some (.permuted dims) =>
    (overOutputFeaturesView (some dims) x).bind fun v => (reduceRows stat v).bind fun s => s.reshape [x.shape.getD 0 0, 1, x.shape.getD (x.shape.length - 1) 0]

/-! ### The quantisers -/

/-- A dynamic quantiser: signed without zero point or unsigned with one, whether the zero point is rounded, the width, and what shares a scale. -/
structure Act where
  signed : Bool
  quantizeZeroPoint : Bool
  bitWidth : ℕ
  rows : Option Rows
  deriving DecidableEq

/-- The quantiser built from a class of quantizers.py:61-78, 91-114 with the options set on it; the two per row have no `dynamic_scaling_broadcastable_fn` and no statistics of rows unless
`generate_quantizers` sets them. -/
def build (q : InputQuant K) : Option Act :=
  match q.bitWidth, q.quantizeZeroPoint, q.kwargs with
  | .nat b, .bool z, .none =>
    match q.name, q.row with
    | "Int8DynamicActPerTensorFloat", none => some ⟨true, z, b, none⟩
    | "Int8DynamicActPerRowFloat", some .identity => some ⟨true, z, b, some .identity⟩
    | "Int8DynamicActPerRowFloat", some (.permuted d) => some ⟨true, z, b, some (.permuted d)⟩
    | "ShiftedUint8DynamicActPerTensorFloat", none => some ⟨false, z, b, none⟩
    | "ShiftedUint8DynamicActPerRowFloat", some .identity => some ⟨false, z, b, some .identity⟩
    | "ShiftedUint8DynamicActPerRowFloat", some (.permuted d) => some ⟨false, z, b, some (.permuted d)⟩
    | _, _ => none
  | _, _, _ => none

/-- The quant tensor that a dynamic quantiser returns. -/
structure Out (K : Type*) where
  value : NdTensor (XF K)
  scale : NdTensor K
  zeroPoint : NdTensor (XF K)
  bitWidth : ℕ
  signed : Bool

/-- The integer quantiser: rounding to nearest, full range (src/brevitas/quant/base.py:168-176, 217-225). -/
def Act.cfg (a : Act) : IntQuantCfg K := ⟨a.signed, false, torchRound⟩

/-- The zero point: `ZeroZeroPoint` or `RuntimeDynamicStatsZeroPoint.forward`, quant_blocks.py:53-60. -/
def Act.zeroPoint (a : Act) (x scale : NdTensor K) : Option (NdTensor (XF K)) :=
  if a.signed then some ⟨[], fun _ => .fin 0⟩
  else (statOf negativeMinOrZero a.rows x).bind fun st => (bcShape st.shape scale.shape).map fun shape =>
    ⟨shape, fun idx => scaleShiftX a.cfg a.quantizeZeroPoint |st.data (bcIndex st.shape idx)| (scale.data (bcIndex scale.shape idx)) a.bitWidth⟩

/-- `RescalingIntQuant.forward` (src/brevitas/core/quant/int.py:150-160) with `RuntimeDynamicStatsScaling.forward` (quant_blocks.py:29-35) of `AbsMinMax`: no minimum is applied to the scale. -/
def Act.run (a : Act) (x : NdTensor K) : Option (Out K) :=
  (statOf absMinMax a.rows x).bind fun st =>
    let scale := st.map fun v => v / intScaling a.signed false a.bitWidth
    (a.zeroPoint x scale).bind fun z => (bcShape x.shape scale.shape).bind fun s => (bcShape s z.shape).map fun shape =>
      ⟨⟨shape, fun idx => forwardX a.cfg (scale.data (bcIndex scale.shape idx)) (z.data (bcIndex z.shape idx)) a.bitWidth (x.data (bcIndex x.shape idx))⟩, scale, z, a.bitWidth, a.signed⟩

end Dynamic

end Brevitas
