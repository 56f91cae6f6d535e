import Verif.Model.GroupQuant
import Verif.Model.FloatPreset

/-!
# Group-wise minifloat quantisation

`src/brevitas/quant_tensor/groupwise_float_quant_tensor.py`, `src/brevitas/proxy/groupwise_float_parameter_quant.py`, `src/brevitas/proxy/groupwise_float_runtime_quant.py`,
`src/brevitas/core/quant/float.py:70-100`, `src/brevitas/quant/experimental/mx_quant_ocp.py`.

Tensors, views and reductions are those of `Verif.Model.GroupQuant`. Elements are finite and formats saturate (float_base.py:23), so values are finite. The fields that say how a format
overflows are not carried.
-/

namespace Brevitas.GroupFloat

open Group

variable {K : Type*} [Field K] [LinearOrder K] [IsStrictOrderedRing K] [FloorRing K]

/-- The parts of a group-wise minifloat quantiser: the format and how the scale of a group is made of its elements. -/
structure Quantizer (K : Type*) where
  cfg : FloatCfg K
  scaleOf : List K → K
  groupSize : ℕ
  groupDim : ℤ

/-- Fields of `GroupwiseFloatQuantTensorBase`, src/brevitas/quant_tensor/base_quant_tensor.py:118-132. -/
structure QT (K : Type*) where
  value_ : Tensor K
  scale_ : Tensor K
  zeroPoint_ : Tensor K
  groupSize : ℕ
  groupDim : ℤ
  E : ℕ
  M : ℕ
  bias : ℤ
  signed : Bool
  training : Bool
deriving DecidableEq, Repr

/-- `FloatQuant.forward`, float.py:83-100, on a viewed tensor with a scale that broadcasts to it: division, rounding, clamping and multiplication are element-wise. -/
def forwardT (c : FloatCfg K) (scale x : Tensor K) : Tensor K := zipBc (fun v s => c.forwardSat s v) x scale

/-- `FloatQuant.forward` on a view followed by `create_quant_tensor`, groupwise_float_parameter_quant.py:30-45 and groupwise_float_runtime_quant.py:30-48. The zero point is
the number 0 (float.py:57-58). -/
def quantView (q : Quantizer K) (training : Bool) (y : Tensor K) : QT K :=
  let d := statsReduceDim y.shape.length q.groupDim
  let scale := reduceKeepdim q.scaleOf y d
  ⟨forwardT q.cfg scale y, scale, ⟨[], [0]⟩, q.groupSize, q.groupDim, q.cfg.E, q.cfg.M, q.cfg.bias, q.cfg.signed, training⟩

/-- `tensor_quant(x)` of a group-wise activation: the view is computed from the shape of the input, src/brevitas/core/function_wrapper/shape.py:189-203. -/
def quantAct (q : Quantizer K) (training : Bool) (x : Tensor K) : Option (QT K) :=
  (dynamicOverSubChannelBlockView q.groupSize q.groupDim x).map (quantView q training)

/-- `tensor_quant(x)` of a group-wise weight: the shape of the view is computed when the layer is built, src/brevitas/quant/solver/parameter.py:135-151. The group dimension of a weight is not
negative (parameter.py:153-158). -/
def quantWeight (q : Quantizer K) (training : Bool) (x : Tensor K) : Option (QT K) :=
  (overSubChannelBlockView (expandedGroupwiseShape x.shape q.groupSize q.groupDim.toNat) q.groupSize q.groupDim x).map (quantView q training)

/-- `expand`, groupwise_float_quant_tensor.py:91-107: value, scale and zero point. `none` is an exception of `flatten` or `expand`. -/
def QT.expand (t : QT K) : Option (Tensor K × Tensor K × Tensor K) :=
  let start := startDim t.value_.shape.length t.groupDim
  (flattenPair t.value_ start).bind fun value =>
    (expandMeta t.value_ t.scale_ start).bind fun scale =>
      (expandMeta t.value_ t.zeroPoint_ start).map fun zeroPoint => (value, scale, zeroPoint)

/-- `value`, groupwise_float_quant_tensor.py:124-127. -/
def QT.value (t : QT K) : Option (Tensor K) := t.expand.map fun e => e.1

/-- `scale`, groupwise_float_quant_tensor.py:129-132. -/
def QT.scale (t : QT K) : Option (Tensor K) := t.expand.map fun e => e.2.1

/-- `zero_point`, groupwise_float_quant_tensor.py:134-137. -/
def QT.zeroPoint (t : QT K) : Option (Tensor K) := t.expand.map fun e => e.2.2

/-- The parameters of `float_internal_scale`, src/brevitas/utils/torch_utils.py:95-99; none has a default. -/
def internalScaleParameters : List String := ["x", "mantissa_bit_width", "fp_internal_scale_min", "eps"]

/-- A call with positional arguments: raises `TypeError` unless there is one for each parameter. Only whether it raises is modelled. -/
def callInternalScale (arguments : ℕ) : Option Unit := if arguments = internalScaleParameters.length then some () else none

/-- `_pre_round_float_value`, groupwise_float_quant_tensor.py:139-149, up to the call of `float_internal_scale` (147), which has three arguments; what follows it is not modelled. -/
def QT.preRound (t : QT K) : Option Unit := t.expand.bind fun _ => callInternalScale 3

/-- `is_valid`, groupwise_float_quant_tensor.py:151-161, up to its first statement. -/
def QT.isValid (t : QT K) : Option Unit := t.preRound

/-- `minifloat`, groupwise_float_quant_tensor.py:177-187, up to `self.is_valid`. -/
def QT.minifloat (t : QT K) : Option Unit := t.isValid

/-- `__neg__`, groupwise_float_quant_tensor.py:251-279, up to its first statement. -/
def QT.neg (t : QT K) : Option (QT K) := t.minifloat.map fun _ => t

/-- `__abs__`, groupwise_float_quant_tensor.py:305-333, up to its first statement for a signed tensor. -/
def QT.abs (t : QT K) : Option (QT K) := if t.signed then t.minifloat.map fun _ => t else some t

/-- `__add__`, `__mul__` and `__truediv__` of two quant tensors of the same shape, groupwise_float_quant_tensor.py:281-303 (`op` is the operation of plain tensors). -/
def QT.arith (op : K → K → K) (a b : QT K) : Option (Tensor K) := a.value.bind fun v => b.value.map fun w => zipBc op v w

/-- `a - b`: `__sub__`, base_quant_tensor.py:86-87, negates the right operand first. -/
def QT.sub (a b : QT K) : Option (Tensor K) := b.neg.bind fun nb => a.arith (fun x y => x + y) nb

/-! ### Proxies -/

/-- `apply_input_view`, groupwise_float_runtime_quant.py:24-27. -/
def applyInputView (q : Quantizer K) (x : Tensor K) : Option (Tensor K) :=
  (dynamicOverSubChannelBlockView q.groupSize q.groupDim x).bind fun y => flattenPair y (startDim y.shape.length q.groupDim)

/-- What the forward of a proxy takes or returns. -/
inductive Out (K : Type*)
  | tensor (t : Tensor K)
  | quant (t : QT K)
deriving DecidableEq, Repr

/-- `ActQuantProxyFromInjectorBase.forward`, src/brevitas/proxy/runtime_quant.py:163-206, for a proxy whose activation function is the identity and that is not exported: enabled, it quantises the
dequantised input; disabled, it applies the view, and a quant tensor that comes in goes out with the metadata it shows (`create_quant_tensor` with `x`, groupwise_float_runtime_quant.py:49-63). -/
def actForward (q : Quantizer K) (enabled training : Bool) (x : Out K) : Option (Out K) :=
  let y : Option (Tensor K) := match x with
    | .tensor t => some t
    | .quant t => t.value
  y.bind fun y =>
    if enabled then (quantAct q training y).map .quant
    else (applyInputView q y).bind fun y =>
      match x with
      | .tensor _ => some (.tensor y)
      | .quant t => t.scale.bind fun scale => t.zeroPoint.map fun zeroPoint =>
          .quant ⟨y, scale, zeroPoint, q.groupSize, q.groupDim, t.E, t.M, t.bias, t.signed, training⟩

/-- `WeightQuantProxyFromInjectorBase.forward`, src/brevitas/proxy/parameter_quant.py:123-149, when not exported and without caching. -/
def weightForward (q : Quantizer K) (enabled training : Bool) (x : Tensor K) : Option (Out K) :=
  if enabled then (quantWeight q training x).map .quant
  else ((overSubChannelBlockView (expandedGroupwiseShape x.shape q.groupSize q.groupDim.toNat) q.groupSize q.groupDim x).bind fun y =>
    flattenPair y (startDim y.shape.length q.groupDim)).map .tensor

/-! ### MX quantisers -/

/-- The largest absolute value of a group: `AbsMax`, src/brevitas/core/stats/stats_op.py:161-174 (a group is not empty). -/
def groupPeak (g : List K) : K := (absMax g).getD 0

/-- `MXFloat8e4m3Weight`, mx_quant_ocp.py:69-78, with the settings of its bases (float_quant_ocp.py:54-58, float_base.py:38-42) and any widths: `StatsFromParameterScaling` with scales restricted to
powers of two, rounded up (mx_quant_ocp.py:46-50). -/
noncomputable def mxWeight (E M : ℕ) (eps : ℝ) (groupSize : ℕ) (groupDim : ℤ) : Option (Quantizer ℝ) :=
  ((FloatPreset.base .ocp true (E + M + 1) E M .tensor : FloatPreset.Settings ℝ).cfg eps).map fun c =>
    ⟨c, fun g => statsScaling (.powerOfTwo torchCeil) (some (1 / 10 ^ 10)) (groupPeak g) c.maxValue, groupSize, groupDim⟩

/-- `MXFloat8e4m3Act`, mx_quant_ocp.py:81-87: as the weight, but `RuntimeDynamicGroupStatsScaling` (mx_quant_ocp.py:57). -/
noncomputable def mxAct (E M : ℕ) (eps : ℝ) (groupSize : ℕ) (groupDim : ℤ) : Option (Quantizer ℝ) :=
  ((FloatPreset.base .ocp true (E + M + 1) E M .tensor : FloatPreset.Settings ℝ).cfg eps).map fun c =>
    ⟨c, fun g => dynamicGroupScaling (.powerOfTwo torchCeil) (some (1 / 10 ^ 10)) (groupPeak g) c.maxValue, groupSize, groupDim⟩

end Brevitas.GroupFloat
