import Verif.Model.Shape
import Verif.Model.IntQuant
import Verif.Model.QuantTensor

/-!
# Group-wise integer quantisation

`src/brevitas/quant_tensor/groupwise_int_quant_tensor.py`, `src/brevitas/proxy/groupwise_int_runtime_quant.py`,
`src/brevitas/proxy/groupwise_int_parameter_quant.py`, `src/brevitas/proxy/runtime_quant.py:163-206`, `src/brevitas/core/quant/int_base.py:67-91`,
`src/brevitas/core/scaling/runtime.py:191-202`, `src/brevitas/utils/quant_utils.py:143-155`.

Tensors are contiguous and row-major (`Verif.Model.Shape`). The scale and the zero point of a group are functions of the list of the elements of
the group: which statistic, threshold and restriction they are made of is not fixed here (`Verif.Model.Scaling` has those).
-/

namespace Brevitas.Group

variable {K : Type*} [Field K] [LinearOrder K] [IsStrictOrderedRing K] [FloorRing K]

/-- A reduction with `keepdim=True` over dimension `d` by any function of the elements of a group (the statistics of
src/brevitas/core/stats/stats_op.py, for instance AbsMax at 161-174). -/
def reduceKeepdim (stat : List K → K) (y : Tensor K) (d : ℕ) : Tensor K :=
  let newShape := y.shape.set d 1
  ⟨newShape, (List.range newShape.prod).map fun f =>
    let idx := unravel newShape f
    stat ((List.range (y.shape.getD d 0)).map fun j => (y.at (idx.set d j)).getD 0)⟩

/-- A binary torch operation whose second operand is broadcast against the first: same rank with dimensions of size one, or a scalar. -/
def zipBc (op : K → K → K) (a b : Tensor K) : Tensor K := ⟨a.shape, List.zipWith op a.data (b.expandTo a.shape).data⟩

/-- An element-wise torch operation. -/
def mapT (op : K → K) (a : Tensor K) : Tensor K := ⟨a.shape, a.data.map op⟩

/-- `Tensor.flatten(start, start + 1)`: raises when the tensor has no dimension `start + 1`. -/
def flattenPair (t : Tensor K) (start : ℕ) : Option (Tensor K) :=
  if start + 1 < t.shape.length then some (t.flatten2 start) else none

/-- `start_dim`, groupwise_int_quant_tensor.py:62, for a tensor of rank `rank`. -/
def startDim (rank : ℕ) (groupDim : ℤ) : ℕ := pyIndex rank (if groupDim ≠ -1 then groupDim else -2)

/-- How the zero point of the groups is obtained: one number (ZeroZeroPoint and the other per-tensor ones) or a statistic of each group
(`scaling_per_output_type = GROUP` with an asymmetric quantiser, src/brevitas/quant/shifted_scaled_int.py:198-203). -/
inductive ZeroPoint (K : Type*)
  | scalar (z : K)
  | grouped (stat : List K → K)

/-- The parts of a group-wise quantiser. `scaleOf` is the composition of statistic, threshold and restriction in
`RuntimeDynamicGroupStatsScaling.forward`, runtime.py:191-202. -/
structure Quantizer (K : Type*) where
  cfg : IntQuantCfg K
  scaleOf : List K → K
  zeroPoint : ZeroPoint K
  bitWidth : ℕ
  groupSize : ℕ
  groupDim : ℤ

/-- Fields of `GroupwiseIntQuantTensor`, base_quant_tensor.py:135-143. -/
structure QT (K : Type*) where
  value_ : Tensor K
  scale_ : Tensor K
  zeroPoint_ : Tensor K
  groupSize : ℕ
  groupDim : ℤ
  bitWidth : ℕ
  signed : Bool
  training : Bool
deriving DecidableEq, Repr

/-- Exceptions. -/
inductive Err
  | attributeError (name : String)
  | valueError
  | indexError
  | invalid
  | notImplemented
deriving DecidableEq, Repr

/-- `IntQuant.to_int` on a viewed tensor, src/brevitas/core/quant/int_base.py:67-75. -/
def toIntT (c : IntQuantCfg K) (scale zeroPoint : Tensor K) (bw : ℕ) (x : Tensor K) : Tensor K :=
  let y := zipBc (fun a b => a / b) x scale
  let y := zipBc (fun a b => a + b) y zeroPoint
  let y := mapT (fun v => ((c.floatToInt v : ℤ) : K)) y
  mapT (fun v => tensorClamp v (c.minInt bw) (c.maxInt bw)) y

/-- `IntQuant.forward` on a viewed tensor, int_base.py:86-91. -/
def forwardT (c : IntQuantCfg K) (scale zeroPoint : Tensor K) (bw : ℕ) (x : Tensor K) : Tensor K :=
  let yInt := toIntT c scale zeroPoint bw x
  let y := zipBc (fun a b => a - b) yInt zeroPoint
  zipBc (fun a b => a * b) y scale

/-- The tensor of zero points of a viewed tensor. -/
def zeroPointT (z : ZeroPoint K) (y : Tensor K) (d : ℕ) : Tensor K :=
  match z with
  | .scalar z => ⟨[], [z]⟩
  | .grouped stat => reduceKeepdim stat y d

/-- `RescalingIntQuant.forward` of `x` whose view is `y` (src/brevitas/core/quant/int.py:151-161) followed by `create_quant_tensor`,
groupwise_int_runtime_quant.py:29-45 and groupwise_int_parameter_quant.py:30-40. The scale and the zero point are computed on the view; with
`observer_only` the value is the input itself. -/
def quantView (q : Quantizer K) (observerOnly training : Bool) (x y : Tensor K) : QT K :=
  let d := statsReduceDim y.shape.length q.groupDim
  let scale := reduceKeepdim q.scaleOf y d
  let zeroPoint := zeroPointT q.zeroPoint y d
  let value := if observerOnly then x else forwardT q.cfg scale zeroPoint q.bitWidth y
  ⟨value, scale, zeroPoint, q.groupSize, q.groupDim, q.bitWidth, q.cfg.signed, training⟩

/-- `tensor_quant(x)` of a group-wise activation: the view is computed from the shape of the input,
src/brevitas/core/function_wrapper/shape.py:189-203. -/
def quantAct (q : Quantizer K) (observerOnly training : Bool) (x : Tensor K) : Option (QT K) :=
  (dynamicOverSubChannelBlockView q.groupSize q.groupDim x).map (quantView q observerOnly training x)

/-- `tensor_quant(x)` of a group-wise weight: the shape of the view is computed when the layer is built,
src/brevitas/quant/solver/parameter.py:135-151. The group dimension of a weight is not negative (parameter.py:153-158). -/
def quantWeight (q : Quantizer K) (training : Bool) (x : Tensor K) : Option (QT K) :=
  (overSubChannelBlockView (expandedGroupwiseShape x.shape q.groupSize q.groupDim.toNat) q.groupSize q.groupDim x).map
    (quantView q false training x)

/-- `apply_input_view`, groupwise_int_runtime_quant.py:24-27 and groupwise_int_parameter_quant.py:25-28: what a proxy returns when its quantiser
is disabled. -/
def applyInputView (q : Quantizer K) (x : Tensor K) : Option (Tensor K) :=
  (dynamicOverSubChannelBlockView q.groupSize q.groupDim x).bind fun y => flattenPair y (startDim y.shape.length q.groupDim)

/-- Can `Tensor.expand` bring a tensor of shape `s` to shape `v`? Only tensors of the rank of the value are considered: a tensor of greater rank
raises, one of smaller rank does not occur. -/
def expandable (s v : List ℕ) : Bool := s.length == v.length && (List.zip s v).all fun ab => ab.1 == 1 || ab.1 == ab.2

/-- The expansion of a scale or zero point by `expand`, groupwise_int_quant_tensor.py:64-71: a scalar is kept. -/
def expandMeta (value_ meta_ : Tensor K) (start : ℕ) : Option (Tensor K) :=
  if meta_.shape ≠ [] then
    if expandable meta_.shape value_.shape then flattenPair (meta_.expandTo value_.shape) start else none
  else some meta_

/-- `expand`, groupwise_int_quant_tensor.py:60-73: value, scale and zero point. `none` is an exception of `flatten` or `expand`. -/
def QT.expand (t : QT K) : Option (Tensor K × Tensor K × Tensor K) :=
  let start := startDim t.value_.shape.length t.groupDim
  (flattenPair t.value_ start).bind fun value =>
    (expandMeta t.value_ t.scale_ start).bind fun scale =>
      (expandMeta t.value_ t.zeroPoint_ start).map fun zeroPoint => (value, scale, zeroPoint)

/-- `value`, groupwise_int_quant_tensor.py:92-95. -/
def QT.value (t : QT K) : Option (Tensor K) := t.expand.map fun e => e.1

/-- `scale`, groupwise_int_quant_tensor.py:97-100. -/
def QT.scale (t : QT K) : Option (Tensor K) := t.expand.map fun e => e.2.1

/-- `zero_point`, groupwise_int_quant_tensor.py:102-105. -/
def QT.zeroPoint (t : QT K) : Option (Tensor K) := t.expand.map fun e => e.2.2

/-- `_pre_round_int_value`, groupwise_int_quant_tensor.py:107-118 (the conversions from bfloat16 are exact). -/
def QT.preRound (t : QT K) : Option (Tensor K) :=
  t.value.bind fun value => t.scale.bind fun scale => t.zeroPoint.map fun zeroPoint =>
    zipBc (fun a b => a + b) (zipBc (fun a b => a / b) value scale) zeroPoint

/-- `is_valid`, groupwise_int_quant_tensor.py:120-142: the checks are those of `IntQuantTensor.is_valid` (`IntQT.isValid`) on
`_pre_round_int_value`. -/
def QT.isValid (t : QT K) (atol : K) : Option Bool :=
  t.preRound.bind fun p => IntQT.isValid ⟨p.data, 1, 0, t.bitWidth, t.signed, t.training⟩ atol

/-- `int()`, groupwise_int_quant_tensor.py:158-177: shape and integers (the conversion to an integer data type is left out). -/
def QT.int (t : QT K) (atol : K) : Option (List ℕ × List ℤ) :=
  match t.isValid atol with
  | some true => t.preRound.map fun p => (p.shape, p.data.map torchRound)
  | _ => none

/-- What the forward of an activation proxy returns: src/brevitas/proxy/runtime_quant.py:163-206. -/
inductive Out (K : Type*)
  | tensor (t : Tensor K)
  | quant (t : QT K)
deriving DecidableEq, Repr

/-- `ActQuantProxyFromInjectorBase.forward`, runtime_quant.py:163-206, for a proxy whose activation function is the identity and that is not
exported: enabled, it quantises the dequantised input; disabled, it applies the view, and a quant tensor that comes in goes out as a quant tensor
with the same metadata (`create_quant_tensor` with `x`, groupwise_int_runtime_quant.py:46-55). -/
def actForward (q : Quantizer K) (enabled training : Bool) (x : Out K) : Option (Out K) :=
  let y : Option (Tensor K) := match x with
    | .tensor t => some t
    | .quant t => t.value
  y.bind fun y =>
    if enabled then (quantAct q false training y).map .quant
    else (applyInputView q y).bind fun y =>
      match x with
      | .tensor _ => some (.tensor y)
      | .quant t => t.scale.bind fun scale => t.zeroPoint.map fun zeroPoint =>
          .quant ⟨y, scale, zeroPoint, q.groupSize, q.groupDim, t.bitWidth, t.signed, training⟩

/-- `WeightQuantProxyFromInjectorBase.forward`, src/brevitas/proxy/parameter_quant.py:123-149, when not exported and without caching. -/
def weightForward (q : Quantizer K) (enabled training : Bool) (x : Tensor K) : Option (Out K) :=
  if enabled then (quantWeight q training x).map .quant
  else ((overSubChannelBlockView (expandedGroupwiseShape x.shape q.groupSize q.groupDim.toNat) q.groupSize q.groupDim x).bind fun y =>
    flattenPair y (startDim y.shape.length q.groupDim)).map .tensor

/-- The field names of the named tuple, base_quant_tensor.py:135-143. -/
def fieldNames : List String :=
  ["value_", "scale_", "zero_point_", "group_size", "group_dim", "bit_width", "signed_t", "training_t"]

/-- The attributes a group-wise integer quant tensor has besides the fields: the properties and methods of the class
(groupwise_int_quant_tensor.py:38-313) and of the base class (base_quant_tensor.py:10-93). -/
def attributeNames : List String := fieldNames ++
  ["signed", "training", "saturating", "expand", "from_expanded", "tensor", "value", "scale", "zero_point", "_pre_round_int_value", "is_valid",
   "device", "int", "check_input_type", "is_zero_zero_point", "check_scaling_factors_same", "check_zero_points_same", "check_bit_width_same",
   "check_exponent_bias", "check_inf_nan_same", "check_sign_same", "view", "reshape", "flatten", "transpose", "permute", "detach_", "detach",
   "contiguous", "set", "shape", "dim", "add", "to", "cuda", "cpu", "size"]

/-- `getattr(self, name)`: only whether it raises is modelled. -/
def getattr (name : String) : Except Err Unit := if name ∈ attributeNames then .ok () else .error (.attributeError name)

/-- `set(name=None)` by `_replace`, base_quant_tensor.py:36-37: raises for a name that is not a field. -/
def setField (name : String) (t : QT K) : Except Err (QT K) := if name ∈ fieldNames then .ok t else .error .valueError

/-- `_CachedIOGroupwiseInt.__init__`, src/brevitas/utils/quant_utils.py:145-155: the quant tensor that is kept. -/
def cachedIO (metadataOnly : Bool) (t : QT K) : Except Err (QT K) :=
  match t.value with
  | none => .error .indexError
  | some _ => if metadataOnly then setField "value" t else .ok t

/-- The forward of an activation proxy in evaluation mode with caching, runtime_quant.py:203-205. -/
def actForwardCached (q : Quantizer K) (metadataOnly : Bool) (x : Tensor K) : Except Err (QT K) :=
  match quantAct q false false x with
  | none => .error .indexError
  | some t => (cachedIO metadataOnly t).map fun _ => t

/-- `__neg__`, groupwise_int_quant_tensor.py:240-264, up to its first statement that raises; what follows that statement is not modelled. -/
def neg (t : QT K) : Except Err (QT K) := (getattr "minifloat").map fun _ => t

/-- `__abs__`, groupwise_int_quant_tensor.py:290-312, up to its first statement that raises. -/
def abs (t : QT K) : Except Err (QT K) := if t.signed then (getattr "minifloat").map fun _ => t else .ok t

/-- `x - t` for a plain tensor or quant tensor `x`: `__sub__`, base_quant_tensor.py:86-87, negates the right operand first. The value of the sum
is that of `__add__`, groupwise_int_quant_tensor.py:266-271. -/
def sub (a b : QT K) : Except Err (Tensor K) :=
  (neg b).bind fun nb => match a.value, nb.value with
    | some v, some w => .ok (zipBc (fun x y => x + y) v w)
    | _, _ => .error .indexError

/-- `__add__`, groupwise_int_quant_tensor.py:266-271, of tensors of the same shape. -/
def add (a b : QT K) : Option (Tensor K) := a.value.bind fun v => b.value.map fun w => zipBc (fun x y => x + y) v w

/-- `__mul__`, groupwise_int_quant_tensor.py:273-278. -/
def mul (a b : QT K) : Option (Tensor K) := a.value.bind fun v => b.value.map fun w => zipBc (fun x y => x * y) v w

end Brevitas.Group
