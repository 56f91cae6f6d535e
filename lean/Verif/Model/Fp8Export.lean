import Verif.Model.FloatPreset
import Verif.Model.Export
import Verif.Model.Shape
import Verif.Spec.Float8

/-!
# Export of minifloat quantisers to ONNX as `QuantizeLinear` / `DequantizeLinear`

The minifloat handlers of `src/brevitas/export/common/handler/qcdq.py` and `src/brevitas/export/onnx/standard/qcdq/handler.py`. `none` is an exception. Exact arithmetic: the casts of half
precision scales and inputs to `float32` and back are left out. The zero point of a minifloat quantiser is 0 (core/quant/float.py:57-58, 66); only its type matters. How the runtime casts to
an 8-bit type is a parameter.
-/

namespace Brevitas

namespace Fp8Export

open NdTensor FloatPreset
open _root_.Spec (Float8)

variable {K : Type*} [Field K] [LinearOrder K] [IsStrictOrderedRing K] [FloorRing K]

/-- What the handler asks of the proxy: of a weight, its quantised value (`value` is not read); of an activation, the cached quantities (float_runtime_quant.py:18-40). -/
structure Proxy (K : Type*) where
  quant : FloatWeight K
  round : Preset.RoundType

/-- `validate`, onnx/standard/qcdq/handler.py:57-58 and 75-78: does it pass? `exportQNode`: is a quantize node exported (always for activations)? -/
def validate (exportQNode : Bool) (p : Proxy K) : Bool :=
  (!exportQNode || p.round == .round) && (p.quant.isOcp || p.quant.isFnuz)

/-- `FloatQMixin.signed_dtype`, qcdq.py:80-97, for given widths: an `UnboundLocalError` for other widths, `NotImplementedError` for other standards. The result is passed to `QuantizeLinearFn`, whose node
does not use it (onnx/standard/function.py:63-73). -/
def signedDtype (E M : ℕ) (isOcp isFnuz : Bool) : Option Float8 :=
  if isOcp then
    if E = 4 ∧ M = 3 then some .e4m3fn
    else if E = 5 ∧ M = 2 then some .e5m2
    else none
  else if isFnuz then
    if E = 4 ∧ M = 3 then some .e4m3fnuz
    else if E = 5 ∧ M = 2 then some .e5m2fnuz
    else none
  else none

/-- The type of `FloatZeroPointHandlerMixin.zero_point_with_dtype`, base.py:124-141. (For other widths of a recognised standard it returns `None`; `is_ocp` and `is_fnuz` exclude this.) -/
def zeroPointType (E M : ℕ) (isOcp isFnuz : Bool) : Option Float8 :=
  if isOcp then
    if E = 4 ∧ M = 3 then some .e4m3fn
    else if E = 5 ∧ M = 2 then some .e5m2
    else none
  else if isFnuz then
    if E = 4 ∧ M = 3 then some .e4m3fnuz
    else if E = 5 ∧ M = 2 then some .e5m2fnuz
    else none
  else none

/-- The arguments of a `QuantizeLinear` or `DequantizeLinear` node (onnx/standard/function.py:20-30, 63-73): flattened scales, the type of the zero point, the axis. -/
structure Node (K : Type*) where
  scale : ℕ → K
  type : Float8
  axis : Option ℕ

/-- `scale.flatten()`: entries in row-major order. -/
def flatten (t : NdTensor K) (i : ℕ) : K := t.data (unravel t.shape i)

/-- `quantize_symbolic_kwargs`, qcdq.py:197-210 and 436-449. -/
def quantizeKwargs (p : Proxy K) : Option (Node K) :=
  let q := p.quant
  (zeroPointType q.E q.M q.isOcp q.isFnuz).bind fun t => (signedDtype q.E q.M q.isOcp q.isFnuz).map fun _ =>
    ⟨flatten q.scale, t, quantAxis q.scale.shape⟩

/-- `dequantize_symbolic_kwargs`, qcdq.py:149-168, with `flatten_dequantize_params = True` (onnx/standard/qcdq/handler.py:43-45). -/
def dequantizeKwargs (p : Proxy K) : Option (Node K) :=
  let q := p.quant
  (zeroPointType q.E q.M q.isOcp q.isFnuz).map fun t => ⟨flatten q.scale, t, quantAxis q.scale.shape⟩

/-- `symbolic_kwargs` after `prepare_for_export`; clip arguments are `None` (base.py:43-47). -/
structure Prepared (K : Type*) where
  quantize : Node K
  dequantize : Node K
  scaleShape : List ℕ
  E : ℕ
  M : ℕ
  bias : ℤ
  saturating : Bool
  infValues : Option (List (List Bool))
  nanValues : Option (List (List Bool))

/-- `FloatQCDQCastActQuantProxyHandlerMixin.prepare_for_export`, qcdq.py:451-490, of an enabled quantiser. -/
def prepareAct (p : Proxy K) : Option (Prepared K) :=
  if validate true p then
    (quantizeKwargs p).bind fun q => (dequantizeKwargs p).map fun dq =>
      ⟨q, dq, p.quant.scale.shape, p.quant.E, p.quant.M, p.quant.bias, p.quant.saturating, p.quant.infValues, p.quant.nanValues⟩
  else none

/-- `FloatQCDQCastWeightQuantProxyHandlerMixin.prepare_for_export`, qcdq.py:212-266, of an enabled quantiser; `exportQNode` is `export_weight_q_node` of `export_onnx`
(onnx/standard/qcdq/manager.py:69-78). Without it `prepare_quantize_from_minifloat` raises (qcdq.py:226-227). -/
def prepareWeight (exportQNode : Bool) (p : Proxy K) : Option (Prepared K) :=
  if validate exportQNode p then
    if exportQNode then
      (quantizeKwargs p).bind fun q => (dequantizeKwargs p).map fun dq =>
        ⟨q, dq, p.quant.scale.shape, p.quant.E, p.quant.M, p.quant.bias, p.quant.saturating, p.quant.infValues, p.quant.nanValues⟩
    else none
  else none

/-- `QuantizeLinear` on a float8 zero point: the cast of `x / scale`. -/
def quantizeLinear (cast : Float8 → K → K) (n : Node K) (x : NdTensor K) : NdTensor K :=
  ⟨x.shape, fun idx => cast n.type (x.data idx / axisRead n.axis n.scale idx)⟩

/-- `DequantizeLinear`: the product with the scale. -/
def dequantizeLinear (n : Node K) (y : NdTensor K) : NdTensor K := ⟨y.shape, fun idx => y.data idx * axisRead n.axis n.scale idx⟩

/-- `assert_ge_zero(scale, exponent_bit_width, mantissa_bit_width, exponent_bias)`, qcdq.py:52-57, 301, 510: does it pass? The widths are natural numbers here. -/
def assertGeZero (k : Prepared K) : Bool := (List.range k.scaleShape.prod).all (fun i => 0 ≤ k.dequantize.scale i) && 0 ≤ k.bias

/-- `symbolic_execution`, qcdq.py:268-314 and 492-526, with the nodes interpreted as the ONNX runtime does: value, scale (in its original shape) and format, or `none` when it raises.
Parameters per channel need opset 13 (onnx/standard/function.py:20-30, 63-73). -/
def symbolicExecution (cast : Float8 → K → K) (opset : ℕ) (signed : Bool) (k : Prepared K) (x : NdTensor K) : Option (FloatWeight K) :=
  if assertGeZero k && !(k.quantize.axis.isSome && opset < 13) && !(k.dequantize.axis.isSome && opset < 13) then
    let y := dequantizeLinear k.dequantize (quantizeLinear cast k.quantize x)
    some ⟨⟨y.shape, fun idx => .fin (y.data idx)⟩, ⟨k.scaleShape, fun idx => k.dequantize.scale (Spec.ravel k.scaleShape idx)⟩, k.E, k.M, k.bias, k.saturating, k.infValues, k.nanValues, signed⟩
  else none

/-- A minifloat activation quantiser after calibration, in evaluation mode: `FloatQuant.forward` (core/quant/float.py:83-100) with the scale it has learned, and what the proxy returns
(float_runtime_quant.py:76-84). -/
def actQuant (s : Settings K) (eps : K) (scale x : NdTensor K) : Option (FloatWeight K) :=
  (s.cfg eps).bind fun c => (quantTensor c scale x).map fun y => ⟨y, scale, c.E, c.M, c.bias, c.saturating, c.infValues, c.nanValues, c.signed⟩

/-- Export of the activation quantiser that returned `q` for some input. -/
def exportedAct (cast : Float8 → K → K) (opset : ℕ) (s : Settings K) (q : FloatWeight K) (x : NdTensor K) : Option (FloatWeight K) :=
  (prepareAct ⟨q, s.round⟩).bind fun k => symbolicExecution cast opset q.signed k x

/-- Export of a layer's weight, of which `q` is the quantised value. -/
def exportedWeight (cast : Float8 → K → K) (opset : ℕ) (exportQNode : Bool) (s : Settings K) (q : FloatWeight K) (w : NdTensor K) : Option (FloatWeight K) :=
  (prepareWeight exportQNode ⟨q, s.round⟩).bind fun k => symbolicExecution cast opset q.signed k w

end Fp8Export

end Brevitas
