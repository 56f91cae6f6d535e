import Verif.Model.IntQuant
import Verif.Model.Stats
import Verif.Model.Scaling
import Verif.Model.BinTern
import Verif.Model.QuantTensor

/-!
# Export of quantisers as quantize / clip / dequantize (`src/brevitas/export`)

Exact arithmetic: the casts between floating point formats (`cast_fn`) are left out. `none` is an exception. Parameters are the ones
that reach one element; how flattened per-channel parameters reach the elements is modelled at the end (`quantAxis`, `axisRead`).
-/

namespace Brevitas

variable {K : Type*} [Field K] [LinearOrder K] [IsStrictOrderedRing K] [FloorRing K]

/-- Conversion of an integer to a data type in two's complement arithmetic: reduction modulo the size of the type. -/
def IntDtype.wrap (d : IntDtype) (n : ℤ) : ℤ := (n - d.min) % (d.max - d.min + 1) + d.min

/-- `Tensor.type(dtype)` / `Tensor.to(dtype)` of a floating point number: truncation, then reduction to the data type. -/
def castDtype (d : IntDtype) (x : K) : ℤ := d.wrap (roundToZero x)

/-- `QMixin.signed_dtype`, src/brevitas/export/common/handler/qcdq.py:121-133. -/
def signedDtype (bitWidth : ℕ) (isSigned : Bool) : Option IntDtype :=
  if isSigned && bitWidth ≤ 8 then some .int8
  else if !isSigned && bitWidth ≤ 8 then some .uint8
  else if isSigned && bitWidth > 8 then some .int32
  else none

/-- `ClipMixin.int_clip_symbolic_kwargs`, src/brevitas/export/common/handler/base.py:52-70: `some none` means that no clip node is
exported. -/
def intClipKwargs (K : Type*) [Field K] [LinearOrder K] [IsStrictOrderedRing K] [FloorRing K] (narrow signed : Bool) (bitWidth : ℕ) :
    Option (Option (ℤ × ℤ)) :=
  if narrow || (bitWidth != 8 && bitWidth != 32) then
    let dtype : Option IntDtype :=
      if signed && (bitWidth < 8 || narrow && bitWidth ≤ 8) then some .int8
      else if !signed && (bitWidth < 8 || narrow && bitWidth ≤ 8) then some .uint8
      else if signed && (bitWidth < 32 || narrow && bitWidth ≤ 32) then some .int32
      else none
    dtype.map fun d => some (castDtype d (minInt signed narrow bitWidth : K), castDtype d (maxInt signed narrow bitWidth : K))
  else some none

/-- `ZeroPointHandlerMixin.zero_point_with_dtype`, base.py:145-157. -/
def zeroPointWithDtype (signed : Bool) (bitWidth : ℕ) (zeroPoint : K) : Option ℤ :=
  if !signed then
    if zeroPoint < 0 then none
    else if bitWidth > 8 then none
    else some (castDtype .uint8 zeroPoint)
  else if bitWidth ≤ 8 then some (castDtype .int8 zeroPoint)
  else some (castDtype .int32 zeroPoint)

/-- `torch.quantize_per_tensor(x, scale, zero_point, dtype).int_repr()` (src/brevitas/export/torch/qcdq/handler.py:85-90), which is
also the documented meaning of the ONNX node `QuantizeLinear`: `saturate(round(x / scale) + zero_point)`. -/
def quantizeLinear (d : IntDtype) (scale : K) (zeroPoint : ℤ) (x : K) : ℤ :=
  max (min (torchRound (x / scale) + zeroPoint) d.max) d.min

/-- `clip_fn`, torch/qcdq/handler.py:62-63: `torch.clamp` on integers; skipped when there are no clip arguments. -/
def clipFn (kwargs : Option (ℤ × ℤ)) (n : ℤ) : ℤ :=
  match kwargs with
  | none => n
  | some (lo, hi) => min (max n lo) hi

/-- `dequantize_fn`, torch/qcdq/handler.py:34-43, and ONNX `DequantizeLinear`. -/
def dequantizeFn (n : ℤ) (scale : K) (zeroPoint : ℤ) : K := ((n : K) - zeroPoint) * scale

/-- `validate`, torch/qcdq/handler.py:56-57, 80-84: binary quantisers are refused, and other roundings than `ROUND` wherever a
quantize node is exported. Per-group quantisers are refused too (not modelled here). -/
def exportValidate (bitWidth : ℕ) (exportQNode roundIsRound : Bool) : Bool := 1 < bitWidth && (!exportQNode || roundIsRound)

/-- Export of an activation quantiser: `QCDQCastActQuantProxyHandlerMixin.prepare_for_export` and `symbolic_execution`,
qcdq.py:531-594. `roundIsRound` is `module.rounding_mode == 'ROUND'`. -/
def exportAct (narrow signed roundIsRound : Bool) (bitWidth : ℕ) (scale zeroPoint x : K) : Option K :=
  if exportValidate bitWidth true roundIsRound then
    match zeroPointWithDtype signed bitWidth zeroPoint, signedDtype bitWidth signed, intClipKwargs K narrow signed bitWidth with
    | some zp, some d, some clip => some (dequantizeFn (clipFn clip (quantizeLinear d scale zp x)) scale zp)
    | _, _, _ => none
  else none

/-- Export of the weight of a layer: `QCDQCastWeightQuantProxyHandlerMixin.prepare_for_export` and `symbolic_execution` with
`_export_q_node = False` (qcdq.py:343-409): the integer weights are stored, clipped and dequantised. `narrow` is the flag of the weight
quantiser. The conversion of the integers to the data type is `IntDtype.wrap`. -/
def exportWeight (narrow : Bool) (q : IntQT K) (atol : K) : Option (List K) :=
  if exportValidate q.bitWidth false true then
    match q.int atol, intClipKwargs K narrow q.signed q.bitWidth, zeroPointWithDtype q.signed q.bitWidth q.zeroPoint with
    | some ns, some clip, some zp => some (ns.map fun n => dequantizeFn (clipFn clip (q.intDtype.wrap n)) q.scale zp)
    | _, _, _ => none
  else none

/-- Export of the bias of a layer: `CDQCastBiasQuantProxyHandlerMixin`, qcdq.py:710-765. The integers come from the quantised bias at
preparation time, the scale is `input_scale` when the layer passes one (biases whose scale is the product of input and weight scales) and
the scale stored at preparation time otherwise. -/
def exportBias (q : IntQT K) (atol : K) (inputScale : Option K) : Option (List K) :=
  if 1 < q.bitWidth && q.signed then
    match q.int atol, zeroPointWithDtype true q.bitWidth q.zeroPoint with
    | some ns, some zp => some (ns.map fun n => dequantizeFn (q.intDtype.wrap n) (inputScale.getD q.scale) zp)
    | _, _ => none
  else none

/-- `IntInferencetHandler.forward`, src/brevitas/export/inference/handler.py:55-63 (bounds from `prepare_for_export`, 46-52). The
rounding mode of the quantiser is not consulted. -/
def inferenceHandler (narrow signed : Bool) (bitWidth : ℕ) (scale zeroPoint x : K) : K :=
  let q := torchClamp ((torchRound (x / scale + zeroPoint) : ℤ) : K) (minInt signed narrow bitWidth) (maxInt signed narrow bitWidth)
  (q - zeroPoint) * scale

/-- Export of a truncation: `QCDQCastTruncQuantProxyHandlerMixin.symbolic_execution`, qcdq.py:783-809. The zero point is an integer held
in a float; `torch.quantize_per_tensor` refuses one that does not fit the data type. -/
def exportTrunc (signed roundIsRound : Bool) (outputBitWidth : ℕ) (x scale : K) (zeroPoint : ℤ) (inputBitWidth : ℕ) : Option K :=
  if exportValidate outputBitWidth true roundIsRound then
    let dtype : IntDtype := if signed then .int8 else .uint8
    let truncScale : K := 2 ^ ((inputBitWidth : ℤ) - (outputBitWidth : ℤ))
    let preScale := scale * truncScale
    if dtype.min ≤ zeroPoint ∧ zeroPoint ≤ dtype.max then
      match intClipKwargs K false signed outputBitWidth with
      | some clip => some (dequantizeFn (clipFn clip (quantizeLinear dtype preScale zeroPoint x)) scale zeroPoint)
      | none => none
    else none
  else none

/-! ### Dynamic quantisation -/

/-- A dynamic activation quantiser, per tensor: `RescalingIntQuant` (src/brevitas/core/quant/int.py:151-160) with
`RuntimeDynamicStatsScaling` over `AbsMinMax` and `RuntimeDynamicStatsZeroPoint` over `NegativeMinOrZero`
(src/brevitas_examples/common/generative/quant_blocks.py:16-60, quantizers.py:91-100). -/
def dynamicActQuant (c : IntQuantCfg K) (bw : ℕ) (xs : List K) : Option (List K × K × K × ℕ) :=
  rescalingIntQuant c bw (intScaling c.signed c.narrow bw)
    (fun xs threshold => (absMinMax xs).map fun st => st / threshold)
    (fun xs scale bw => (negativeMinOrZero xs).map fun st => scaleShiftZeroPoint c true |st| scale bw) false xs

/-- The ONNX node `DynamicQuantizeLinear` (operator documentation; emitted by src/brevitas/export/onnx/standard/function.py:80-85)
followed by `DequantizeLinear`: `DynamicQDQCastActQuantProxyHandlerMixin.symbolic_execution`, qcdq.py:613-631. Returns value, scale and
zero point. -/
def exportDynamicAct (xs : List K) : Option (List K × K × ℤ) := do
  let maxVal ← torchMax xs
  let minVal ← torchMin xs
  let scale := (max 0 maxVal - min 0 minVal) / 255
  let zp := torchRound (max (min ((0 - min 0 minVal) / scale) 255) 0)
  return (xs.map fun x => dequantizeFn (quantizeLinear .uint8 scale zp x) scale zp, scale, zp)

/-! ### Per-channel parameters -/

/-- `QuantAxisMixin.quant_axis`, base.py:36-40: the first dimension of the scale whose size is not 1. -/
def quantAxis : List ℕ → Option ℕ
  | [] => none
  | s :: ss => if s ≠ 1 then some 0 else (quantAxis ss).map (· + 1)

/-- How `QuantizeLinear` / `DequantizeLinear` / `torch.quantize_per_channel` read the flattened parameter (qcdq.py:536-546) at the element
with index `idx`: position `idx[axis]`, or the only entry when there is no axis. -/
def axisRead {A : Type*} (axis : Option ℕ) (flat : ℕ → A) (idx : List ℕ) : A :=
  match axis with
  | none => flat 0
  | some a => flat (idx.getD a 0)

end Brevitas
