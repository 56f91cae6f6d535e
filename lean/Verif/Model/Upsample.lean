import Verif.Model.WbLayer
import Verif.Spec.Interp

/-!
# Upsampling layers (`src/brevitas/nn/quant_upsample.py`)

Not modelled: the export mode and minifloat quant tensors. `interpolate` itself is torch's (`Verif.Spec.Interp`).
-/

namespace Brevitas

namespace Upsample

open NdTensor QuantConv WbLayer Interp

variable {K : Type*} [Field K] [LinearOrder K] [IsStrictOrderedRing K] [FloorRing K]

/-- `round_ste(y_value / x.scale) * x.scale`, nn/quant_upsample.py:49 and 77. -/
def roundToScale (y scale : NdTensor K) : Option (NdTensor K) :=
  (bcOp (fun a s => a / s) y scale).bind fun r =>
  bcOp (fun a s => a * s) (r.map fun a => ((torchRound a : ℤ) : K)) scale

/-- `QuantUpsample`, nn/quant_upsample.py:18-29. -/
structure Layer (K : Type*) where
  mode : Mode
  resize : List (Resize K)
  returnQuantTensor : Bool

/-- `QuantUpsample.forward`, nn/quant_upsample.py:39-51. A plain tensor has no attribute `value` (line 45). -/
def Layer.forward (l : Layer K) : LayerOut K → Except LayerError (LayerOut K)
  | .plain _ => .error .other
  | .quant x =>
    (torchOp (interpolate l.mode l.resize x.value)).bind fun y =>
    (if l.mode ≠ .nearest then torchOp (roundToScale y x.scale) else .ok y).bind fun y =>
    packOutput l.returnQuantTensor (.quant { x with value := y })

/-- `QuantUpsamplingBilinear2d.forward`, nn/quant_upsample.py:68-79; `nn.UpsamplingBilinear2d` sets `align_corners=True`. -/
def bilinear2d (resize : List (Resize K)) (returnQuantTensor : Bool) : LayerOut K → Except LayerError (LayerOut K)
  | .plain _ => .error .other
  | .quant x =>
    (torchOp (interpolate (.linear true) resize x.value)).bind fun y =>
    (torchOp (roundToScale y x.scale)).bind fun y =>
    packOutput returnQuantTensor (.quant { x with value := y })

/-- `QuantUpsamplingNearest2d.forward`, nn/quant_upsample.py:96-104. -/
def nearest2d (resize : List (Resize K)) (returnQuantTensor : Bool) : LayerOut K → Except LayerError (LayerOut K)
  | .plain _ => .error .other
  | .quant x =>
    (torchOp (interpolate .nearest resize x.value)).bind fun y =>
    packOutput returnQuantTensor (.quant { x with value := y })

end Upsample

end Brevitas
