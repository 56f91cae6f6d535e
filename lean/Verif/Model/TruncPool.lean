import Verif.Model.WbLayer
import Verif.Model.Pool
import Verif.Model.Accum

/-!
# Average pooling of quant tensors and the truncating layers (`src/brevitas/nn/quant_avg_pool.py`, `src/brevitas/nn/quant_accumulator.py`)

Tensors of shape `(N, C, H, W)`. Not modelled: images without batch dimension, the export mode, and a delay of the quantiser.
-/

namespace Brevitas

namespace TruncPool

open NdTensor QuantConv WbLayer

variable {K : Type*} [Field K] [LinearOrder K] [IsStrictOrderedRing K] [FloorRing K]

/-- One channel of one image. -/
def plane (x : NdTensor K) (b c : ℕ) : List ℤ → K := fun pos => x.data (b :: c :: pos.map Int.toNat)

/-- The two spatial dimensions of a pooling without padding. -/
def axes (size kernel stride : ℕ × ℕ) : List PoolAxis := [⟨size.1, kernel.1, stride.1, 0⟩, ⟨size.2, kernel.2, stride.2, 0⟩]

/-- `F.avg_pool2d` (`avgPool` of `Model/Pool.lean` for each channel) without padding and with the other options at their defaults. -/
def avgPool2d (kernel stride : ℕ × ℕ) (x : NdTensor K) : Option (NdTensor K) :=
  match x.shape with
  | [N, C, H, W] =>
    if 0 < kernel.1 ∧ 0 < kernel.2 ∧ 0 < stride.1 ∧ 0 < stride.2 ∧ kernel.1 ≤ H ∧ kernel.2 ≤ W then
      some ⟨N :: C :: (axes (H, W) kernel stride).map (·.outSize false), fun idx =>
        avgPool .default (axes (H, W) kernel stride) (plane x (idx.getD 0 0) (idx.getD 1 0)) (idx.drop 2)⟩
    else none
  | _ => none

/-- `F.adaptive_avg_pool2d`, likewise. -/
def adaptiveAvgPool2d (outputSize : ℕ × ℕ) (x : NdTensor K) : Option (NdTensor K) :=
  match x.shape with
  | [N, C, H, W] =>
    if 0 < H ∧ 0 < W then
      some ⟨[N, C, outputSize.1, outputSize.2], fun idx =>
        adaptiveAvgPool [H, W] [outputSize.1, outputSize.2] (plane x (idx.getD 0 0) (idx.getD 1 0)) (idx.drop 2)⟩
    else none
  | _ => none

/-- `avg_pool2d_handler`, quant_tensor/int_torch_handler.py:95-118: what `F.avg_pool2d` does with a quant tensor. -/
def avgPool2dHandler (kernel stride : ℕ × ℕ) (q : ShapedQT K) : Option (ShapedQT K) :=
  (avgPool2d kernel stride q.value).map fun y => { q with value := y, bitWidth := maxAccBitWidthAvgPool q.bitWidth (kernel.1 * kernel.2) }

/-- `reduce(mul, k_size, 1)` of nn/quant_avg_pool.py:125-126 and quant_tensor/int_torch_handler.py:129-133. -/
def reduceSize (x y : NdTensor K) : ℕ := (computeKernelSizeStride (x.shape.drop 2) (y.shape.drop 2)).1.prod

/-- `adaptive_avg_pool2d_handler`, quant_tensor/int_torch_handler.py:121-137. -/
def adaptiveAvgPool2dHandler (outputSize : ℕ × ℕ) (q : ShapedQT K) : Option (ShapedQT K) :=
  (adaptiveAvgPool2d outputSize q.value).map fun y => { q with value := y, bitWidth := maxAccBitWidthAvgPool q.bitWidth (reduceSize q.value y) }

/-- `TruncIntQuant.forward` (core/quant/int.py:211-225) on tensors, with broadcasting; `2.0 ** trunc_bit_width` may have a negative exponent. -/
def truncTensor (floatToInt : K → ℤ) (outputBitWidth : ℕ) (x scale zeroPoint : NdTensor K) (inputBitWidth : ℕ) : Option (NdTensor K) :=
  (bcOp (fun a b => a / b) x scale).bind fun y =>
  (bcOp (fun a b => a + b) y zeroPoint).bind fun y =>
  (bcOp (fun a b => a - b) (y.map fun v => (floatToInt ((torchRound v : K) / 2 ^ ((inputBitWidth : ℤ) - outputBitWidth)) : K)) zeroPoint).bind fun y =>
  bcOp (fun a b => a * b) y scale

/-- A truncation quantiser that is there and enabled. -/
structure Proxy (K : Type*) where
  floatToInt : K → ℤ
  outputBitWidth : ℕ
  training : Bool

/-- `TruncQuantProxyFromInjector.forward`, proxy/runtime_quant.py:269-281. -/
def Proxy.forward (p : Proxy K) (x : ShapedQT K) : Except LayerError (ShapedQT K) :=
  (torchOp (truncTensor p.floatToInt p.outputBitWidth x.value x.scale x.zeroPoint x.bitWidth)).map fun y =>
    ⟨y, x.scale, x.zeroPoint, p.outputBitWidth, x.signed, p.training⟩

/-- `TruncAvgPool2d`, nn/quant_avg_pool.py:31-40; no `stride` is `stride = kernel`, and no `trunc` is no quantiser or a disabled one. -/
structure AvgLayer (K : Type*) where
  kernel : ℕ × ℕ
  stride : ℕ × ℕ
  trunc : Option (Proxy K)
  returnQuantTensor : Bool

/-- `TruncAvgPool2d.forward`, nn/quant_avg_pool.py:57-71, and `_avg_scaling` (50-55). -/
def AvgLayer.forward (l : AvgLayer K) (input : LayerOut K) : Except LayerError (LayerOut K) :=
  match input, l.trunc with
  | .quant x, some t =>
    (torchOp (avgPool2dHandler l.kernel l.stride x)).bind fun y =>
    (t.forward { y with value := y.value.map fun v => v * ((l.kernel.1 * l.kernel.2 : ℕ) : K) }).bind fun y =>
    packOutput l.returnQuantTensor (.quant y)
  | x, _ => (torchOp (avgPool2d l.kernel l.stride (unpack x))).bind fun y => packOutput l.returnQuantTensor (.plain y)

/-- `TruncAdaptiveAvgPool2d`, nn/quant_avg_pool.py:81-89. -/
structure AdaptiveLayer (K : Type*) where
  outputSize : ℕ × ℕ
  trunc : Option (Proxy K)
  returnQuantTensor : Bool

/-- `TruncAdaptiveAvgPool2d.forward`, nn/quant_avg_pool.py:114-133. -/
def AdaptiveLayer.forward (l : AdaptiveLayer K) (input : LayerOut K) : Except LayerError (LayerOut K) :=
  match input, l.trunc with
  | .quant x, some t =>
    (torchOp (adaptiveAvgPool2dHandler l.outputSize x)).bind fun y =>
    (t.forward { y with value := y.value.map fun v => v * (reduceSize x.value y.value : K) }).bind fun y =>
    packOutput l.returnQuantTensor (.quant y)
  | x, _ => (torchOp (adaptiveAvgPool2d l.outputSize (unpack x))).bind fun y => packOutput l.returnQuantTensor (.plain y)

/-- What a constructor does to the attributes of a module: `nn.Module.__init__`, and assignments of modules or of anything else. -/
inductive InitStep where
  | moduleInit
  | assign (name : String)
  | assignModule (name : String)

/-- A constructor run on a module. Before `nn.Module.__init__` there is no table of submodules, and `nn.Module.__setattr__` raises an `AttributeError` when a module is assigned; afterwards
the table is here. -/
def construct : Option (List String) → List InitStep → Except Unit (Option (List String))
  | table, [] => .ok table
  | _, .moduleInit :: rest => construct (some []) rest
  | table, .assign _ :: rest => construct table rest
  | none, .assignModule _ :: _ => .error ()
  | some table, .assignModule name :: rest => construct (some (table ++ [name])) rest

/-- `QuantLayerMixin.__init__`, nn/mixin/base.py:66-69, with `ExportMixin.__init__`, common.py:13-18. -/
def quantLayerInit : List InitStep :=
  [.assign "_export_mode", .assign "export_debug_name", .assign "export_handler", .assign "export_input_debug", .assign "export_output_debug", .assign "accept_quant_tensor",
    .assign "return_quant_tensor"]

/-- `TruncQuantAccumulator.__init__`, nn/quant_accumulator.py:20-26; the last step is line 60 of nn/mixin/base.py, the same for every `trunc_quant`. -/
def truncAccumulatorInit : List InitStep := quantLayerInit ++ [.assignModule "trunc_quant"]

/-- `ClampQuantAccumulator.__init__`, nn/quant_accumulator.py:44-50. -/
def clampAccumulatorInit : List InitStep := quantLayerInit ++ [.assignModule "clamp_quant"]

/-- `TruncAvgPool2d.__init__`, nn/quant_avg_pool.py:31-40. -/
def truncAvgPoolInit : List InitStep := [.moduleInit, .assign "kernel_size", .assign "stride"] ++ quantLayerInit ++ [.assignModule "trunc_quant"]

end TruncPool

end Brevitas
