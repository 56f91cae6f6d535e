import Verif.Model.TruncPool
import Verif.Model.Runtime

/-!
# The layers of the FlexML target (`src/brevitas/nn/target/flexml.py`, `src/brevitas/graph/target/flexml.py`)

Tensors of shape `(N, C, H, W)`. Not modelled: images without batch dimension, the export mode, and quantisers other than the default ones.
-/

namespace Brevitas

namespace FlexML

open NdTensor QuantConv WbLayer

variable {K : Type*} [Field K] [LinearOrder K] [IsStrictOrderedRing K] [FloorRing K]

/-! ### Average pooling -/

/-- The two spatial dimensions of a pooling. -/
def axes (size kernel stride padding : ℕ × ℕ) : List PoolAxis := [⟨size.1, kernel.1, stride.1, padding.1⟩, ⟨size.2, kernel.2, stride.2, padding.2⟩]

/-- `nn.AvgPool2d.forward` (`avgPool` of `Model/Pool.lean` for each channel) with `count_include_pad=True`; torch refuses a padding of more than half the kernel. -/
def avgPool2d (kernel stride padding : ℕ × ℕ) (ceilMode : Bool) (x : NdTensor K) : Option (NdTensor K) :=
  match x.shape with
  | [N, C, H, W] =>
    if 0 < kernel.1 ∧ 0 < kernel.2 ∧ 0 < stride.1 ∧ 0 < stride.2 ∧ 2 * padding.1 ≤ kernel.1 ∧ 2 * padding.2 ≤ kernel.2 ∧ kernel.1 ≤ H + 2 * padding.1 ∧ kernel.2 ≤ W + 2 * padding.2 then
      some ⟨N :: C :: (axes (H, W) kernel stride padding).map (·.outSize ceilMode), fun idx =>
        avgPool ⟨ceilMode, true, none⟩ (axes (H, W) kernel stride padding) (TruncPool.plane x (idx.getD 0 0) (idx.getD 1 0)) (idx.drop 2)⟩
    else none
  | _ => none

/-- `FlexMLQuantAvgPool2d`, nn/target/flexml.py:61-81; no `stride` is `stride = kernel`. -/
structure AvgPool where
  kernel : ℕ × ℕ
  stride : ℕ × ℕ
  padding : ℕ × ℕ
  ceilMode : Bool
  returnQuantTensor : Bool

/-- `_avg_scaling`, nn/target/flexml.py:91-96. -/
def AvgPool.avgScaling (l : AvgPool) : ℕ := l.kernel.1 * l.kernel.2

/-- What the first call in training mode of a quantiser whose scale is learned from statistics takes as scale: `training_forward`, core/scaling/standalone.py:338-355, with the counter at 0. The
restriction to powers of two is not applied. (`rtsTrain` of `Model/Runtime.lean` is the same for any counter, over the reals.) -/
def firstScale (scalingMinVal : Option K) (stats threshold : K) : K := |clampMinVal scalingMinVal stats / threshold|

/-- `scaling_min_val = 1e-10`, quant/base.py:117. -/
def minVal : K := 1 / 10 ^ 10

/-- `quantized_div.scale`, nn/target/flexml.py:77-78 with `Int16QuantAvgPoolDivQuant` (56-59): a new module is in training mode, the statistic of a single number is its absolute value. -/
def AvgPool.divScale (l : AvgPool) : K := firstScale (some minVal) |1 / (l.avgScaling : K)| (powerOfTwoIntScaling true 8)

/-- `quantized_div.value`, nn/target/flexml.py:78 with core/quant/int_base.py:86-91. -/
def AvgPool.divValue (l : AvgPool) : K := (⟨true, false, torchRound⟩ : IntQuantCfg K).forward l.divScale 0 8 (1 / (l.avgScaling : K))

/-- `quantized_div_int_value`, nn/target/flexml.py:79 with quant_tensor/int_quant_tensor.py:110-128. -/
def AvgPool.divInt (l : AvgPool) : ℤ := torchRound (l.divValue / l.divScale + 0 : K)

/-- `rescaling_const`, nn/target/flexml.py:81. -/
def AvgPool.rescalingConst (l : AvgPool) : K := l.divValue * (l.avgScaling : K)

/-- `max_acc_bit_width`, nn/target/flexml.py:109-113. -/
def AvgPool.maxAccBitWidth (l : AvgPool) (inputBitWidth : ℕ) : ℕ :=
  let maxUintInput : ℚ := maxInt false false inputBitWidth
  let maxUintOutput := maxUintInput * l.avgScaling * (l.divInt (K := ℚ) : ℚ)
  ceilLog2 maxUintOutput

/-- `FlexMLQuantAvgPool2d.forward`, nn/target/flexml.py:98-107. -/
def AvgPool.forward (l : AvgPool) (input : LayerOut K) : Except LayerError (LayerOut K) :=
  match input with
  | .quant x =>
    (torchOp (avgPool2d l.kernel l.stride l.padding l.ceilMode x.value)).bind fun y =>
    packOutput l.returnQuantTensor (.quant { x with
      value := y.map fun v => v * l.rescalingConst
      scale := x.scale.map fun s => s * l.divScale
      bitWidth := l.maxAccBitWidth x.bitWidth })
  | .plain x =>
    (torchOp (avgPool2d l.kernel l.stride l.padding l.ceilMode x)).bind fun y =>
    packOutput l.returnQuantTensor (.plain (y.map fun v => v * l.rescalingConst))

/-! ### Leaky ReLU -/

/-- An activation quantiser in eval mode: per tensor, without zero point, rounding to nearest (`IntQuant` and `UintQuant`, quant/base.py:168-176, 190-198). -/
structure Quantiser (K : Type*) where
  signed : Bool
  bitWidth : ℕ
  scale : K

/-- What it does to an element, core/quant/int_base.py:86-91. -/
def Quantiser.run (q : Quantiser K) (x : K) : K := (⟨q.signed, false, torchRound⟩ : IntQuantCfg K).forward q.scale 0 q.bitWidth x

/-- `FlexMLQuantLeakyReLU` with the scales that its quantisers have in eval mode, nn/target/flexml.py:22-36. -/
structure LeakyReLU (K : Type*) where
  negativeSlope : K
  alphaScale : K
  inputScale : K
  outputScale : K

/-- `alpha_quant`, nn/target/flexml.py:27: unsigned, 16 bits. -/
def LeakyReLU.alphaQuant (l : LeakyReLU K) : Quantiser K := ⟨false, 16, l.alphaScale⟩

/-- `input_quant`, nn/target/flexml.py:28-29: signed, 16 bits. -/
def LeakyReLU.inputQuant (l : LeakyReLU K) : Quantiser K := ⟨true, 16, l.inputScale⟩

/-- `output_quant`, nn/target/flexml.py:30: signed, 8 bits. -/
def LeakyReLU.outputQuant (l : LeakyReLU K) : Quantiser K := ⟨true, 8, l.outputScale⟩

/-- What is handed to `output_quant`, nn/target/flexml.py:39-42. The quantisers of input and slope return plain tensors. -/
def LeakyReLU.beforeOutput (l : LeakyReLU K) (inp : K) : K :=
  let quantInp := l.inputQuant.run inp
  let quantAlpha := l.alphaQuant.run l.negativeSlope
  let quantAlphaOut := l.inputQuant.run (quantInp * quantAlpha)
  max quantInp quantAlphaOut

/-- `FlexMLQuantLeakyReLU.forward`, nn/target/flexml.py:38-44, for an element. -/
def LeakyReLU.forward (l : LeakyReLU K) (inp : K) : K := l.outputQuant.run (l.beforeOutput inp)

noncomputable section

/-- The scale of `alpha_quant`: `Uint8ActPerTensorFixedPoint` (quant/fixed_point.py:124-127; quant/base.py:113-117, 260-263), with the default momentum (core/stats/stats_wrapper.py:18). -/
def alphaCfg : RtsCfg := ⟨300, some (1 / 10), .powerOfTwo torchCeil, some minVal⟩

/-- The threshold of `alpha_quant`, core/scaling/int_scaling.py:35-36 for 16 bits. -/
def alphaThreshold : ℝ := powerOfTwoIntScaling false 16

/-- A call of a layer in a model: which layer, and whether the model is in training mode. -/
structure LayerCall where
  layer : ℕ
  training : Bool

/-- What the quantiser `id` of slopes has seen after calls of the layers of a model: layer `i` has the slope `slopes i` and the quantiser `quantOf i`. The statistic of a single number is its
absolute value. -/
def alphaHistory (slopes : ℕ → ℝ) (quantOf : ℕ → ℕ) (id : ℕ) (calls : List LayerCall) : List RtsEvent :=
  (calls.filter fun c => quantOf c.layer = id).map fun c => .call c.training false |slopes c.layer| alphaThreshold

/-- The scale of the quantiser `id` in eval mode afterwards, core/scaling/standalone.py:380-386. -/
def alphaScaleAfter (slopes : ℕ → ℝ) (quantOf : ℕ → ℕ) (id : ℕ) (calls : List LayerCall) : ℝ :=
  rtsEval alphaCfg (rtsRun alphaCfg .init (alphaHistory slopes quantOf id calls)) alphaThreshold

end

/-- The quantiser of the slope of each layer `FlexMLQuantLeakyReLU(slope)` of a program: the default arguments are modules that Python makes once, when it reads the class
(nn/target/flexml.py:24-30). -/
def defaultQuantOf (_layer : ℕ) : ℕ := 0

/-- The parameters of `FlexMLQuantLeakyReLU` without a default, nn/target/flexml.py:24-30. -/
def leakyRequired : List String := ["negative_slope"]

/-- The keyword arguments of `FLEXML_QUANT_ACT_MAP[nn.LeakyReLU]`, graph/target/flexml.py:100-109. -/
def leakyMapKwargs : List String := ["alpha_quant", "input_quant", "output_quant"]

/-- `quant_module_class(**quant_module_kwargs)` in `act_handler`, graph/quantize_impl.py:400-426: a `TypeError` (`none`) if a required parameter is not among the arguments of the map. The module being
replaced is not looked at. -/
def actHandlerInit (required kwargs : List String) : Option (List String) := if required.all (· ∈ kwargs) then some kwargs else none

end FlexML

end Brevitas
