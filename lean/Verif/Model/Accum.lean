import Mathlib.Data.Int.Log
import Mathlib.Algebra.BigOperators.Group.Finset.Basic
import Verif.Model.QuantTensor

/-!
# Accumulator bit widths and quantised linear layers (`src/brevitas/quant_tensor/int_torch_handler.py`)
-/

namespace Brevitas

/-- `ceil_ste(torch.log2(x))` for a positive `x` (exact arithmetic), int_torch_handler.py:246, 255, 272, 279. -/
def ceilLog2 (x : ℚ) : ℕ := (Int.clog 2 x).toNat

/-- `max_acc_bit_width_convNd`, int_torch_handler.py:240-247. The weight has shape `[out, in / groups, *kernel]`; a shape with fewer
than two dimensions is an exception. -/
def maxAccBitWidthConv (inputBitWidth weightBitWidth : ℕ) (weightShape : List ℕ) : Option ℕ :=
  weightShape[1]?.map fun inChannel : ℕ =>
    let maxUintInput : ℚ := maxInt false false inputBitWidth
    let maxKernelVal : ℚ := maxInt false false weightBitWidth
    let kernelSize : ℕ := (weightShape.drop 2).prod
    let maxUintOutput := maxUintInput * maxKernelVal * kernelSize * inChannel
    ceilLog2 maxUintOutput

/-- `max_acc_bit_width_linear`, int_torch_handler.py:250-256. The weight has shape `[out, in]`. -/
def maxAccBitWidthLinear (inputBitWidth weightBitWidth : ℕ) (weightShape : List ℕ) : Option ℕ :=
  weightShape[1]?.map fun inChannel : ℕ =>
    let maxUintInput : ℚ := maxInt false false inputBitWidth
    let maxKernelVal : ℚ := maxInt false false weightBitWidth
    let maxUintOutput := maxUintInput * maxKernelVal * inChannel
    ceilLog2 maxUintOutput

/-- `max_acc_bit_width_convtransposeNd`, int_torch_handler.py:259-273. The weight has shape `[in, out / groups, *kernel]`. -/
def maxAccBitWidthConvTranspose (inputBitWidth weightBitWidth : ℕ) (weightShape stride : List ℕ) : Option ℕ :=
  weightShape[1]?.map fun outChannel : ℕ =>
    let maxUintInput : ℚ := maxInt false false inputBitWidth
    let maxKernelVal : ℚ := maxInt false false weightBitWidth
    let kernelShape := weightShape.drop 2
    let patchSize : ℕ := (List.zipWith (fun s k : ℕ => max ((k + s - 1) / s) 1) stride kernelShape).sum
    let maxUintOutput := maxUintInput * maxKernelVal * patchSize * outChannel
    ceilLog2 maxUintOutput

/-- `max_acc_bit_width_avg_pool2d`, int_torch_handler.py:276-280. -/
def maxAccBitWidthAvgPool (inputBitWidth avgScaling : ℕ) : ℕ :=
  let maxUintInput : ℚ := maxInt false false inputBitWidth
  let maxUintOutput := maxUintInput * avgScaling
  ceilLog2 maxUintOutput

/-- `HadamardClassifier.max_output_bit_width`, src/brevitas/nn/hadamard_classifier.py:67-71. -/
def hadamardMaxOutputBitWidth (inputBitWidth inChannels : ℕ) : ℕ :=
  let maxInputVal : ℚ := maxInt false false inputBitWidth
  let maxOutputVal := maxInputVal * inChannels
  ceilLog2 maxOutputVal

/-- One integer output of a one-dimensional transposed convolution with zero padding and unit dilation: `weight c k` and `x c p` are
integers, the input has `len` positions and the kernel has `kernel` taps: PyTorch's definition of `conv_transpose1d`
(the operator called by the handler at int_torch_handler.py:43-60) at output position `t` for one output channel. -/
def convTranspose1dAcc (inChannels kernel stride len : ℕ) (weight x : ℕ → ℕ → ℤ) (t : ℕ) : ℤ :=
  ∑ c ∈ Finset.range inChannels, ∑ k ∈ (Finset.range kernel).filter (fun k => k ≤ t ∧ stride ∣ t - k ∧ (t - k) / stride < len),
    x c ((t - k) / stride) * weight c k

variable {K : Type*} [Field K] [LinearOrder K] [IsStrictOrderedRing K] [FloorRing K]

/-- Weight tensor of a linear layer as an integer quant tensor with one scale per output channel: rows of values, `[out, in]`. A per-tensor
scale is the case of equal entries. -/
structure WeightQT (K : Type*) where
  /-- one row per output channel -/
  value : List (List K)
  /-- one scale per output channel -/
  scale : List K
  /-- zero point -/
  zeroPoint : K
  /-- bit width -/
  bitWidth : ℕ
  /-- signed container -/
  signed : Bool
  /-- training flag -/
  training : Bool
deriving DecidableEq, Repr

/-- The bias argument of a linear layer: absent, a float tensor, or an integer quant tensor with one scale per output channel. -/
inductive BiasArg (K : Type*) where
  | none
  | float (value : List K)
  | int (value scale : List K) (bitWidth : ℕ) (signed : Bool)
deriving DecidableEq, Repr

/-- `_unpack_quant_tensor(bias)`. -/
def BiasArg.value : BiasArg K → Option (List K)
  | .none => Option.none
  | .float v => some v
  | .int v _ _ _ => some v

/-- Integer quant tensor produced by a linear layer: `value`, `zeroPoint` are indexed by (row, output channel), `scale` by output
channel. -/
structure LinearOutQT (K : Type*) where
  /-- values by row and output channel -/
  value : List (List K)
  /-- scale by output channel -/
  scale : List K
  /-- zero point by row and output channel -/
  zeroPoint : ℕ → ℕ → K
  /-- bit width -/
  bitWidth : ℕ
  /-- signed container -/
  signed : Bool
  /-- training flag -/
  training : Bool

/-- Result of a linear layer: a plain tensor or a quant tensor. -/
inductive LinearOut (K : Type*) where
  | plain (value : List (List K))
  | quant (out : LinearOutQT K)

/-- `F.linear(x, weight, bias)` on one row. -/
def linearRow (x : List K) (weight : List (List K)) (bias : Option (List K)) : List K :=
  match bias with
  | Option.none => weight.map fun w => (List.zipWith (· * ·) x w).sum
  | some b => List.zipWith (fun w b => (List.zipWith (· * ·) x w).sum + b) weight b

/-- `torch.allclose` on tensors of the same length. -/
def allcloseList (xs ys : List K) : Bool := (List.zipWith allclose xs ys).all id

/-- `quant_layer(F.linear, ...)`, int_torch_handler.py:140-213, for an integer quant tensor input with per-tensor scale and an integer
quant tensor weight. `rank3 = false`: the input has shape `[rows, in]`. `rank3 = true`: the input has shape `[1, rows, in]`, for which the
view of the bias at line 184-188 puts the bias on the row dimension, because `isinstance(fn, torch.nn.Linear)` is false for the function
`F.linear` and `channel_dim` is 1. `linearIn` is `weight.shape[1]`. -/
def quantLinear (rank3 : Bool) (rows : List (List K)) (inScale inZeroPoint : K) (inBitWidth : ℕ) (inSigned inTraining : Bool)
    (w : WeightQT K) (linearIn : ℕ) (bias : BiasArg K) : LinearOut K :=
  let output := rows.map fun x => linearRow x w.value bias.value
  let accBitWidth := (maxAccBitWidthLinear inBitWidth w.bitWidth [w.value.length, linearIn]).getD 0
  let outputScale := w.scale.map fun s => s * inScale
  let outputSigned := inSigned || w.signed
  let outputTraining := inTraining || w.training
  let biasAsZeroPoint : List K → ℕ → ℕ → K := fun b r o =>
    -(b.getD (if rank3 then r else o) 0) / outputScale.getD o 0
  let zeroPoint : ℕ → ℕ → K :=
    match bias with
    | .none => fun _ _ => 0
    | .float b => biasAsZeroPoint b
    | .int b s _ _ => if allcloseList s outputScale then fun _ _ => 0 else biasAsZeroPoint b
  let bitWidth :=
    match bias with
    | .none => accBitWidth
    | .float _ => accBitWidth
    | .int _ _ bb _ => (if bb > accBitWidth then bb else accBitWidth) + 1
  if inZeroPoint ≠ 0 ∨ w.zeroPoint ≠ 0 then .plain output
  else .quant ⟨output, outputScale, zeroPoint, bitWidth, outputSigned, outputTraining⟩

/-- `BiasQuantProxyFromInjector.compute_bias_scale` / `quant_output_scale_impl`, src/brevitas/proxy/parameter_quant.py:307-330: the scale
handed to a bias quantiser that requires the input scale. -/
def biasScale (wScale : List K) (inScale : K) : List K := wScale.map fun s => s * inScale

end Brevitas
