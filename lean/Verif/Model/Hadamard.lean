import Verif.Model.WbLayer
import Mathlib.Data.Nat.Log

/-!
# `HadamardClassifier` (`src/brevitas/nn/hadamard_classifier.py`)

The square root behind the norm is a parameter of the model: any function that is not negative. `math.log` and `torch.log2` are exact here.
-/

namespace Brevitas

namespace Hadamard

open NdTensor QuantConv WbLayer

variable {K : Type*} [Field K] [LinearOrder K] [IsStrictOrderedRing K] [FloorRing K]

/-- `scipy.linalg.hadamard(2 ** k)`: starting from `[[1]]`, `H = vstack((hstack((H, H)), hstack((H, -H))))`. -/
def matrix : ℕ → ℕ → ℕ → ℤ
  | 0, _, _ => 1
  | k + 1, i, j => if i < 2 ^ k then matrix k i (j % 2 ^ k) else if j < 2 ^ k then matrix k (i - 2 ^ k) j else -matrix k (i - 2 ^ k) (j - 2 ^ k)

/-- `HadamardClassifier.__init__`, nn/hadamard_classifier.py:24-41. -/
structure Layer (K : Type*) where
  inChannels : ℕ
  outChannels : ℕ
  scale : K
  eps : K
  returnQuantTensor : Bool
  training : Bool

/-- Line 33: `sz = 2 ** ceil(log2(max(in_channels, out_channels)))`, as an exponent. -/
def Layer.order (l : Layer K) : ℕ := Nat.clog 2 (max l.inChannels l.outChannels)

/-- `max_output_bit_width`, nn/hadamard_classifier.py:68-72. -/
def Layer.maxOutputBitWidth (l : Layer K) (inputBitWidth : ℕ) : ℕ := Nat.clog 2 ((2 ^ inputBitWidth - 1) * l.inChannels)

/-- `inp.value.norm(p='fro', keepdim=True) + self.eps` (line 48), as a number. -/
def Layer.norm (l : Layer K) (sqrt : K → K) (x : NdTensor K) : K := sqrt ((indices x.shape).map fun idx => x.data idx * x.data idx).sum + l.eps

/-- Lines 49-51: the value of the result. `none`: the last dimension of the input is not `in_channels`. -/
def Layer.value (l : Layer K) (sqrt : K → K) (x : NdTensor K) : Option (NdTensor K) :=
  if x.shape ≠ [] ∧ x.shape.getLastD 0 = l.inChannels then
    some ⟨x.shape.dropLast ++ [l.outChannels], fun idx =>
      -l.scale * ((List.range l.inChannels).map fun j => x.data (idx.dropLast ++ [j]) / l.norm sqrt x * (matrix l.order (idx.getLastD 0) j : K)).sum⟩
  else none

/-- `HadamardClassifier.forward`, nn/hadamard_classifier.py:43-66. A plain tensor has no attribute `value` (line 48), and without `return_quant_tensor` line 55 calls `False.any()`. -/
def Layer.forward (l : Layer K) (sqrt : K → K) : LayerOut K → Except LayerError (LayerOut K)
  | .plain _ => .error .other
  | .quant inp =>
    (torchOp (l.value sqrt inp.value)).bind fun out =>
    (torchOp (bcOp (fun s n => s * l.scale / n) inp.scale ⟨List.replicate inp.value.shape.length 1, fun _ => l.norm sqrt inp.value⟩)).bind fun outputScale =>
    if l.returnQuantTensor then
      if anyNonzero inp.zeroPoint then .error .other
      else .ok (.quant ⟨out, outputScale, inp.zeroPoint, l.maxOutputBitWidth inp.bitWidth, true, l.training⟩)
    else .error .other

end Hadamard

end Brevitas
