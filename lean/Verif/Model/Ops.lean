import Mathlib.Data.Rat.Floor
import Mathlib.Algebra.Order.Floor.Ring
import Mathlib.Algebra.Ring.Int.Parity
import Mathlib.Data.List.Basic

/-!
# Elementary operations (`src/brevitas/function/ops.py`)

Tensors are modelled element by element: an element of an ordered field with a floor (`ℚ` in the examples, `ℝ` where logarithms and roots
are involved; exact arithmetic in both cases), the parameters are the ones that
broadcast to that element.
-/

namespace Brevitas

variable {K : Type*} [Field K] [LinearOrder K] [IsStrictOrderedRing K] [FloorRing K]

/-- `torch.round`, the function behind `round_ste` (src/brevitas/function/ops_ste.py:47-68 and
src/brevitas/core/function_wrapper/ops_ste.py:14-24): nearest integer, ties to even. -/
def torchRound (x : K) : ℤ :=
  let f := ⌊x⌋
  let r := x - f
  if r < 1 / 2 then f
  else if 1 / 2 < r then f + 1
  else if f % 2 = 0 then f else f + 1

/-- `torch.floor` (floor_ste, src/brevitas/function/ops_ste.py:95-116). -/
def torchFloor (x : K) : ℤ := ⌊x⌋

/-- `torch.ceil` (ceil_ste, src/brevitas/function/ops_ste.py:71-92). -/
def torchCeil (x : K) : ℤ := ⌈x⌉

/-- `torch.sign`: -1, 0 or 1. -/
def torchSign (x : K) : ℤ := if x < 0 then -1 else if 0 < x then 1 else 0

/-- `binary_sign`, src/brevitas/function/ops.py:16-32: `(x >= 0) * 2 - 1`. -/
def binarySign (x : K) : K := (if 0 ≤ x then 1 else 0) * 2 - 1

/-- `round_to_zero`, src/brevitas/function/ops.py:36-51: `sign(x) * floor(|x|)`. -/
def roundToZero (x : K) : ℤ := torchSign x * torchFloor |x|

/-- `dpu_round`, src/brevitas/function/ops.py:55-70. -/
def dpuRound (x : K) : ℤ :=
  if x < 0 ∧ x - torchFloor x = 1 / 2 then torchCeil x else torchRound x

/-- `tensor_clamp`, src/brevitas/function/ops.py:74-98: two `torch.where` in sequence. -/
def tensorClamp (x minVal maxVal : K) : K :=
  let out := if x > maxVal then maxVal else x
  if out < minVal then minVal else out

/-- `tensor_clamp_`, src/brevitas/function/ops.py:102-109: `torch.min` then `torch.max`, both with `out=x`. The
returned value is the new content of `x`. -/
def tensorClampInplace (x minVal maxVal : K) : K :=
  let x := min x maxVal
  max x minVal

/-- `torch.clamp(x, min, max)` (used by ScalarClamp, src/brevitas/core/function_wrapper/clamp.py:57-58, and by the
inference export, src/brevitas/export/inference/handler.py:55-56); PyTorch documents it as
`min(max(x, min_value), max_value)`. -/
def torchClamp (x minVal maxVal : K) : K := min (max x minVal) maxVal

/-- `Tensor.clamp_min` (ClampMin, src/brevitas/core/function_wrapper/clamp.py:78-79). -/
def clampMin (x minVal : K) : K := max x minVal

/-- `tensor_clamp` over a whole tensor of any length with scalar (broadcast) bounds. -/
def tensorClampList (xs : List K) (minVal maxVal : K) : List K :=
  xs.map fun x => tensorClamp x minVal maxVal

/-- `tensor_clamp_` over a whole tensor of any length with scalar (broadcast) bounds. -/
def tensorClampInplaceList (xs : List K) (minVal maxVal : K) : List K :=
  xs.map fun x => tensorClampInplace x minVal maxVal

/-- `max_int`, src/brevitas/function/ops.py:131-158. The bit width is an integer held in a float tensor; powers with
a negative exponent (signed, bit width 0) are the fractional values that torch returns. -/
def maxInt (signed narrow : Bool) (bitWidth : ℕ) : K :=
  if !signed && !narrow then 2 ^ (bitWidth : ℤ) - 1
  else if !signed && narrow then 2 ^ (bitWidth : ℤ) - 2
  else 2 ^ ((bitWidth : ℤ) - 1) - 1

/-- `min_int`, src/brevitas/function/ops.py:162-189. -/
def minInt (signed narrow : Bool) (bitWidth : ℕ) : K :=
  if signed && narrow then -(2 ^ ((bitWidth : ℤ) - 1)) + 1
  else if signed && !narrow then -(2 ^ ((bitWidth : ℤ) - 1))
  else 0 * bitWidth

/-- `max_float`, src/brevitas/function/ops.py:193-203: the sum of `2^-i` for `i = 0 .. mantissa` times
`2 ^ (2^exponent - 1 - bias)`. -/
def maxFloat (exponentBitWidth mantissaBitWidth : ℕ) (exponentBias : ℤ) : K :=
  let maxExponent : ℤ := 2 ^ exponentBitWidth - 1 - exponentBias
  let maxMantissa : K := ((List.range (mantissaBitWidth + 1)).map fun i : ℕ => (2 : K) ^ (-(i : ℤ))).sum
  maxMantissa * 2 ^ maxExponent

/-- `get_upper_bound_on_l1_norm`, src/brevitas/function/ops.py:206-219. -/
def upperBoundL1Norm (accumulatorBitWidth inputBitWidth : ℕ) (inputIsSigned : Bool) : K :=
  let s : ℤ := if inputIsSigned then 1 else 0
  let maxAccumulatorMag : K := 2 ^ ((accumulatorBitWidth : ℤ) - 1) - 1
  let maxInputMagInverse : K := 2 ^ (s - (inputBitWidth : ℤ))
  maxAccumulatorMag * maxInputMagInverse

end Brevitas
