import Verif.Model.IntQuant

/-!
# Binary, ternary and truncation quantisers

`src/brevitas/core/quant/binary.py`, `src/brevitas/core/quant/ternary.py`, `src/brevitas/core/quant/int.py:200-225`. The scale
returned by `scaling_impl` is an argument; delay wrappers are in `Verif.Model.Runtime` (no delay here).
-/

namespace Brevitas

variable {K : Type*} [Field K] [LinearOrder K] [IsStrictOrderedRing K] [FloorRing K]

/-- The tuple `(y, scale, zero_point, bit_width)` returned by a quantiser, for one element. -/
structure QuantOut (K : Type*) where
  y : K
  scale : K
  zeroPoint : K
  bitWidth : ℕ
deriving DecidableEq, Repr

/-- `BinaryQuant.forward`, binary.py:59-64. -/
def binaryQuant (scale x : K) : QuantOut K :=
  { y := binarySign x * scale, scale := scale, zeroPoint := 0, bitWidth := 1 }

/-- `ClampedBinaryQuant.forward`, binary.py:119-125. -/
def clampedBinaryQuant (scale x : K) : QuantOut K :=
  let y := tensorClamp x (-scale) scale
  { y := binarySign y * scale, scale := scale, zeroPoint := 0, bitWidth := 1 }

/-- `TernaryQuant.forward`, ternary.py:62-69; `ternary_sign_ste` is `torch.sign` in the forward pass. -/
def ternaryQuant (threshold scale x : K) : QuantOut K :=
  let mask : K := if |x| > threshold * scale then 1 else 0
  let y := mask * (torchSign x : ℤ)
  { y := y * scale, scale := scale, zeroPoint := 0, bitWidth := 2 }

/-- `TruncIntQuant.forward`, int.py:211-225. `2.0 ** trunc_bit_width` is a real power: the exponent may be negative. -/
def truncIntQuant (floatToInt : K → ℤ) (outputBitWidth : ℕ) (x scale zeroPoint : K) (inputBitWidth : ℕ) : QuantOut K :=
  let y := x / scale
  let y := y + zeroPoint
  let y : K := torchRound y
  let truncBitWidth : ℤ := (inputBitWidth : ℤ) - (outputBitWidth : ℤ)
  let truncScale : K := 2 ^ truncBitWidth
  let y := y / truncScale
  let y : K := floatToInt y
  let y := y - zeroPoint
  let y := y * scale
  { y := y, scale := scale, zeroPoint := zeroPoint, bitWidth := outputBitWidth }

end Brevitas
