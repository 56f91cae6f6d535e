import Verif.Model.Ops
import Mathlib.Data.Int.Log

/-!
# Integer quant tensors (`src/brevitas/quant_tensor/int_quant_tensor.py`)

A tensor is the list of its elements, with one scale, zero point and bit width for all of them (per-tensor quantisation; with
per-channel metadata the operations act channel by channel in the same way). Shapes and broadcasting between operands of different
sizes are not modelled. `none` is an exception.
-/

namespace Brevitas

variable {K : Type*} [Field K] [LinearOrder K] [IsStrictOrderedRing K] [FloorRing K]

/-- Fields of `IntQuantTensor`, base_quant_tensor.py:95-101. The bit width is an integer held in a float tensor. -/
structure IntQT (K : Type*) where
  value : List K
  scale : K
  zeroPoint : K
  bitWidth : ℕ
  signed : Bool
  training : Bool
deriving DecidableEq, Repr

/-- `torch.allclose(a, b)` on scalars with the default tolerances `rtol = 1e-5`, `atol = 1e-8`. -/
def allclose (a b : K) : Bool := |a - b| ≤ 1 / 10 ^ 8 + 1 / 10 ^ 5 * |b|

/-- `_pre_round_int_value`, int_quant_tensor.py:62-73 (the conversions from bfloat16 are exact). -/
def IntQT.preRound (q : IntQT K) : List K := q.value.map fun v => v / q.scale + q.zeroPoint

/-- `torch.round` of the previous. -/
def IntQT.rounded (q : IntQT K) : List ℤ := q.preRound.map torchRound

/-- `is_valid`, int_quant_tensor.py:75-98, with `atol` the tolerance chosen by the data type (`2e-1`, or `0.5` for 16-bit floats).
`torch.max` of an empty tensor raises. -/
def IntQT.isValid (q : IntQT K) (atol : K) : Option Bool :=
  if q.value = [] then none
  else
    let isInt := q.preRound.all fun y => |y - (torchRound y : ℤ)| < atol
    if 2 ≤ q.bitWidth then
      if q.signed then
        let isUpper := q.rounded.all fun n => ((2 : K) ^ ((q.bitWidth : ℤ) - 1) - 1 ≥ (n : K))
        let isLower := q.rounded.all fun n => (-(2 : K) ^ ((q.bitWidth : ℤ) - 1) ≤ (n : K))
        some (isInt && isUpper && isLower)
      else
        let isUpper := q.rounded.all fun n => ((2 : K) ^ (q.bitWidth : ℤ) - 1 ≥ (n : K))
        let isLower := q.rounded.all fun n => ((0 : K) ≤ (n : K))
        some (isInt && isUpper && isLower)
    else
      let uniqueVals := q.rounded.dedup
      let isBinary := uniqueVals.length == 2
      let isSigned := uniqueVals.any fun n => n < 0
      let signMatch := isSigned == q.signed
      some (isInt && isBinary && signMatch)

/-- Integer data types returned by `int()`. -/
inductive IntDtype
  | int8
  | uint8
  | int32
deriving DecidableEq, Repr

/-- Smallest value of the data type. -/
def IntDtype.min : IntDtype → ℤ
  | .int8 => -128
  | .uint8 => 0
  | .int32 => -2147483648

/-- Largest value of the data type. -/
def IntDtype.max : IntDtype → ℤ
  | .int8 => 127
  | .uint8 => 255
  | .int32 => 2147483647

/-- The data type chosen by `int()`, int_quant_tensor.py:121-126. -/
def IntQT.intDtype (q : IntQT K) : IntDtype :=
  if q.bitWidth ≤ 8 && q.signed then .int8
  else if q.bitWidth ≤ 8 && !q.signed then .uint8
  else .int32

/-- `int()`, int_quant_tensor.py:110-128: the rounded integers when the tensor is valid, an exception otherwise. The conversion to
the data type `intDtype` is left out here (out of range conversions are undefined in torch); whether the integers fit is a theorem. -/
def IntQT.int (q : IntQT K) (atol : K) : Option (List ℤ) :=
  match q.isValid atol with
  | some true => some q.rounded
  | _ => none

/-- `check_scaling_factors_same`, int_quant_tensor.py:140-144: does it pass? -/
def IntQT.checkScale (q other : IntQT K) : Bool := q.training || allclose q.scale other.scale

/-- `check_zero_points_same`, int_quant_tensor.py:146-150. -/
def IntQT.checkZeroPoint (q other : IntQT K) : Bool := q.training || allclose q.zeroPoint other.zeroPoint

/-- `check_bit_width_same`, int_quant_tensor.py:152-154. -/
def IntQT.checkBitWidth (q other : IntQT K) : Bool := allclose (q.bitWidth : K) (other.bitWidth : K)

/-- `check_sign_same`, int_quant_tensor.py:156-158. -/
def IntQT.checkSign (q other : IntQT K) : Bool := q.signed == other.signed

/-- The result of `cat`: the averaged metadata of a training-time concatenation need not be an integer bit width, so it is kept as
a field element here. -/
structure CatQT (K : Type*) where
  value : List K
  scale : K
  zeroPoint : K
  bitWidth : K
  signed : Bool
  training : Bool
deriving DecidableEq, Repr

/-- View a quant tensor as a result of `cat`. -/
def IntQT.toCat (q : IntQT K) : CatQT K := ⟨q.value, q.scale, q.zeroPoint, q.bitWidth, q.signed, q.training⟩

/-- `cat`, int_quant_tensor.py:207-242, of quant tensors along the only dimension. An empty list fails on `tensors[0]`. -/
def catQT (tensors : List (IntQT K)) : Option (CatQT K) :=
  match tensors with
  | [] => none
  | [q] => some q.toCat
  | first :: rest =>
    if rest.all fun qt => first.checkScale qt && first.checkZeroPoint qt && first.checkBitWidth qt && first.checkSign qt then
      let outputValue := (tensors.map fun q => q.value).flatten
      let outputTraining := tensors.any fun q => q.training
      if outputTraining then
        some { value := outputValue
               scale := (tensors.map fun q => q.scale).sum / (tensors.length : K)
               zeroPoint := (tensors.map fun q => q.zeroPoint).sum / (tensors.length : K)
               bitWidth := (tensors.map fun q => (q.bitWidth : K)).sum / (tensors.length : K)
               signed := first.signed
               training := outputTraining }
      else
        some { value := outputValue, scale := first.scale, zeroPoint := first.zeroPoint, bitWidth := first.bitWidth,
               signed := first.signed, training := outputTraining }
    else none

/-- `__neg__`, int_quant_tensor.py:246-265. -/
def IntQT.neg (q : IntQT K) (atol : K) : Option (IntQT K) :=
  (q.int atol).map fun ns =>
    let negValue := ns.map fun n : ℤ => (-(n : K) - q.zeroPoint) * q.scale
    if q.signed then { q with value := negValue }
    else { q with value := negValue, bitWidth := q.bitWidth + 1, signed := true }

/-- Output bit width of `__add__`, int_quant_tensor.py:272-276. `ceil(log2 x)` of a positive `x` is `Int.clog 2 x`. -/
def addBitWidth (signed₁ signed₂ : Bool) (b₁ b₂ : ℕ) : ℕ :=
  let maxVal : ℚ := maxInt signed₁ false b₁
  let maxVal := maxVal + maxInt signed₂ false b₂
  let minVal : ℚ := minInt signed₁ false b₁
  let minVal := minVal + minInt signed₂ false b₂
  (Int.clog 2 (maxVal - minVal)).toNat

/-- `__add__` of two quant tensors of the same size, int_quant_tensor.py:267-286. -/
def IntQT.add (q other : IntQT K) : Option (IntQT K) :=
  if q.checkScale other && q.value.length == other.value.length then
    some { value := List.zipWith (· + ·) q.value other.value
           scale := (q.scale + other.scale) / 2
           zeroPoint := q.zeroPoint + other.zeroPoint
           bitWidth := addBitWidth q.signed other.signed q.bitWidth other.bitWidth
           signed := q.signed || other.signed
           training := q.training || other.training }
  else none

/-- `__add__` of a quant tensor and a scalar float, int_quant_tensor.py:289-298. -/
def IntQT.addScalar (q : IntQT K) (other : K) : IntQT K :=
  { q with value := q.value.map (· + other), zeroPoint := q.zeroPoint - other / q.scale }

/-- `__sub__`, base_quant_tensor.py:85-86. -/
def IntQT.sub (q other : IntQT K) (atol : K) : Option (IntQT K) :=
  (other.neg atol).bind fun n => q.add n

/-- `__mul__` of two quant tensors of the same size, int_quant_tensor.py:301-321. -/
def IntQT.mul (q other : IntQT K) : Option (IntQT K) :=
  if q.zeroPoint = 0 ∧ other.zeroPoint = 0 ∧ q.value.length = other.value.length then
    some { value := List.zipWith (· * ·) q.value other.value
           scale := q.scale * other.scale
           zeroPoint := q.zeroPoint * other.zeroPoint
           bitWidth := q.bitWidth + other.bitWidth
           signed := q.signed || other.signed
           training := q.training || other.training }
  else none

/-- `__abs__`, int_quant_tensor.py:349-362. -/
def IntQT.abs (q : IntQT K) (atol : K) : Option (IntQT K) :=
  if q.signed then
    (q.int atol).map fun ns =>
      let absValue := ns.map fun n : ℤ => (|(n : K)| - q.zeroPoint) * q.scale
      { q with value := absValue, bitWidth := q.bitWidth - 1, signed := false }
  else some q

/-- `__truediv__` of two quant tensors of the same size, int_quant_tensor.py:326-347. Division by a zero element is `none` here
(torch returns an infinity or NaN). -/
def IntQT.truediv (q other : IntQT K) : Option (IntQT K) :=
  if q.zeroPoint = 0 ∧ other.zeroPoint = 0 ∧ q.value.length = other.value.length ∧ 0 ∉ other.value then
    let maxIntDenominator : K := 2 ^ ((other.bitWidth : ℤ) - (if other.signed then 1 else 0))
    some { value := List.zipWith (· / ·) q.value other.value
           scale := q.scale / (other.scale * maxIntDenominator)
           zeroPoint := q.zeroPoint * other.zeroPoint
           bitWidth := q.bitWidth + other.bitWidth
           signed := q.signed || other.signed
           training := q.training || other.training }
  else none

end Brevitas
