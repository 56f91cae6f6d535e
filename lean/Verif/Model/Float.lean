import Verif.Model.Ops
import Mathlib.Data.Int.Log

/-!
# Minifloat quantisation

`src/brevitas/core/quant/float.py`, `src/brevitas/utils/torch_utils.py:95-104`,
`src/brevitas/core/function_wrapper/clamp.py:82-163`, `src/brevitas/utils/float_quant_utils.py`.
-/

namespace Brevitas

variable {K : Type*} [Field K] [LinearOrder K] [IsStrictOrderedRing K] [FloorRing K]

/-- The exponent of `float_internal_scale`, src/brevitas/utils/torch_utils.py:101-102. `floor(log2 v)` of a positive `v` is
`Int.log 2 v` (`Real.floor_logb_natCast`); the mantissa width is an integer held in a float tensor. -/
def internalExponent (M : ℕ) (fpInternalScaleMin : ℤ) (eps x : K) : ℤ :=
  max (Int.log 2 (|x| + eps) - M) fpInternalScaleMin

/-- `float_internal_scale`, torch_utils.py:95-104. -/
def floatInternalScale (M : ℕ) (fpInternalScaleMin : ℤ) (eps x : K) : K :=
  2 ^ internalExponent M fpInternalScaleMin eps x

/-- Constructor arguments of `FloatQuant` (float.py:19-66) and `FloatClamp` (clamp.py:92-114). `eps` is
`torch.finfo(dtype).tiny`. -/
structure FloatCfg (K : Type*) where
  E : ℕ
  M : ℕ
  bias : ℤ
  signed : Bool
  saturating : Bool
  infValues : Option (List (List Bool))
  nanValues : Option (List (List Bool))
  maxAvailableFloat : Option K
  floatToInt : K → ℤ
  eps : K

/-- The checks of `FloatQuant.__init__`, float.py:34-46: does the constructor succeed? -/
def FloatCfg.valid (c : FloatCfg K) (bitWidth : ℕ) : Bool :=
  bitWidth == c.E + c.M + (if c.signed then 1 else 0) && c.E != 0 && c.M != 0

/-- `fp_internal_scale_min`, float.py:50-51. -/
def FloatCfg.fpInternalScaleMin (c : FloatCfg K) : ℤ := 1 - c.bias - c.M

/-- `FloatQuant.quantize`, float.py:70-76, on a finite element; the result is not yet clamped nor rescaled. -/
def FloatCfg.quantize (c : FloatCfg K) (scale x : K) : K :=
  let scaledX := x / scale
  let internalScale := floatInternalScale c.M c.fpInternalScaleMin c.eps scaledX
  internalScale * (c.floatToInt (scaledX / internalScale) : ℤ)

/-- The largest value of `FloatClamp.forward` and `FloatScaling.forward`, clamp.py:109-114, 147-149 and
src/brevitas/core/scaling/float_scaling.py:30-42: an absent or zero `max_available_float` is ignored. -/
def FloatCfg.maxValue (c : FloatCfg K) : K :=
  let maxValue := maxFloat c.E c.M c.bias
  match c.maxAvailableFloat with
  | none => maxValue
  | some m => if m = 0 then maxValue else min maxValue m

/-- The smallest value of `FloatClamp.forward`, clamp.py:150. -/
def FloatCfg.minValue (c : FloatCfg K) : K := if c.signed then -c.maxValue else 0

/-- `FloatQuant.forward`, float.py:83-100, for a saturating format and a finite element, with the scale given. -/
def FloatCfg.forwardSat (c : FloatCfg K) (scale x : K) : K :=
  tensorClamp (c.quantize scale x) c.minValue c.maxValue * scale

/-! ### Extended values -/

/-- A float: finite, infinite or NaN. -/
inductive XF (K : Type*) where
  | fin (x : K)
  | pinf
  | ninf
  | nan
deriving DecidableEq, Repr

/-- `x > m` for a finite bound; comparisons with NaN are false. -/
def XF.gt (x : XF K) (m : K) : Bool :=
  match x with
  | .fin x => m < x
  | .pinf => true
  | .ninf => false
  | .nan => false

/-- `-x`. -/
def XF.neg : XF K → XF K
  | .fin x => .fin (-x)
  | .pinf => .ninf
  | .ninf => .pinf
  | .nan => .nan

/-- `x.isinf()`. -/
def XF.isInf : XF K → Bool
  | .pinf => true
  | .ninf => true
  | _ => false

/-- Product; an infinity times zero is NaN. -/
def XF.mul : XF K → XF K → XF K
  | .fin x, .fin y => .fin (x * y)
  | .nan, _ => .nan
  | _, .nan => .nan
  | .fin x, .pinf => if 0 < x then .pinf else if x < 0 then .ninf else .nan
  | .fin x, .ninf => if 0 < x then .ninf else if x < 0 then .pinf else .nan
  | .pinf, .fin y => if 0 < y then .pinf else if y < 0 then .ninf else .nan
  | .ninf, .fin y => if 0 < y then .ninf else if y < 0 then .pinf else .nan
  | .pinf, .pinf => .pinf
  | .pinf, .ninf => .ninf
  | .ninf, .pinf => .ninf
  | .ninf, .ninf => .pinf

/-- Quotient; division by zero gives an infinity or NaN (the sign of zero is not tracked), infinity over infinity is NaN. -/
def XF.div : XF K → XF K → XF K
  | .fin x, .fin y => if y = 0 then (if 0 < x then .pinf else if x < 0 then .ninf else .nan) else .fin (x / y)
  | .nan, _ => .nan
  | _, .nan => .nan
  | .fin _, .pinf => .fin 0
  | .fin _, .ninf => .fin 0
  | .pinf, .fin y => if y < 0 then .ninf else .pinf
  | .ninf, .fin y => if y < 0 then .pinf else .ninf
  | .pinf, .pinf => .nan
  | .pinf, .ninf => .nan
  | .ninf, .pinf => .nan
  | .ninf, .ninf => .nan

/-- A rounding function leaves infinities and NaN unchanged. -/
def XF.round (f : K → ℤ) : XF K → XF K
  | .fin x => .fin (f x : ℤ)
  | .pinf => .pinf
  | .ninf => .ninf
  | .nan => .nan

/-- `tensor_clamp`, ops.py:74-98, on extended values: two `torch.where`, NaN stays NaN. -/
def XF.clamp (x : XF K) (minVal maxVal : K) : XF K :=
  match x with
  | .fin x => .fin (tensorClamp x minVal maxVal)
  | .pinf => .fin (if maxVal < minVal then minVal else maxVal)
  | .ninf => .fin minVal
  | .nan => .nan

/-- `float_internal_scale` on extended values: `2 ** floor(log2(inf))` is infinity. -/
def floatInternalScaleX (M : ℕ) (fpInternalScaleMin : ℤ) (eps : K) : XF K → XF K
  | .fin x => .fin (floatInternalScale M fpInternalScaleMin eps x)
  | .pinf => .pinf
  | .ninf => .pinf
  | .nan => .nan

/-- `FloatQuant.quantize`, float.py:70-76, on extended values. -/
def FloatCfg.quantizeX (c : FloatCfg K) (scale : K) (x : XF K) : XF K :=
  let scaledX := x.div (.fin scale)
  let internalScale := floatInternalScaleX c.M c.fpInternalScaleMin c.eps scaledX
  internalScale.mul ((scaledX.div internalScale).round c.floatToInt)

/-- `FloatClamp.inf_nan_clamp`, clamp.py:116-134, on one element: `none` is the `RuntimeError`. -/
def FloatCfg.infNanClamp (c : FloatCfg K) (x : XF K) (infMask pMaxValMask nMaxValMask : Bool) : Option (XF K) :=
  if c.infValues.isSome then
    let x := if pMaxValMask then .pinf else x
    let x := if nMaxValMask then .ninf else x
    some x
  else if c.nanValues.isSome then
    let x := if pMaxValMask || nMaxValMask then .nan else x
    let x := if infMask then .nan else x
    some x
  else none

/-- `FloatClamp.forward`, clamp.py:140-163. -/
def FloatCfg.floatClamp (c : FloatCfg K) (x : XF K) : Option (XF K) :=
  let maxValue := c.maxValue
  let minValue := c.minValue
  let infMask := x.isInf
  let pMaxValMask := x.gt maxValue
  let nMaxValMask := x.neg.gt maxValue
  let x := x.clamp minValue maxValue
  if c.saturating then some x else c.infNanClamp x infMask pMaxValMask nMaxValMask

/-- `FloatQuant.forward`, float.py:83-100, on extended values with the scale given. -/
def FloatCfg.forwardX (c : FloatCfg K) (scale : K) (x : XF K) : Option (XF K) := do
  let y ← c.floatClamp (c.quantizeX scale x)
  return y.mul (.fin scale)

/-! ### Largest available value (`src/brevitas/utils/float_quant_utils.py`) -/

/-- `int(bits, 2)`, most significant bit first. -/
def bitsToNat (bits : List Bool) : ℕ := bits.foldl (fun acc b => 2 * acc + (if b then 1 else 0)) 0

/-- `format(n, '0{width}b')` for `n < 2 ^ width`: the `width` low bits, most significant first. (For a larger `n` Python
would return a longer string; the caller never passes one.) -/
def natToBits : ℕ → ℕ → List Bool
  | 0, _ => []
  | w + 1, n => natToBits w (n / 2) ++ [n % 2 == 1]

/-- `mantissa_bits_to_float`, float_quant_utils.py:8-17, with `frexp_compatible=False` (the only use). -/
def mantissaBitsToFloat (bits : List Bool) (normal : Bool) : K :=
  (bits.zipIdx).foldl (fun res (val, i) => res + 2 ^ (-((i : ℤ) + 1)) * (if val then 1 else 0)) (if normal then 1 else 0)

/-- `get_minifloat_value`, float_quant_utils.py:20-33. -/
def getMinifloatValue (exponent mantissa : List Bool) (exponentBias : ℤ) : K :=
  let exponentValue := bitsToNat exponent
  if exponentValue = 0 then
    2 ^ ((exponentValue : ℤ) - (exponentBias - 1)) * mantissaBitsToFloat mantissa false
  else
    2 ^ ((exponentValue : ℤ) - exponentBias) * mantissaBitsToFloat mantissa true

/-- `get_max_available_float`, float_quant_utils.py:36-83. `none`: it raises (non-saturating without special codes, infinity
without NaN, a code longer than the mantissa, or an empty tuple of codes). -/
def getMaxAvailableFloat (E M : ℕ) (bias : ℤ) (nanValues infValues : Option (List (List Bool))) (saturating : Bool) :
    Option K :=
  match nanValues, infValues with
  | none, none =>
    if saturating then some (getMinifloatValue (List.replicate E true) (List.replicate M true) bias) else none
  | some nan, inf =>
    let special := nan ++ inf.getD []
    if special.any (fun x => decide (x.length > M)) then none
    else match (special.map bitsToNat).min? with
      | none => none
      | some minSpecialCase =>
        let maxValueMantissa : ℤ := (minSpecialCase : ℤ) - 1
        if maxValueMantissa < 0 then
          some (getMinifloatValue (List.replicate (E - 1) true ++ [false]) (List.replicate M true) bias)
        else
          some (getMinifloatValue (List.replicate E true) (natToBits M maxValueMantissa.toNat) bias)
  | none, some _ => none

/-- `get_min_available_float`, float_quant_utils.py:86-97. -/
def getMinAvailableFloat (E M : ℕ) (bias : ℤ) : K :=
  getMinifloatValue (List.replicate E false) (List.replicate (M - 1) false ++ [true]) bias

end Brevitas
