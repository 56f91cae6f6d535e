import Verif.Model.Float
import Verif.Model.QuantTensor

/-!
# Minifloat quant tensors (`src/brevitas/quant_tensor/float_quant_tensor.py`)

As for integer quant tensors, a tensor is the list of its elements with one scale and zero point for all of them, and `none` is an exception.
Elements are finite.
-/

namespace Brevitas

variable {K : Type*} [Field K] [LinearOrder K] [IsStrictOrderedRing K] [FloorRing K]

/-- Fields of `FloatQuantTensor`, base_quant_tensor.py:104-115. Bit widths and bias are integers held in float tensors; the special codes
are tuples of strings of bits, or `None` for a format without them. -/
structure FloatQT (K : Type*) where
  value : List K
  scale : K
  zeroPoint : K
  E : ℕ
  M : ℕ
  bias : ℤ
  saturating : Bool
  infValues : Option (List (List Bool))
  nanValues : Option (List (List Bool))
  signed : Bool
  training : Bool
deriving DecidableEq, Repr

/-- `fp_internal_scale` of `_pre_round_float_value` and `minifloat`, float_quant_tensor.py:105 and 142. -/
def FloatQT.fpInternalScale (q : FloatQT K) : ℤ := 1 - q.bias - q.M

/-- `int_scale` of the same methods, float_quant_tensor.py:106-107 and 143-144, for an element: the argument of `float_internal_scale` is
`self.value`. `eps` is `torch.finfo(dtype).tiny`. -/
def FloatQT.intScale (q : FloatQT K) (eps v : K) : K := floatInternalScale q.M q.fpInternalScale eps v

/-- `_pre_round_float_value`, float_quant_tensor.py:97-109 (the conversions from bfloat16 are exact). -/
def FloatQT.preRound (q : FloatQT K) (eps v : K) : K := v / q.scale / q.intScale eps v

/-- `is_valid`, float_quant_tensor.py:111-121. `torch.max` of an empty tensor raises. -/
def FloatQT.isValid (q : FloatQT K) (eps atol : K) : Option Bool :=
  if q.value = [] then none
  else some (q.value.all fun v => |q.preRound eps v - (torchRound (q.preRound eps v) : ℤ)| < atol)

/-- `minifloat`, float_quant_tensor.py:137-148. -/
def FloatQT.minifloat (q : FloatQT K) (eps atol : K) : Option (List K) :=
  match q.isValid eps atol with
  | some true => some (q.value.map fun v => ((torchRound (q.preRound eps v) : ℤ) : K) * q.intScale eps v)
  | _ => none

/-- `__neg__`, float_quant_tensor.py:271-290; an unsigned tensor raises `NotImplementedError`. -/
def FloatQT.neg (q : FloatQT K) (eps atol : K) : Option (FloatQT K) :=
  (q.minifloat eps atol).bind fun ms =>
    if q.signed then some { q with value := ms.map fun m => (-m - q.zeroPoint) * q.scale } else none

/-- `__abs__`, float_quant_tensor.py:316-336. -/
def FloatQT.abs (q : FloatQT K) (eps atol : K) : Option (FloatQT K) :=
  if q.signed then
    (q.minifloat eps atol).map fun ms => { q with value := ms.map fun m => (|m| - q.zeroPoint) * q.scale, signed := false }
  else some q

/-- `check_scaling_factors_same`, float_quant_tensor.py:160-164: does it pass? -/
def FloatQT.checkScale (q other : FloatQT K) : Bool := q.training || allclose q.scale other.scale

/-- `check_zero_points_same`, float_quant_tensor.py:166-170. -/
def FloatQT.checkZeroPoint (q other : FloatQT K) : Bool := q.training || allclose q.zeroPoint other.zeroPoint

/-- `check_bit_width_same`, float_quant_tensor.py:172-176: raises if the exponents are not close and the mantissas are not close. -/
def FloatQT.checkBitWidth (q other : FloatQT K) : Bool :=
  !(!allclose (q.E : K) (other.E : K) && !allclose (q.M : K) (other.M : K))

/-- `check_exponent_bias`, float_quant_tensor.py:178-180. -/
def FloatQT.checkBias (q other : FloatQT K) : Bool := allclose (q.bias : K) (other.bias : K)

/-- `set(a) == set(b)` of tuples. -/
def sameSet (a b : List (List Bool)) : Bool := a.all (fun x => b.contains x) && b.all fun x => a.contains x

/-- `not (set(a) == set(b))`; `set(None)` raises `TypeError`. -/
def setsDiffer : Option (List (List Bool)) → Option (List (List Bool)) → Option Bool
  | some a, some b => some (!sameSet a b)
  | _, _ => none

/-- `check_inf_nan_same`, float_quant_tensor.py:182-185: does it pass? The second comparison is made only if the first finds a difference. -/
def FloatQT.checkInfNan (q other : FloatQT K) : Bool :=
  match setsDiffer q.infValues other.infValues with
  | none => false
  | some false => true
  | some true =>
    match setsDiffer q.nanValues other.nanValues with
    | none => false
    | some differ => !differ

/-- `check_sign_same`, float_quant_tensor.py:187-189. -/
def FloatQT.checkSign (q other : FloatQT K) : Bool := q.signed == other.signed

/-- All the checks of `cat`, float_quant_tensor.py:225-231. -/
def FloatQT.checks (q other : FloatQT K) : Bool :=
  q.checkScale other && q.checkZeroPoint other && q.checkBitWidth other && q.checkBias other && q.checkInfNan other && q.checkSign other

/-- The result of `cat`: averaged metadata need not be integers. -/
structure CatFloatQT (K : Type*) where
  value : List K
  scale : K
  zeroPoint : K
  E : K
  M : K
  bias : K
  saturating : Bool
  infValues : Option (List (List Bool))
  nanValues : Option (List (List Bool))
  signed : Bool
  training : Bool
deriving DecidableEq, Repr

/-- View a quant tensor as a result of `cat`. -/
def FloatQT.toCat (q : FloatQT K) : CatFloatQT K :=
  ⟨q.value, q.scale, q.zeroPoint, q.E, q.M, q.bias, q.saturating, q.infValues, q.nanValues, q.signed, q.training⟩

/-- `sum([f(qt) for qt in tensors]) / len(tensors)` -/
def meanOver (tensors : List (FloatQT K)) (f : FloatQT K → K) : K := (tensors.map f).sum / (tensors.length : K)

/-- `cat`, float_quant_tensor.py:216-267, of minifloat quant tensors along the only dimension. -/
def catFloatQT (tensors : List (FloatQT K)) : Option (CatFloatQT K) :=
  match tensors with
  | [] => none
  | [q] => some q.toCat
  | first :: rest =>
    if rest.all fun qt => first.checks qt then
      let outputTraining := tensors.any fun q => q.training
      if outputTraining then
        some { first.toCat with
          value := (tensors.map fun q => q.value).flatten
          scale := meanOver tensors fun q => q.scale
          zeroPoint := meanOver tensors fun q => q.zeroPoint
          E := meanOver tensors fun q => (q.E : K)
          M := meanOver tensors fun q => (q.M : K)
          bias := meanOver tensors fun q => (q.bias : K)
          training := outputTraining }
      else some { first.toCat with value := (tensors.map fun q => q.value).flatten, training := outputTraining }
    else none

end Brevitas
