import Mathlib.Algebra.Order.Field.Power
import Mathlib.Algebra.Order.Ring.Abs

/-!
# Specification of minifloat formats

Nothing here refers to the model. A format has `E` exponent bits, `M` mantissa bits and a bias; exponent code 0 is
subnormal. Infinity and NaN codes are handled separately (by a bound on the magnitude).
-/

namespace Spec

variable {K : Type*} [Field K] [LinearOrder K]

/-- Value of the code with exponent field `e` and mantissa field `m`. -/
def floatValue (M : ℕ) (bias : ℤ) (e m : ℕ) : K :=
  if e = 0 then 2 ^ (1 - bias) * ((m : K) / 2 ^ M)
  else 2 ^ ((e : ℤ) - bias) * (1 + (m : K) / 2 ^ M)

/-- `v` has a code in the format; negative values need a sign bit. -/
def Representable (E M : ℕ) (bias : ℤ) (signed : Bool) (v : K) : Prop :=
  ∃ e m : ℕ, e < 2 ^ E ∧ m < 2 ^ M ∧ (v = floatValue M bias e m ∨ (signed = true ∧ v = -floatValue M bias e m))

/-- Value of the code with all exponent and mantissa bits set. -/
def floatMax (E M : ℕ) (bias : ℤ) : K := floatValue M bias (2 ^ E - 1) (2 ^ M - 1)

end Spec
