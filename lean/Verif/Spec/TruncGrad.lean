import Verif.Model.TruncGrad

/-!
# Gradients of truncation: specification
-/

namespace Brevitas.Spec.Truncation

open Brevitas Brevitas.TruncGrad

/-- To an integer. -/
noncomputable def toInt : Rounding → ℝ → ℤ
  | .round, y => torchRound y
  | .floor, y => ⌊y⌋
  | .roundToZero, y => if 0 ≤ y then ⌊y⌋ else ⌈y⌉
  | .dpuRound, y => Brevitas.dpuRound y
  | .ceil, y => ⌈y⌉

/-- The integer code of the input. -/
noncomputable def long (x s z : ℝ) : ℝ := (torchRound (x / s + z) : ℤ)

/-- The integer code of the output: `dropped` bits fewer. -/
noncomputable def short (f : Rounding) (dropped x s z : ℝ) : ℝ := (toInt f (long x s z / 2 ^ dropped) : ℤ)

/-- Truncation along a path of its arguments, where both roundings go on adding the errors that they add at the start. -/
noncomputable def frozen (f : Rounding) (out x s z inp : ℝ → ℝ) (t : ℝ) : ℝ :=
  let e₁ := long (x 0) (s 0) (z 0) - (x 0 / s 0 + z 0)
  let e₂ := short f (inp 0 - out 0) (x 0) (s 0) (z 0) - long (x 0) (s 0) (z 0) / 2 ^ (inp 0 - out 0)
  ((x t / s t + z t + e₁) / 2 ^ (inp t - out t) + e₂ - z t) * s t

end Brevitas.Spec.Truncation
