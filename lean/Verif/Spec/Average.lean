import Mathlib.Data.Real.Basic

/-!
# Specification of the averages kept by statistics collectors

Nothing here refers to the model.
-/

namespace Spec

/-- Arithmetic mean. -/
noncomputable def mean (l : List ℝ) : ℝ := l.sum / l.length

/-- Exponential moving average with momentum `m`, initialised with the first observation. -/
noncomputable def ema (m : ℝ) : List ℝ → ℝ
  | [] => 0
  | a :: t => t.foldl (fun acc s => acc * (1 - m) + m * s) a

/-- The average that corresponds to an optional momentum: the true mean when there is none. -/
noncomputable def average (momentum : Option ℝ) (l : List ℝ) : ℝ :=
  match momentum with
  | none => mean l
  | some m => ema m l

end Spec
