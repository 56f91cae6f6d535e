import Verif.Model.Ops

/-!
# Statistics (`src/brevitas/core/stats/stats_op.py`)

A statistic reduces the elements that share one scale (the whole tensor, a channel or a group), listed in order.
`torch.max`/`torch.min` of an empty tensor raise, hence the `Option` results: `none` is the exception.
-/

namespace Brevitas

variable {K : Type*} [Field K] [LinearOrder K] [IsStrictOrderedRing K] [FloorRing K]

/-- `torch.max(x)`. -/
def torchMax : List K → Option K
  | [] => none
  | a :: t => some (t.foldl max a)

/-- `torch.min(x)`. -/
def torchMin : List K → Option K
  | [] => none
  | a :: t => some (t.foldl min a)

/-- `torch.mean(x)`; `none` stands for the NaN that torch returns for an empty tensor. -/
def torchMean : List K → Option K
  | [] => none
  | l => some (l.sum / l.length)

/-- `AbsMax.forward`, stats_op.py:170-174. -/
def absMax (xs : List K) : Option K := torchMax (xs.map fun x => |x|)

/-- `NegativeMinOrZero.forward`, stats_op.py:41-47. -/
def negativeMinOrZero (xs : List K) : Option K := (torchMin xs).map fun m => min m 0

/-- `AbsMinMax.forward`, stats_op.py:192-201. -/
def absMinMax (xs : List K) : Option K := do
  let maxVal ← torchMax xs
  let minVal ← torchMin xs
  let minVal := min minVal 0
  return |maxVal - minVal|

/-- `AbsAve.forward`, stats_op.py:239-243. -/
def absAve (xs : List K) : Option K := torchMean (xs.map fun x => |x|)

/-- `AbsMaxAve.forward`, stats_op.py:212-213: mean over channels of the channel maxima. -/
def absMaxAve (xss : List (List K)) : Option K := do
  let ms ← xss.mapM absMax
  torchMean ms

end Brevitas
