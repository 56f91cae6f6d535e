import Mathlib.Analysis.SpecialFunctions.Sqrt
import Verif.Model.Stats

/-!
# Statistics that do not cover the whole tensor: mean plus deviations, root mean square of channel maxima

`src/brevitas/core/stats/stats_op.py:216-326`.  Real numbers, because of the square roots.  As in `Verif.Model.Stats`, a statistic reduces the list of the
elements that share a scale; `none` is an exception or a NaN.
-/

namespace Brevitas

/-- `torch.var(x)`, with Bessel's correction (the default): the squared deviations are divided by one less than their number.  torch returns NaN (`none`)
for fewer than two elements. -/
noncomputable def torchVar (l : List ℝ) : Option ℝ :=
  if l.length < 2 then none
  else (torchMean l).map fun m => (l.map fun x => (x - m) ^ 2).sum / ((l.length : ℝ) - 1)

/-- `_MeanSigmaStdImpl.forward`, stats_op.py:277-288, for the elements that share one scale. -/
noncomputable def meanSigmaStdImpl (epsilon : ℝ) (xs : List ℝ) (sigma : ℝ) : Option ℝ := do
  let absVal := xs.map fun x => |x|
  let meanVal ← torchMean absVal
  let var ← torchVar absVal
  let stdVal := Real.sqrt (var + epsilon)
  return meanVal + sigma * stdVal

/-- `MeanSigmaStd.forward`, stats_op.py:260-263. -/
noncomputable def meanSigmaStd (sigma epsilon : ℝ) (xs : List ℝ) : Option ℝ := meanSigmaStdImpl epsilon xs sigma

/-- The attributes that `MeanLearnedSigmaStd.__init__` gives the module, stats_op.py:301-306: the parameter is called `value`. -/
def meanLearnedSigmaStdParams (sigma : ℝ) : List (String × ℝ) := [("value", sigma)]

/-- `MeanLearnedSigmaStd.forward`, stats_op.py:309-312, reads the parameter `sigma`; `none` is the `AttributeError` when there is none. -/
noncomputable def meanLearnedSigmaStd (params : List (String × ℝ)) (epsilon : ℝ) (xs : List ℝ) : Option ℝ := do
  let sigma ← params.lookup "sigma"
  meanSigmaStdImpl epsilon xs sigma

/-- `AbsMaxL2.forward`, stats_op.py:224-228: the Euclidean norm of the channel maxima over the square root of their number (NaN for no channel). -/
noncomputable def absMaxL2 (xss : List (List ℝ)) : Option ℝ := do
  let perChannelMax ← xss.mapM absMax
  let out := Real.sqrt (perChannelMax.map fun m => m ^ 2).sum
  if perChannelMax.length = 0 then none else return out / Real.sqrt (perChannelMax.length : ℝ)

end Brevitas
