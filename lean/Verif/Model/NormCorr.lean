import Mathlib.Analysis.Real.Sqrt

/-!
# Re-estimating batch norm statistics

`norm_correction_mode`, `src/brevitas/graph/calibrate.py:356-385`, for one channel of one batch norm: the modules and channels are independent.
-/

namespace Brevitas.NormCorr

/-- The state of a batch norm that the mode reads or writes, for one channel. `old` are the buffers `old_running_mean` and `old_running_var`. -/
structure BatchNorm where
  mean : ℝ
  var : ℝ
  tracked : ℕ
  momentum : Option ℝ
  training : Bool
  old : Option (ℝ × ℝ)

/-- `torch.nn.modules.batchnorm._BatchNorm.forward`, the update of the statistics by a batch with mean `m` and (unbiased) variance `v`: in training
they move towards those of the batch by the momentum, or without momentum by one over the number of batches. -/
noncomputable def forward (B : BatchNorm) (m v : ℝ) : BatchNorm :=
  if B.training then
    let f := match B.momentum with
      | none => 1 / ((B.tracked + 1 : ℕ) : ℝ)
      | some f => f
    { B with mean := (1 - f) * B.mean + f * m, var := (1 - f) * B.var + f * v, tracked := B.tracked + 1 }
  else B

/-- `__enter__`, calibrate.py:365-373. `reset_running_stats` sets mean 0, variance 1 and no batches. -/
def enter (B : BatchNorm) : BatchNorm := ⟨0, 1, 0, none, true, some (B.mean, B.var)⟩

/-- `__exit__`, calibrate.py:375-385; `none` if there are no old statistics. -/
noncomputable def exit (B : BatchNorm) : Option BatchNorm :=
  B.old.map fun o =>
    let a := Real.sqrt (o.2 / B.var)
    let b := o.1 - a * B.mean
    { B with var := o.2 / a, mean := (o.1 - b) / a, old := none }

/-- `with norm_correction_mode(model): for x in batches: model(x)`, on the batch norm and the statistics of its inputs. -/
noncomputable def run (B : BatchNorm) (batches : List (ℝ × ℝ)) : Option BatchNorm :=
  exit (batches.foldl (fun B b => forward B b.1 b.2) (enter B))

end Brevitas.NormCorr
