import Verif.Model.A2Q
import Verif.Model.IntQuant
import Mathlib.Analysis.SpecialFunctions.Pow.Real

/-!
# Quantisers with normalised weights

`WeightNormPerChannelFloatDecoupled` (`src/brevitas/quant/base.py`): `DecoupledRescalingIntQuant` with `ParameterPreScalingWeightNorm`, for the weights of one output channel.
-/

namespace Brevitas.WeightNorm

open Brevitas

/-- `L1Norm` and `L2Norm`, src/brevitas/core/stats/stats_op.py:403-436. -/
inductive Norm
  | l1
  | l2

/-- Their `forward` methods over one channel, stats_op.py:418 and 436. -/
noncomputable def Norm.forward : Norm → List ℝ → ℝ
  | .l1, ws => l1Norm ws
  | .l2, ws => √((ws.map fun w => w ^ 2).sum)

/-- `DecoupledRescalingIntQuant.forward`, src/brevitas/core/quant/int.py:185-197, as `WeightNormPerChannelFloatDecoupled` (base.py:394-444) sets it up: `int_scaling_impl` is 1, zero
points are 0, signed and narrow, rounding to nearest; `PerChannelPreNorm` (base.py:350-357) passes neither a restriction nor a lower bound of the pre-scale on. `none` is a division by
zero, which makes the weights NaN. -/
noncomputable def quant (norm : Norm) (bw : ℕ) (s g : ℝ) (ws : List ℝ) : Option (List ℝ) :=
  match weightNormPreScaling (norm.forward ws) s g with
  | none => none
  | some preThreshold =>
    let preScale := preThreshold / 1
    if preScale = 0 then none else some (ws.map fun w => IntQuantCfg.decoupledForward ⟨true, true, torchRound⟩ preScale 0 s 0 bw w)

end Brevitas.WeightNorm
