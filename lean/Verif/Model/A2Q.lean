import Verif.Model.Scaling

/-!
# Accumulator-aware weight quantisers

`src/brevitas/core/scaling/pre_scaling.py`, `src/brevitas/core/zero_point.py:301-328`,
`src/brevitas/core/quant/int.py:228-265`, wired together by `src/brevitas/quant/base.py:394-488`. Everything is per
output channel: the list holds the weights of one channel.
-/

namespace Brevitas

variable {K : Type*} [Field K] [LinearOrder K] [IsStrictOrderedRing K] [FloorRing K]

/-- `L1Norm.forward` on one channel, src/brevitas/core/stats/stats_op.py:413-418. -/
def l1Norm (ws : List K) : K := (ws.map fun w => |w|).sum

/-- `ParameterPreScalingWeightNorm.forward`, pre_scaling.py:95-102: `(s * d_w) / g`; `none` is a division by zero. -/
def weightNormPreScaling (dw s g : K) : Option K :=
  let g := |g|
  if g = 0 then none else some (s * dw / g)

/-- `AccumulatorAwareParameterPreScaling.inner_forward`, pre_scaling.py:184-194, after the statistics: `dw` is the norm of
the weights, `s` the post-clipping scale, `g` the learned norm (no restriction is configured by
`AccumulatorAwarePerChannelPreNorm`, base.py:349-366), `T` the norm budget. `none` is a division by zero (the
result would be an infinity or NaN). -/
def a2qPreScaling (preScalingMinVal : Option K) (T dw s g : K) : Option K :=
  let g := |g|
  if s = 0 then none else
  let g := min (g / s) T
  if g = 0 then none else
  some (clampMinVal preScalingMinVal (dw / g))

/-- `AccumulatorAwareParameterPreScaling.calc_max_l1_norm`, pre_scaling.py:177-181. -/
def a2qMaxNorm (P N : ℕ) (inputIsSigned : Bool) : K := upperBoundL1Norm P N inputIsSigned

/-- `AccumulatorAwareZeroCenterParameterPreScaling.calc_max_l1_norm`, pre_scaling.py:255-261; the input sign is not used. -/
def a2qPlusMaxNorm (P N : ℕ) : K := (2 ^ (P : ℤ) - 2) / (2 ^ (N : ℤ) - 1)

/-- `PreZeroCenterZeroPoint.get_zero_center`, zero_point.py:315-319. -/
def zeroCenter (ws : List K) : K := -(ws.sum / ws.length)

/-- The decoupled quantiser configuration of `WeightNormPerChannelFloatDecoupled` / `AccumulatorAwareWeightQuant`
(base.py:413-444, 468-469): signed, narrow range, round to zero. -/
def a2qCfg : IntQuantCfg K := ⟨true, true, roundToZero⟩

/-- `DecoupledRescalingIntQuantWithInput.forward` (int.py:252-265) as configured by `AccumulatorAwareWeightQuant`, on one
channel: returns the quantised weights and their scale. `int_threshold` is the constant 1 (base.py:433), both zero points
are 0. `none`: a division by zero occurs (see `a2qPreScaling`; also a zero pre-scale, i.e. an all-zero channel without
minimum value). -/
def a2qQuant (b P N : ℕ) (inputIsSigned : Bool) (preScalingMinVal : Option K) (s g : K) (ws : List K) :
    Option (List K × K) := do
  let preThreshold ← a2qPreScaling preScalingMinVal (a2qMaxNorm P N inputIsSigned) (l1Norm ws) s g
  let preScale := preThreshold / 1
  if preScale = 0 then none else
  some (ws.map fun w => a2qCfg.decoupledForward preScale 0 s 0 b w, s)

/-- The same for `AccumulatorAwareZeroCenterWeightQuant` (base.py:476-488): the norm is taken over the centred weights
(pre_scaling.py:264-271) and the pre-clipping zero point is the centre divided by the pre-scale (zero_point.py:321-328). -/
def a2qPlusQuant (b P N : ℕ) (preScalingMinVal : Option K) (s g : K) (ws : List K) : Option (List K × K) := do
  let z := zeroCenter ws
  let preThreshold ← a2qPreScaling preScalingMinVal (a2qPlusMaxNorm P N) (l1Norm (ws.map fun w => w + z)) s g
  let preScale := preThreshold / 1
  if preScale = 0 then none else
  let preZeroPoint := z / preScale
  some (ws.map fun w => a2qCfg.decoupledForward preScale preZeroPoint s 0 b w, s)

end Brevitas
