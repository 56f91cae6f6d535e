import Verif.Model.ChannelScale
import Verif.Model.Runtime

/-!
# Learned factors on statistics: `src/brevitas/core/scaling/runtime.py`, the batch-quant activations of `src/brevitas/quant/scaled_int.py`

`_StatsScaling` with affine rescaling, and `RuntimeStatsScaling` over histories. One scale for the tensor, as in the quantisers that the library defines. Gradients and data
types are not modelled.
-/

namespace Brevitas.AffineScale

/-- Exceptions. -/
inductive Err where
  | runtimeError
  | typeError
deriving DecidableEq, Repr

/-- `_StatsScaling.__init__`, runtime.py:75-82, with `_AffineRescaling.__init__`, 147-152: the learned factor if there is one. `ParameterWrapper(torch.zeros(…))` registers a
tensor that is no `Parameter` (core/utils.py:78-80), which `register_parameter` refuses; without a shift the added constant is 0. -/
def construct (affineRescaling affineShiftScale : Bool) : Except Err (Option ℝ) :=
  if affineShiftScale && !affineRescaling then .error .runtimeError
  else if affineRescaling then
    if affineShiftScale then .error .typeError else .ok (some 1)
  else .ok none

/-- The arguments that the solver gives, quant/solver/common.py:116-124: rescaling for `AFFINE_STATS` and not for `STATS`. -/
def affineRescalingOf (affineStats : Bool) : Bool := affineStats

/-- `_AffineRescaling.forward`, runtime.py:155-158, with the constant 0. `none` where the result is no finite number: that is so for `-inf`, the logarithm of 0. -/
noncomputable def rescale (w : ℝ) : Raw → Option ℝ
  | ⊥ => none
  | (x : ℝ) => some |x * w + 0|

/-- `_StatsScaling.forward`, runtime.py:88-97. -/
noncomputable def scaling (r : Restrict) (scalingMinVal : Option ℝ) (factor : Option ℝ) (stats threshold : ℝ) : Option ℝ :=
  let threshold := r.init threshold
  let stats := r.init stats
  let stats := r.combine stats threshold
  match factor with
  | none => some (restrictClamp r scalingMinVal stats)
  | some w => (rescale w stats).map fun (y : ℝ) => restrictClamp r scalingMinVal (y : Raw)

/-- `scaling_stats_permute_dims` of `BatchQuantStatsScaling1d` and `2d`, quant/base.py:127, 138. -/
def batchDims (twoD : Bool) : List ℕ := if twoD then [1, 0, 2, 3] else [1, 0, 2]

/-- The statistic of a batch: `OVER_OUTPUT_CHANNELS` (quant/solver/common.py:203-205) after the permutation, then `AbsMaxAve` (core/stats/stats_op.py:212-213). -/
noncomputable def batchStat (twoD : Bool) (t : NdTensor ℝ) : Option ℝ := do
  let v ← ChannelScale.overOutputChannelView (some (batchDims twoD)) t
  absMaxAve ((List.range (v.shape.getD 0 0)).map (ChannelScale.row v))

/-- The quantisers `Uint8ActPerTensorFloatBatchQuant1d/2d` and `Int8ActPerTensorFloatBatchQuant1d/2d`, quant/scaled_int.py:316-397, with their state: the running statistic,
the learned factor and the mode. -/
structure Act where
  twoD : Bool
  signed : Bool
  run : RunStats
  weight : ℝ
  training : Bool

/-- After construction: `AFFINE_STATS` without shift. -/
def Act.new (twoD signed : Bool) : Act := ⟨twoD, signed, .init, 1, true⟩

/-- What the quantiser returns: values, scale, zero point and bit width. -/
structure Result where
  value : NdTensor ℝ
  scale : ℝ
  zeroPoint : ℝ
  bitWidth : ℕ

/-- `IntQuant` of the quantisers: not narrow, rounding to nearest, quant/base.py:168-198. -/
noncomputable def Act.cfg (a : Act) : IntQuantCfg ℝ := ⟨a.signed, false, torchRound⟩

/-- `RuntimeStatsScaling.forward`, runtime.py:132-134, with `_RuntimeStats.forward`, core/stats/stats_wrapper.py:57-70, without momentum: the new running statistic and the one
used. In eval mode the input is not looked at. -/
noncomputable def Act.stats (a : Act) (x : NdTensor ℝ) : Option (RunStats × ℝ) :=
  if a.training then (batchStat a.twoD x).map fun s => runStatsStep none a.run true s
  else some (runStatsStep none a.run false 0)

/-- `RescalingIntQuant.forward`, core/quant/int.py:150-160, with 8 bits, a zero point of 0, `scaling_min_val = 1e-10` and the restriction to floats. -/
noncomputable def Act.forward (a : Act) (x : NdTensor ℝ) : Option (Act × Result) := do
  let s ← a.stats x
  let scale ← scaling .fp (some (1 / 10 ^ 10)) (some a.weight) s.2 (intScaling a.signed false 8)
  some ({ a with run := s.1 }, ⟨⟨x.shape, fun i => a.cfg.forward scale 0 8 (x.data i)⟩, scale, 0, 8⟩)

/-- What can happen to the quantiser. -/
inductive Op where
  | train (b : Bool)
  /-- a step of an optimiser -/
  | setWeight (w : ℝ)
  | forward (x : NdTensor ℝ)

/-- One operation; after an exception the quantiser is as it was. -/
noncomputable def Act.step (a : Act) : Op → Act
  | .train b => { a with training := b }
  | .setWeight w => { a with weight := w }
  | .forward x => ((a.forward x).map Prod.fst).getD a

/-- A history. -/
noncomputable def Act.after (a : Act) : List Op → Act
  | [] => a
  | o :: os => (a.step o).after os

/-- `_AffineRescaling._load_from_state_dict`, runtime.py:160-170: the factor afterwards and whether it is reported as missing. -/
def loadFactor (w : ℝ) (saved : Option ℝ) (ignoreMissingKeys : Bool) : ℝ × Bool :=
  match saved with
  | some v => (v, false)
  | none => (w, !ignoreMissingKeys)

end Brevitas.AffineScale
