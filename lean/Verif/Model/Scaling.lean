import Verif.Model.IntQuant
import Verif.Model.Stats
import Mathlib.Analysis.SpecialFunctions.Log.Base
import Mathlib.Analysis.SpecialFunctions.Pow.Real

/-!
# Scale factors (`src/brevitas/core/scaling`, `src/brevitas/core/restrict_val.py`)
-/

namespace Brevitas

section Generic

variable {K : Type*} [Field K] [LinearOrder K] [IsStrictOrderedRing K] [FloorRing K]

/-- `IntScaling.forward`, src/brevitas/core/scaling/int_scaling.py:20-24. -/
def intScaling (signed narrow : Bool) (bw : ℕ) : K :=
  if signed then -minInt signed narrow bw else maxInt signed narrow bw

/-- `PowerOfTwoIntScaling.forward`, src/brevitas/core/scaling/int_scaling.py:35-36. -/
def powerOfTwoIntScaling (signed : Bool) (bw : ℕ) : K := maxInt signed false bw + 1

/-- The optional lower bound of `_RestrictClampValue` and `_ClampValue`, src/brevitas/core/restrict_val.py:29-32 and
64-67: absent when `scaling_min_val` is `None` or 0. -/
def clampMinVal (scalingMinVal : Option K) (x : K) : K :=
  match scalingMinVal with
  | none => x
  | some m => if m = 0 then x else clampMin x m

/-- `_StatsScaling.forward` with `FloatRestrictValue` and no affine rescaling, src/brevitas/core/scaling/runtime.py:88-97
with src/brevitas/core/restrict_val.py:76-98 (initialisation is the identity and combination is division). This is the
instance of `statsScaling` below that needs no logarithm. -/
def statsScalingFp (scalingMinVal : Option K) (stats threshold : K) : K :=
  clampMinVal scalingMinVal (stats / threshold)

/-- `_ScaleShiftZeroPoint.forward`, src/brevitas/core/zero_point.py:54-60. -/
def scaleShiftZeroPoint (c : IntQuantCfg K) (quantizeZeroPoint : Bool) (zeroPoint scale : K) (bw : ℕ) : K :=
  let minInt := c.minInt bw
  if quantizeZeroPoint then c.toInt scale minInt bw zeroPoint
  else zeroPoint / scale + minInt

/-- `StatsFromParameterZeroPoint.forward`, src/brevitas/core/zero_point.py:84-86, with the statistics given. -/
def statsZeroPoint (c : IntQuantCfg K) (quantizeZeroPoint : Bool) (stats scale : K) (bw : ℕ) : K :=
  scaleShiftZeroPoint c quantizeZeroPoint (-stats) scale bw

/-- `RescalingIntQuant.forward`, src/brevitas/core/quant/int.py:151-160, for the elements that share one scale.
`scalingImpl` and `zeroPointImpl` are the sub-modules; either may raise (`none`), e.g. on an empty tensor. -/
def rescalingIntQuant (c : IntQuantCfg K) (bw : ℕ) (intThreshold : K)
    (scalingImpl : List K → K → Option K) (zeroPointImpl : List K → K → ℕ → Option K) (observerOnly : Bool)
    (xs : List K) : Option (List K × K × K × ℕ) := do
  let scale ← scalingImpl xs intThreshold
  let zeroPoint ← zeroPointImpl xs scale bw
  let y := if observerOnly then xs else xs.map fun x => c.forward scale zeroPoint bw x
  return (y, scale, zeroPoint, bw)

/-- A weight quantiser with scale from the maximum absolute value, float restriction and zero zero-point: the
composition that `Int8WeightPerTensorFloat`-like quantisers resolve to (src/brevitas/quant/base.py:88-99 and 163-175:
MaxStatsScaling, IntQuant/NarrowIntQuant; StatsFromParameterScaling, src/brevitas/core/scaling/runtime.py:55-60;
ZeroZeroPoint, src/brevitas/core/zero_point.py:31-42). -/
def absMaxWeightQuant (c : IntQuantCfg K) (bw : ℕ) (scalingMinVal : Option K) (xs : List K) :
    Option (List K × K × K × ℕ) :=
  rescalingIntQuant c bw (intScaling c.signed c.narrow bw)
    (fun xs thr => (absMax xs).map fun st => statsScalingFp scalingMinVal st thr) (fun _ _ _ => some 0) false xs

/-- The asymmetric weight quantiser: scale from `AbsMinMax`, quantised zero point from `NegativeMinOrZero`
(`ShiftedUint8WeightPerTensorFloat`, src/brevitas/quant/shifted_scaled_int.py:88-102, src/brevitas/quant/base.py:102-107 and 201-214). -/
def minMaxWeightQuant (c : IntQuantCfg K) (bw : ℕ) (scalingMinVal : Option K) (xs : List K) :
    Option (List K × K × K × ℕ) :=
  rescalingIntQuant c bw (intScaling c.signed c.narrow bw)
    (fun xs thr => (absMinMax xs).map fun st => statsScalingFp scalingMinVal st thr)
    (fun xs scale bw => (negativeMinOrZero xs).map fun st => statsZeroPoint c true st scale bw) false xs

end Generic

/-! ### Restrictions (need a logarithm) -/

noncomputable section

/-- The scale restrictions of src/brevitas/core/restrict_val.py:76-181; `int` and `powerOfTwo` carry their
float-to-int function. -/
inductive Restrict where
  | fp
  | logFp
  | int (floatToInt : ℝ → ℤ)
  | powerOfTwo (floatToInt : ℝ → ℤ)

/-- Values before `Restrict.forward`. `⊥` is the minus infinity that `torch.log2` returns for 0. -/
abbrev Raw := WithBot ℝ

/-- `torch.log2` on non-negative numbers (negative statistics do not occur: all statistics are absolute values). -/
def log2 (x : ℝ) : Raw := if x = 0 then ⊥ else (Real.logb 2 x : ℝ)

/-- `restrict_init_float` / `restrict_init_tensor` / `restrict_init_module` (restrict_val.py:81-88, 107-114, 134-141,
162-169). -/
def Restrict.init (r : Restrict) (x : ℝ) : Raw :=
  match r with
  | .fp => (x : ℝ)
  | .logFp => log2 x
  | .int _ => (x : ℝ)
  | .powerOfTwo _ => log2 x

/-- `combine_scale_threshold` (restrict_val.py:93-94, 119-120, 146-147, 174-175). The threshold is a positive integer, so
its logarithm is finite. -/
def Restrict.combine (r : Restrict) (x : Raw) (threshold : Raw) : Raw :=
  match x, threshold with
  | (x : ℝ), (t : ℝ) =>
    match r with
    | .fp => (x / t : ℝ)
    | .logFp => (x - t : ℝ)
    | .int _ => (x / t : ℝ)
    | .powerOfTwo _ => (x - t : ℝ)
  | _, _ => ⊥

/-- `2.0 ** x` (src/brevitas/core/function_wrapper/misc.py:22-40), with `2 ** -inf = 0`. -/
def pow2 : Raw → ℝ
  | ⊥ => 0
  | (x : ℝ) => (2 : ℝ) ^ x

/-- `forward` of the restrictions (restrict_val.py:97-98, 123-125, 150-152, 178-181). Rounding minus infinity gives minus
infinity. For `fp` and `int` the argument is always finite; the value at `⊥` is never used. -/
def Restrict.forward (r : Restrict) (x : Raw) : ℝ :=
  match r with
  | .fp => x.unbotD 0
  | .logFp => pow2 x
  | .int f => f (x.unbotD 0)
  | .powerOfTwo f => pow2 (x.map fun v => ((f v : ℤ) : ℝ))

/-- `_RestrictClampValue.forward`, restrict_val.py:39-42. -/
def restrictClamp (r : Restrict) (scalingMinVal : Option ℝ) (x : Raw) : ℝ :=
  clampMinVal scalingMinVal (r.forward x)

/-- `_StatsScaling.forward`, src/brevitas/core/scaling/runtime.py:88-97. Affine rescaling (lines 138-158) is not
modelled: it is disabled unless `scaling_impl_type` is `AFFINE_STATS`. -/
def statsScaling (r : Restrict) (scalingMinVal : Option ℝ) (stats threshold : ℝ) : ℝ :=
  let threshold := r.init threshold
  let stats := r.init stats
  restrictClamp r scalingMinVal (r.combine stats threshold)

/-- `ConstScaling.forward`, src/brevitas/core/scaling/standalone.py:70-89: `value` is the raw stored value. -/
def constScaling (r : Restrict) (scalingMinVal : Option ℝ) (value : Raw) (threshold : ℝ) : ℝ :=
  let threshold := restrictClamp r scalingMinVal (r.init threshold)
  restrictClamp r scalingMinVal value / threshold

/-- `ParameterScaling.forward`, standalone.py:160-167; `value` is whatever the optimiser wrote. -/
def parameterScaling (r : Restrict) (scalingMinVal : Option ℝ) (value : Raw) (threshold : ℝ) : ℝ :=
  let threshold := restrictClamp r scalingMinVal (r.init threshold)
  |restrictClamp r scalingMinVal value| / threshold

/-- `RuntimeDynamicGroupStatsScaling.forward`, src/brevitas/core/scaling/runtime.py:192-202: unlike `statsScaling` it
applies the restriction directly to `stats / threshold`, without `restrict_init_module`. -/
def dynamicGroupScaling (r : Restrict) (scalingMinVal : Option ℝ) (stats threshold : ℝ) : ℝ :=
  restrictClamp r scalingMinVal ((stats / threshold : ℝ) : Raw)

end

end Brevitas
