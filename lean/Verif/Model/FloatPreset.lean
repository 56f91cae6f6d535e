import Verif.Model.Float
import Verif.Model.Preset

/-!
# The shipped minifloat weight quantisers

`src/brevitas/quant/experimental/float_base.py`, `quant/experimental/float_quant_ocp.py`, `quant/experimental/float_quant_fnuz.py` (the settings), `src/brevitas/core/quant/float.py` (what is
made of them) and the tests of `src/brevitas/proxy/float_parameter_quant.py:65-85` that recognise a format. A quantiser is the record of its settings; keyword arguments of a layer override
them. `none` is an exception. Weights are finite; quantised values may be infinite or NaN. Not modelled: groups (`MxQuant.lean`), scales by MSE, activations (the same formats; the lifecycle
of their scales is in `Runtime.lean`), and what training does.
-/

namespace Brevitas

namespace FloatPreset

open NdTensor ChannelScale Preset

variable {K : Type*} [Field K] [LinearOrder K] [IsStrictOrderedRing K] [FloorRing K]

/-- The mixin that fixes bias and special codes: none of them (float_base.py), `FpOCPMixin` (float_quant_ocp.py:18-51) or `FpFNUZMixin` (float_quant_fnuz.py:17-22). -/
inductive Standard where
  | plain | ocp | fnuz
  deriving DecidableEq

/-- The settings of a minifloat weight quantiser. `scaled`: is `ScaledFloatWeightBase` (float_base.py:38-42), hence `WeightQuantSolver`, among the bases? `bias`: an explicit `exponent_bias`. -/
structure Settings (K : Type*) where
  standard : Standard
  scaled : Bool
  bitWidth : ℕ
  E : ℕ
  M : ℕ
  bias : Option ℤ
  signed : Bool
  saturating : Bool
  round : RoundType
  per : PerOutput
  minVal : Option K

/-- `exponent_bias`: float_base.py:25-27 (shared by the OCP classes) and float_quant_fnuz.py:20-22. -/
def Settings.exponentBias (s : Settings K) : ℤ :=
  match s.bias with
  | some b => b
  | none =>
    match s.standard with
    | .plain => 2 ^ (s.E - 1) - 1
    | .ocp => 2 ^ (s.E - 1) - 1
    | .fnuz => 2 ^ (s.E - 1)

/-- `inf_values` of `FpOCPMixin`, float_quant_ocp.py:21-29; absent from the others. -/
def Settings.infValues (s : Settings K) : Option (List (List Bool)) :=
  match s.standard with
  | .ocp =>
    if s.bitWidth = 8 then
      if s.M = 3 ∧ s.E = 4 then none
      else if s.M = 2 ∧ s.E = 5 then some [[false, false]]
      else none
    else none
  | _ => none

/-- `nan_values` of `FpOCPMixin`, float_quant_ocp.py:31-39; absent from the others. -/
def Settings.nanValues (s : Settings K) : Option (List (List Bool)) :=
  match s.standard with
  | .ocp =>
    if s.bitWidth = 8 then
      if s.M = 3 ∧ s.E = 4 then some [[true, true, true]]
      else if s.M = 2 ∧ s.E = 5 then some [[false, true], [true, true], [true, false]]
      else none
    else none
  | _ => none

/-- `max_available_float` of `FpOCPMixin`, float_quant_ocp.py:41-51 (`none` outside: it raises); absent from the others. -/
def Settings.maxAvailable (s : Settings K) : Option (Option K) :=
  match s.standard with
  | .ocp => (getMaxAvailableFloat s.E s.M s.exponentBias s.nanValues s.infValues s.saturating).map some
  | _ => some none

/-- The format that the settings describe: the arguments of `FloatQuant` and `FloatClamp`, with the checks of the constructor (float.py:34-46). -/
def Settings.cfg (s : Settings K) (eps : K) : Option (FloatCfg K) :=
  (solveFloatToInt s.round).bind fun f => s.maxAvailable.bind fun m =>
    let c : FloatCfg K := ⟨s.E, s.M, s.exponentBias, s.signed, s.saturating, s.infValues, s.nanValues, m, f, eps⟩
    if c.valid s.bitWidth then some c else none

/-- A quantised weight: the arguments of `create_quant_tensor`, float_parameter_quant.py:101-114; the zero point is 0 (float.py:57-58). -/
structure FloatWeight (K : Type*) where
  value : NdTensor (XF K)
  scale : NdTensor K
  E : ℕ
  M : ℕ
  bias : ℤ
  saturating : Bool
  infValues : Option (List (List Bool))
  nanValues : Option (List (List Bool))
  signed : Bool

/-- Does the clamp return? `FloatClamp.inf_nan_clamp` raises without codes for infinity or NaN (clamp.py:132-134). -/
def clampReturns (c : FloatCfg K) : Bool := c.saturating || c.infValues.isSome || c.nanValues.isSome

/-- `FloatQuant.forward` (float.py:83-100) on a tensor with a scale that broadcasts to it. -/
def quantTensor (c : FloatCfg K) (scale w : NdTensor K) : Option (NdTensor (XF K)) :=
  if clampReturns c then (bcShape w.shape scale.shape).map fun shape =>
    ⟨shape, fun idx => (c.forwardX (scale.data (bcIndex scale.shape idx)) (.fin (w.data (bcIndex w.shape idx)))).getD .nan⟩
  else none

/-- `quant_weight()` before training: the scale is the largest absolute value divided by the largest value of the format (float_base.py:38-42; float.py:84-89; `FloatScaling.forward`,
core/scaling/float_scaling.py:35-42; `StatsFromParameterScaling.forward`, core/scaling/runtime.py:55-60). Without a solver nothing provides `input_view_impl`, which `FloatQuant` requires
(float.py:27): resolving the quantiser raises. -/
def weightQuant (s : Settings K) (eps : K) (layers : List (ChannelScale.Layer K)) (w : NdTensor K) : Option (FloatWeight K) :=
  if s.scaled then
    (s.cfg eps).bind fun c => (statistic .max s.per layers).bind fun st =>
      let scale := st.map fun v => statsScalingFp s.minVal v c.maxValue
      (quantTensor c scale w).map fun y => ⟨y, scale, c.E, c.M, c.bias, c.saturating, c.infValues, c.nanValues, c.signed⟩
  else none

/-- The settings common to all: float_base.py:17-23, 38-42. -/
def base (std : Standard) (scaled : Bool) (bitWidth E M : ℕ) (per : PerOutput) : Settings K :=
  ⟨std, scaled, bitWidth, E, M, none, true, true, .round, per, some (1 / 10 ^ 10)⟩

/-- `Fp8e4m3OCPWeightPerTensorFloat` and `Fp8e4m3OCPWeightPerChannelFloat`, float_quant_ocp.py:68-72, 82-86, 143-154, with `Fp8e4m3Mixin` (float_base.py:53-57). -/
def fp8e4m3OCPWeight (per : PerOutput) : Settings K := base .ocp true 8 4 3 per

/-- `Fp8e5m2OCPWeightPerTensorFloat` and `Fp8e5m2OCPWeightPerChannelFloat`, float_quant_ocp.py:68-72, 82-86, 199-210, with `Fp8e5m2Mixin` (float_base.py:60-64). -/
def fp8e5m2OCPWeight (per : PerOutput) : Settings K := base .ocp true 8 5 2 per

/-- `Fp8e4m3FNUZWeightPerTensorFloat` and `Fp8e4m3FNUZWeightPerChannelFloat`, float_quant_fnuz.py:39-43, 53-57, 114-125. -/
def fp8e4m3FNUZWeight (per : PerOutput) : Settings K := base .fnuz true 8 4 3 per

/-- `Fp8e5m2FNUZWeightPerTensorFloat` and `Fp8e5m2FNUZWeightPerChannelFloat`, float_quant_fnuz.py:39-43, 53-57, 170-181. -/
def fp8e5m2FNUZWeight (per : PerOutput) : Settings K := base .fnuz true 8 5 2 per

/-- `Fp8e4m3OCPWeight`, float_quant_ocp.py:54-58, 129-133: the format without scaling. -/
def fp8e4m3OCPUnscaled : Settings K := base .ocp false 8 4 3 .tensor

/-- `is_ocp`, float_parameter_quant.py:65-74 (and float_runtime_quant.py:47-56). -/
def FloatWeight.isOcp (q : FloatWeight K) : Bool :=
  let isE4m3 := q.M == 3 && q.E == 4
  let isOcpE4m3 := isE4m3 && q.infValues == none && q.nanValues == some [[true, true, true]]
  let isE5m2 := q.M == 2 && q.E == 5
  let isOcpE5m2 := isE5m2 && q.infValues == some [[false, false]] && q.nanValues == some [[false, true], [true, true], [true, false]]
  isOcpE4m3 || isOcpE5m2

/-- `is_fnuz`, float_parameter_quant.py:76-85 (and float_runtime_quant.py:58-67). -/
def FloatWeight.isFnuz (q : FloatWeight K) : Bool :=
  let isE4m3 := q.M == 3 && q.E == 4
  let isFnuzE4m3 := isE4m3 && q.infValues == none && q.nanValues == none && q.bias == 8
  let isE5m2 := q.M == 2 && q.E == 5
  let isFnuzE5m2 := isE5m2 && q.infValues == none && q.nanValues == none && q.bias == 16
  isFnuzE4m3 || isFnuzE5m2

end FloatPreset

end Brevitas
