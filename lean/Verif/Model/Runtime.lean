import Verif.Model.Scaling

/-!
# Stateful quantiser components

Each module is a state machine: one `step` per call, returning the new state and the output. Tensors of statistics are
modelled per element (every update is element-wise).
-/

namespace Brevitas

/-! ### Delay (`src/brevitas/core/quant/delay.py`) -/

/-- `DelayWrapper.__init__`, delay.py:45-50: `none` is `_NoDelay`, `some n` a `_DelayQuant` with `n` steps left. -/
def delayInit (quantDelaySteps : Option ℤ) : Option ℤ :=
  match quantDelaySteps with
  | none => none
  | some n => if n ≤ 0 then none else some n

/-- `DelayWrapper.forward`, delay.py:13-15, 25-30, 53-54. -/
def delayStep {α : Type*} (st : Option ℤ) (x y : α) : Option ℤ × α :=
  match st with
  | none => (none, y)
  | some n => if n > 0 then (some (n - 1), x) else (some n, y)

/-- A sequence of forward calls with inputs `x` and quantised values `y`; returns the outputs. -/
def delayRun {α : Type*} (st : Option ℤ) : List (α × α) → List α
  | [] => []
  | (x, y) :: rest => (delayStep st x y).2 :: delayRun (delayStep st x y).1 rest

/-! ### Momentum update (`src/brevitas/core/utils.py:26-38`) -/

/-- `inplace_momentum_update`. -/
noncomputable def momentumUpdate (tensor update : ℝ) (momentum : Option ℝ) (counter newCounter : ℕ) : ℝ :=
  match momentum with
  | none => tensor * (counter / newCounter) + update / newCounter
  | some m => tensor * (1 - m) + m * update

/-! ### Learned scale initialised from runtime statistics (`src/brevitas/core/scaling/standalone.py:262-423`) -/

noncomputable section

/-- Constructor arguments of `ParameterFromRuntimeStatsScaling`, standalone.py:308-335. -/
structure RtsCfg where
  collectStatsSteps : ℕ
  momentum : Option ℝ
  restrict : Restrict
  scalingMinVal : Option ℝ

/-- Mutable state: `counter`, `buffer`, `value`. The buffer is rewritten in place into the log domain when statistics
collection ends, hence `Raw`. -/
structure RtsState where
  counter : ℕ
  buffer : Raw
  value : Raw

/-- State after `__init__`, standalone.py:322-328. -/
def RtsState.init : RtsState := ⟨0, ((1 : ℝ) : Raw), ((1 : ℝ) : Raw)⟩

/-- One call of the module. `stats` is the statistic of the input of this call (the statistic module and the view are
pure), `training` and `localLoss` the flags of the module at that time. `write` is an optimiser step that overwrites the
learned value. -/
inductive RtsEvent where
  | call (training localLoss : Bool) (stats threshold : ℝ)
  | write (v : ℝ)

/-- Product of two raw values (`mul_`); minus infinity absorbs. -/
def rawMul : Raw → Raw → Raw
  | (a : ℝ), (b : ℝ) => (a * b : ℝ)
  | _, _ => ⊥

/-- `abs_binary_sign_grad(clamp_scaling(restrict_scaling(combine(value, preprocess(threshold)))))`, the result of the
second phase (standalone.py:363-366, 368-370, 384-386). -/
def rtsScale (c : RtsCfg) (value : Raw) (threshold : ℝ) : ℝ :=
  |clampMinVal c.scalingMinVal (c.restrict.forward (c.restrict.combine value (c.restrict.init threshold)))|

/-- In place restriction of the buffer (standalone.py:361); the buffer is finite at that point. -/
def rtsPre (c : RtsCfg) (buffer : Raw) : Raw :=
  match buffer with
  | ⊥ => ⊥
  | (b : ℝ) => c.restrict.init b

/-- `training_forward`, standalone.py:338-370. -/
def rtsTrain (c : RtsCfg) (st : RtsState) (localLoss : Bool) (stats threshold : ℝ) : RtsState × ℝ :=
  if st.counter < c.collectStatsSteps then
    let clamped := clampMinVal c.scalingMinVal stats
    let newCounter := st.counter + 1
    if localLoss then (st, |clamped / threshold|)
    else
      let buffer := if st.counter = 0 then st.buffer.map (fun b => b * clamped)
        else st.buffer.map (fun b => momentumUpdate b clamped c.momentum st.counter newCounter)
      ({ st with counter := newCounter, buffer := buffer }, |clamped / threshold|)
  else if st.counter = c.collectStatsSteps then
    let buffer := rtsPre c st.buffer
    let value := rawMul st.value buffer
    ({ counter := st.counter + 1, buffer := buffer, value := value }, rtsScale c value threshold)
  else (st, rtsScale c st.value threshold)

/-- `forward` in eval mode, standalone.py:380-386. -/
def rtsEval (c : RtsCfg) (st : RtsState) (threshold : ℝ) : ℝ :=
  if st.counter ≤ c.collectStatsSteps then
    |clampMinVal c.scalingMinVal (c.restrict.forward (rtsPre c (st.buffer.map (fun b => b / threshold))))|
  else rtsScale c st.value threshold

/-- `forward`, standalone.py:373-387; an optimiser write returns no scale. -/
def rtsStep (c : RtsCfg) (st : RtsState) : RtsEvent → RtsState × Option ℝ
  | .call training localLoss stats threshold =>
    if training then
      let r := rtsTrain c st localLoss stats threshold
      (r.1, some r.2)
    else (st, some (rtsEval c st threshold))
  | .write v => ({ st with value := (v : ℝ) }, none)

/-- State after a history. -/
def rtsRun (c : RtsCfg) (st : RtsState) (h : List RtsEvent) : RtsState :=
  h.foldl (fun s e => (rtsStep c s e).1) st

/-- `state_dict`, standalone.py:389-400: the content of the `value` key, or `none` when the key is absent. The buffer is
never saved. -/
def rtsStateDict (c : RtsCfg) (fullStateDict : Bool) (st : RtsState) : Option Raw :=
  if st.counter = 0 ∧ fullStateDict = false then none
  else if st.counter ≤ c.collectStatsSteps then some (rtsPre c st.buffer)
  else some st.value

/-- `_load_from_state_dict`, standalone.py:402-423: the new state, and whether `value` is reported as a missing key (which
makes a strict load raise). -/
def rtsLoad (c : RtsCfg) (ignoreMissingKeys : Bool) (st : RtsState) (saved : Option Raw) : RtsState × Bool :=
  match saved with
  | some v => ({ st with value := v, counter := c.collectStatsSteps + 1 }, false)
  | none => (st, !ignoreMissingKeys)

/-! ### Zero point from runtime statistics (`src/brevitas/core/zero_point.py:89-186`) -/

/-- Constructor arguments of `ParameterFromRuntimeZeroPoint`. -/
structure RtzCfg where
  collectStatsSteps : ℕ
  momentum : Option ℝ
  quant : IntQuantCfg ℝ
  quantizeZeroPoint : Bool

/-- `counter`, `buffer`, `value`. -/
structure RtzState where
  counter : ℕ
  buffer : ℝ
  value : ℝ

/-- State after `__init__`, zero_point.py:106-113. -/
def RtzState.init : RtzState := ⟨0, 0, 0⟩

/-- `training_forward`, zero_point.py:119-141. -/
def rtzTrain (c : RtzCfg) (st : RtzState) (localLoss : Bool) (stats : ℝ) : RtzState × ℝ :=
  if st.counter < c.collectStatsSteps then
    if localLoss then (st, stats)
    else
      let newCounter := st.counter + 1
      let buffer := if st.counter = 0 then st.buffer + stats
        else momentumUpdate st.buffer stats c.momentum st.counter newCounter
      ({ st with counter := newCounter, buffer := buffer }, stats)
  else if st.counter = c.collectStatsSteps then
    let value := st.value + st.buffer
    ({ st with counter := st.counter + 1, value := value }, value)
  else (st, st.value)

/-- `forward`, zero_point.py:144-154. -/
def rtzStep (c : RtzCfg) (st : RtzState) (training localLoss : Bool) (stats scale : ℝ) (bw : ℕ) : RtzState × ℝ :=
  let r := if training then rtzTrain c st localLoss stats
    else if st.counter ≤ c.collectStatsSteps then (st, st.buffer) else (st, st.value)
  (r.1, scaleShiftZeroPoint c.quant c.quantizeZeroPoint |r.2| scale bw)

/-- State after a history of `(training, localLoss, stats)` calls of the zero point module (zero_point.py:144-154; scale
and bit width do not influence the state). -/
def rtzRun (c : RtzCfg) (st : RtzState) (h : List (Bool × Bool × ℝ)) : RtzState :=
  h.foldl (fun s e => (rtzStep c s e.1 e.2.1 e.2.2 1 0).1) st

/-- `state_dict`, zero_point.py:156-167. -/
def rtzStateDict (c : RtzCfg) (st : RtzState) : Option ℝ :=
  if st.counter = 0 then none
  else if st.counter ≤ c.collectStatsSteps then some st.buffer
  else some st.value

/-- `_load_from_state_dict`, zero_point.py:169-186. -/
def rtzLoad (c : RtzCfg) (ignoreMissingKeys : Bool) (st : RtzState) (saved : Option ℝ) : RtzState × Bool :=
  match saved with
  | some v => ({ st with value := v, counter := c.collectStatsSteps + 1 }, false)
  | none => (st, !ignoreMissingKeys)

/-! ### Learned scale initialised from parameter statistics (standalone.py:182-259) -/

/-- `init_done` and `value` of `ParameterFromStatsFromParameterScaling`. -/
structure PfsState where
  initDone : Bool
  value : Raw

/-- State after `__init__`, standalone.py:209-213. -/
def PfsState.init : PfsState := ⟨false, ((1 : ℝ) : Raw)⟩

/-- `forward`, standalone.py:216-239; `stats` is the statistic of the tracked parameters at the time of the call. -/
def pfsStep (r : Restrict) (scalingMinVal : Option ℝ) (st : PfsState) (localLoss : Bool) (stats threshold : ℝ) :
    PfsState × ℝ :=
  if st.initDone then (st, |restrictClamp r scalingMinVal (r.combine st.value (r.init threshold))|)
  else if localLoss then (st, statsScaling r scalingMinVal stats threshold)
  else
    let value := rawMul st.value (r.init stats)
    ({ initDone := true, value := value }, |restrictClamp r scalingMinVal (r.combine value (r.init threshold))|)

/-- `state_dict`, standalone.py:241-247. -/
def pfsStateDict (fullStateDict : Bool) (st : PfsState) : Option Raw :=
  if st.initDone = false ∧ fullStateDict = false then none else some st.value

/-- `_load_from_state_dict`, standalone.py:249-259. -/
def pfsLoad (ignoreMissingKeys : Bool) (st : PfsState) (saved : Option Raw) : PfsState × Bool :=
  match saved with
  | some v => ({ value := v, initDone := true }, false)
  | none => (st, !ignoreMissingKeys)

/-! ### Running statistics (`src/brevitas/core/stats/stats_wrapper.py:37-84`) -/

/-- `counter` and `running_stats` of `_RuntimeStats`. -/
structure RunStats where
  counter : ℕ
  running : ℝ

/-- State after `__init__`, stats_wrapper.py:49-54. -/
def RunStats.init : RunStats := ⟨0, 1⟩

/-- `forward`, stats_wrapper.py:57-70. -/
def runStatsStep (momentum : Option ℝ) (st : RunStats) (training : Bool) (stats : ℝ) : RunStats × ℝ :=
  if training then
    let newCounter := st.counter + 1
    let running := if st.counter = 0 then st.running * stats
      else momentumUpdate st.running stats momentum st.counter newCounter
    (⟨newCounter, running⟩, stats)
  else (st, st.running)

/-- State after a history of `(training, stats)` calls. -/
def runStatsRun (momentum : Option ℝ) (st : RunStats) (h : List (Bool × ℝ)) : RunStats :=
  h.foldl (fun s e => (runStatsStep momentum s e.1 e.2).1) st

/-- `state_dict` saves the `running_stats` buffer, loading overwrites it; the counter is a plain attribute and is not
part of the state dict (stats_wrapper.py:49, 53-54, 72-83). -/
def runStatsLoad (st : RunStats) (saved : ℝ) : RunStats := { st with running := saved }

end

/-! ### Learned bit widths (`src/brevitas/core/bit_width`) -/

section BitWidth
variable {K : Type*} [Field K] [LinearOrder K] [IsStrictOrderedRing K] [FloorRing K]

/-- `MIN_INT_BIT_WIDTH`, src/brevitas/core/bit_width/parameter.py:17. -/
def minIntBitWidth : ℤ := 2

/-- `BitWidthParameter.__init__`, src/brevitas/core/bit_width/parameter.py:52-86, for integer arguments: `none` when it
raises, otherwise `(bit_width_offset, bit_width_base)`. -/
def bitWidthParameterInit (bitWidth minBitWidth : ℤ) : Option (K × ℤ) :=
  if bitWidth < minIntBitWidth then none
  else if minBitWidth < minIntBitWidth then none
  else if bitWidth < minBitWidth then none
  else some (((bitWidth - minBitWidth : ℤ) : K), minBitWidth)

/-- `BitWidthParameter.forward`, parameter.py:89-92, with the default restriction (round). -/
def bitWidthParameterForward (offset : K) (base : ℤ) : K := (torchRound (|offset| + (base : K)) : ℤ)

/-- The part of `BitWidthParameter._load_from_state_dict` that converts a constant bit width saved by `BitWidthConst`
into an offset, parameter.py:99-103. -/
def bitWidthParameterLoadConst (bitWidth : K) (base : ℤ) : K := bitWidth - base

/-- `RemoveBitwidthParameter.__init__`, parameter.py:127-134. -/
def removeBitWidthInit (bitWidthToRemove : ℤ) (removeZeroBitWidth : K) : Option K :=
  if bitWidthToRemove < 0 then none
  else if bitWidthToRemove = 0 then some (1 / removeZeroBitWidth)
  else some (1 / (bitWidthToRemove : K))

/-- `RemoveBitwidthParameter.forward`, parameter.py:139-141. -/
def removeBitWidthForward (coeff nonZeroEpsilon : K) : K := 1 / (nonZeroEpsilon + |coeff|)

/-- `MsbClampBitWidth.forward`, src/brevitas/core/bit_width/const.py:117-122. -/
def msbClampBitWidth (inputBitWidth toRemove minOverall maxOverall : K) : K :=
  tensorClamp |inputBitWidth - toRemove| minOverall maxOverall

end BitWidth

end Brevitas
