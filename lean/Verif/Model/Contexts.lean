import Mathlib.Data.Nat.Notation
import Mathlib.Logic.Function.Basic

/-!
# Context managers that switch quantisation off and on

`src/brevitas/graph/calibrate.py`, `graph/gpxq.py`, `graph/gpfq.py`. Modules are elements of a type `M`; the flags of all modules are the state.
What forward passes compute is left out: the body of a `with` statement is any change of the state.
-/

namespace Brevitas

/-- Classes of modules the loops tell apart: activation proxies (`ActQuantProxyFromInjectorBase`), accumulator proxies (`_ACC_PROXIES`),
weight and bias proxies (`_PARAM_PROXIES`), anything else. -/
inductive ModuleKind
  | act
  | acc
  | weight
  | bias
  | other
deriving DecidableEq

/-- What does not change: `sub m` is `m.modules()`, the module and everything in it; which modules have which attributes. -/
structure ModelTree (M : Type*) where
  sub : M → List M
  kind : M → ModuleKind
  hasReturn : M → Bool
  hasObserver : M → Bool
  hasSteps : M → Bool
  hasMomentum : M → Bool
  hasCounter : M → Bool

/-- Attributes of all modules. `trueAverage` is `momentum is None`. -/
structure ModelState (M : Type*) where
  training : M → Bool
  disableQuant : M → Bool
  observerOnly : M → Bool
  returnQuantTensor : M → Bool
  steps : M → ℕ
  counter : M → ℕ
  trueAverage : M → Bool

variable {M : Type*} [DecidableEq M]

namespace ModelState

/-- `module.disable_quant = b` -/
def setDisable (m : M) (b : Bool) (st : ModelState M) : ModelState M := { st with disableQuant := Function.update st.disableQuant m b }

/-- `module.observer_only = b` -/
def setObserver (m : M) (b : Bool) (st : ModelState M) : ModelState M := { st with observerOnly := Function.update st.observerOnly m b }

/-- `module.return_quant_tensor = b` -/
def setReturn (m : M) (b : Bool) (st : ModelState M) : ModelState M :=
  { st with returnQuantTensor := Function.update st.returnQuantTensor m b }

/-- `module.train(b)` -/
def train (T : ModelTree M) (b : Bool) (m : M) (st : ModelState M) : ModelState M :=
  { st with training := fun m' => if m' ∈ T.sub m then b else st.training m' }

end ModelState

open ModelState

/-- `for module in modules: …` -/
def forEach (modules : List M) (body : M → ModelState M → ModelState M) (st : ModelState M) : ModelState M :=
  modules.foldl (fun st m => body m st) st

/-- `for m in module.modules(): if hasattr(m, 'observer_only'): m.observer_only = b`, calibrate.py:203-205 and 232-234. -/
def setObservers (T : ModelTree M) (b : Bool) (module : M) : ModelState M → ModelState M :=
  forEach (T.sub module) fun m st => if T.hasObserver m then st.setObserver m b else st

/-- `disable_act_quantization`, calibrate.py:193-210. -/
def disableActQuantization (T : ModelTree M) (callActQuantizerImpl : Bool) (model : M) (isTraining : Bool) : ModelState M → ModelState M :=
  forEach (T.sub model) fun module st =>
    match T.kind module with
    | .act =>
      let st := st.train T isTraining module
      if callActQuantizerImpl then setObservers T true module st else st.setDisable module true
    | .acc => (st.train T isTraining module).setDisable module true
    | _ => st

/-- `disable_param_quantization`, calibrate.py:212-216. -/
def disableParamQuantization (T : ModelTree M) (model : M) (isTraining : Bool) : ModelState M → ModelState M :=
  forEach (T.sub model) fun module st =>
    match T.kind module with
    | .weight | .bias => (st.train T isTraining module).setDisable module true
    | _ => st

/-- `disable_bias_quantization`, calibrate.py:218-222. -/
def disableBiasQuantization (T : ModelTree M) (model : M) (isTraining : Bool) : ModelState M → ModelState M :=
  forEach (T.sub model) fun module st =>
    match T.kind module with
    | .bias => (st.train T isTraining module).setDisable module true
    | _ => st

/-- `enable_act_quantization`, calibrate.py:224-234. -/
def enableActQuantization (T : ModelTree M) (model : M) (isTraining : Bool) : ModelState M → ModelState M :=
  forEach (T.sub model) fun module st =>
    match T.kind module with
    | .acc => (st.train T isTraining module).setDisable module false
    | .act => setObservers T false module ((st.setDisable module false).train T isTraining module)
    | _ => st

/-- `enable_param_quantization`, calibrate.py:236-240. -/
def enableParamQuantization (T : ModelTree M) (model : M) (isTraining : Bool) : ModelState M → ModelState M :=
  forEach (T.sub model) fun module st =>
    match T.kind module with
    | .weight | .bias => (st.setDisable module false).train T isTraining module
    | _ => st

/-- `enable_bias_quantization`, calibrate.py:242-246. -/
def enableBiasQuantization (T : ModelTree M) (model : M) (isTraining : Bool) : ModelState M → ModelState M :=
  forEach (T.sub model) fun module st =>
    match T.kind module with
    | .bias => (st.setDisable module false).train T isTraining module
    | _ => st

/-- `disable_return_quant_tensor`, calibrate.py:50-56: the previous flags (a dictionary) and the new state. -/
def disableReturnQuantTensor (T : ModelTree M) (model : M) (st : ModelState M) : (M → Option Bool) × ModelState M :=
  (fun m => if m ∈ T.sub model ∧ T.hasReturn m = true then some (st.returnQuantTensor m) else none,
    forEach (T.sub model) (fun module st => if T.hasReturn module then st.setReturn module false else st) st)

/-- `restore_return_quant_tensor`, calibrate.py:59-62. -/
def restoreReturnQuantTensor (T : ModelTree M) (model : M) (previous : M → Option Bool) : ModelState M → ModelState M :=
  forEach (T.sub model) fun module st =>
    if T.hasReturn module then
      match previous module with
      | some b => st.setReturn module b
      | none => st
    else st

/-- `extend_collect_stats_steps` and `set_collect_stats_to_average`, calibrate.py:65-74, applied to all modules. -/
def extendCollectStats (T : ModelTree M) (model : M) (maxsize : ℕ) : ModelState M → ModelState M :=
  forEach (T.sub model) fun module st =>
    let st := if T.hasSteps module then { st with steps := Function.update st.steps module maxsize } else st
    if T.hasSteps module && T.hasMomentum module then { st with trueAverage := Function.update st.trueAverage module true } else st

/-- `finalize_collect_stats`, calibrate.py:77-82, applied to all modules. -/
def finalizeCollectStats (T : ModelTree M) (model : M) : ModelState M → ModelState M :=
  forEach (T.sub model) fun module st =>
    if T.hasSteps module && T.hasCounter module then
      { st with counter := Function.update st.counter module (max (st.steps module) (st.counter module)) }
    else st

/-- A `calibration_mode` object. -/
structure CalibrationMode (M : Type*) where
  previousTrainingState : Bool
  enabled : Bool
  returnState : M → Option Bool

/-- `calibration_mode.__init__`, calibrate.py:87-92. -/
def CalibrationMode.new (model : M) (enabled : Bool) (st : ModelState M) : CalibrationMode M := ⟨st.training model, enabled, fun _ => none⟩

/-- `calibration_mode.__enter__`, calibrate.py:94-100. -/
def CalibrationMode.enter (T : ModelTree M) (model : M) (maxsize : ℕ) (c : CalibrationMode M) (st : ModelState M) :
    CalibrationMode M × ModelState M :=
  if c.enabled then
    let st := extendCollectStats T model maxsize st
    let r := disableReturnQuantTensor T model st
    let st := disableActQuantization T true model true r.2
    ({ c with returnState := r.1 }, disableParamQuantization T model true st)
  else (c, st)

/-- `calibration_mode.__exit__`, calibrate.py:102-106. -/
def CalibrationMode.exit (T : ModelTree M) (model : M) (c : CalibrationMode M) (st : ModelState M) : ModelState M :=
  let st := finalizeCollectStats T model st
  let st := enableActQuantization T model c.previousTrainingState st
  let st := enableParamQuantization T model c.previousTrainingState st
  restoreReturnQuantTensor T model c.returnState st

/-- `with calibration_mode(model, enabled): body`. An exception in the body runs `__exit__` as well. -/
def withCalibrationMode (T : ModelTree M) (model : M) (maxsize : ℕ) (enabled : Bool) (body : ModelState M → ModelState M) (st : ModelState M) :
    ModelState M :=
  let r := (CalibrationMode.new model enabled st).enter T model maxsize st
  r.1.exit T model (body r.2)

/-- `gpxq_mode.__enter__`, graph/gpxq.py:154-160, without hooks: the saved flags and the new state. -/
def gpxqEnter (T : ModelTree M) (model : M) (useQuantActivations : Bool) (st : ModelState M) : (M → Option Bool) × ModelState M :=
  if useQuantActivations then (fun _ => none, st)
  else
    let r := disableReturnQuantTensor T model st
    let st := disableActQuantization T false model (r.2.training model) r.2
    (r.1, disableBiasQuantization T model (st.training model) st)

/-- `gpxq_mode.__exit__`, graph/gpxq.py:165-176, without hooks. -/
def gpxqExit (T : ModelTree M) (model : M) (useQuantActivations : Bool) (saved : M → Option Bool) (st : ModelState M) : ModelState M :=
  if useQuantActivations then st
  else
    let st := enableActQuantization T model (st.training model) st
    let st := enableBiasQuantization T model (st.training model) st
    restoreReturnQuantTensor T model saved st

/-- `gpfq_mode.catch_stopfwd`, graph/gpfq.py:93-116: a forward pass with GPFQ. `raises` is an exception in the pass without quantisation
(other than the one that stops it), which leaves the method at once. -/
def gpfqForward (T : ModelTree M) (model : M) (useQuantActivations raises : Bool) (st : ModelState M) : (M → Option Bool) × ModelState M :=
  let r := disableReturnQuantTensor T model st
  let st := disableParamQuantization T model false r.2
  let st := disableActQuantization T false model false st
  if raises then (r.1, st)
  else
    let st := enableParamQuantization T model false st
    let st := if useQuantActivations then enableActQuantization T model false st else disableBiasQuantization T model false st
    (r.1, restoreReturnQuantTensor T model r.1 st)

/-- `with gptq_mode(model, use_quant_activations): body`; forward passes with GPTQ (graph/gptq.py:82-96) change no flag. -/
def withGptqMode (T : ModelTree M) (model : M) (useQuantActivations : Bool) (body : ModelState M → ModelState M) (st : ModelState M) :
    ModelState M :=
  let r := gpxqEnter T model useQuantActivations st
  gpxqExit T model useQuantActivations r.1 (body r.2)

/-- `with gpfq_mode(model, use_quant_activations):` followed by forward passes, of which the last may raise. The object has one attribute for
saved flags, which every forward pass overwrites. -/
def withGpfqMode (T : ModelTree M) (model : M) (useQuantActivations : Bool) (passes : List Bool) (st : ModelState M) : ModelState M :=
  let r := passes.foldl (fun r raises => gpfqForward T model useQuantActivations raises r.2) (gpxqEnter T model useQuantActivations st)
  gpxqExit T model useQuantActivations r.1 r.2

end Brevitas
