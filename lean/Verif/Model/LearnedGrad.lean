import Verif.Model.Ste
import Mathlib.Analysis.SpecialFunctions.Log.Base
import Mathlib.Analysis.SpecialFunctions.Pow.Real

/-!
# Gradients of learned scales and bit widths

`RescalingIntQuant` (`src/brevitas/core/quant/int.py`) with `ParameterScaling` (`src/brevitas/core/scaling/standalone.py`) and `BitWidthParameter`
(`src/brevitas/core/bit_width/parameter.py`), under autograd as in `Verif.Model.Ste`: values with the coefficient that autograd computes. Over exact reals; one element of the
tensor with the scale that it sees.
-/

namespace Brevitas.LearnedGrad

open Brevitas

/-- `2 ** x` (`PowerOfTwo`, src/brevitas/core/function_wrapper/misc.py:47-49, and in `max_int` and `min_int`) under autograd. -/
noncomputable def exp2 (a : Dual ℝ) : Dual ℝ := ⟨2 ^ a.val, 2 ^ a.val * Real.log 2 * a.der⟩

/-- `torch.log2` (`LogTwo`, misc.py:66-68) under autograd. -/
noncomputable def log2 (a : Dual ℝ) : Dual ℝ := ⟨Real.logb 2 a.val, a.der / (a.val * Real.log 2)⟩

/-- `round_ste`, src/brevitas/function/ops_ste.py:47-60. -/
noncomputable def roundSte (a : Dual ℝ) : Dual ℝ := (SteOp.py .round).dual a

/-- `abs_binary_sign_grad`, ops_ste.py:348-370. -/
noncomputable def absBinarySignGrad (a : Dual ℝ) : Dual ℝ := (SteOp.py .absBinarySignGrad).dual a

/-- `restrict_scaling_impl` of the learned scales: `FloatRestrictValue`, `LogFloatRestrictValue`, `PowerOfTwoRestrictValue` with its default rounding,
src/brevitas/core/restrict_val.py:76-181. -/
inductive Kind
  | fp
  | logFp
  | powerOfTwo

/-- The `forward` methods, src/brevitas/core/restrict_val.py:97-98, 123-125 and 178-181. -/
noncomputable def Kind.forward : Kind → Dual ℝ → Dual ℝ
  | .fp, a => a
  | .logFp, a => exp2 a
  | .powerOfTwo, a => exp2 (roundSte a)

/-- `restrict_init_module()`, restrict_val.py:87-88, 113-114 and 168-169. -/
noncomputable def Kind.init : Kind → Dual ℝ → Dual ℝ
  | .fp, a => a
  | .logFp, a => log2 a
  | .powerOfTwo, a => log2 a

/-- `clamp_min_ste` of `_RestrictClampValue`, restrict_val.py:29-32. -/
noncomputable def clampMinSte (minVal : Option ℝ) (a : Dual ℝ) : Dual ℝ :=
  match minVal with
  | none => a
  | some m => if m = 0 then a else (SteOp.py (.scalarClampMin m)).dual a

/-- `_RestrictClampValue.forward`, restrict_val.py:39-42. -/
noncomputable def restrictClamp (k : Kind) (minVal : Option ℝ) (a : Dual ℝ) : Dual ℝ := clampMinSte minVal (k.forward a)

/-- `ParameterScaling.forward`, standalone.py:160-167. -/
noncomputable def parameterScaling (k : Kind) (minVal : Option ℝ) (value threshold : Dual ℝ) : Dual ℝ :=
  let threshold := restrictClamp k minVal (k.init threshold)
  let value := absBinarySignGrad (restrictClamp k minVal value)
  value.div threshold

/-- `BitWidthParameter.forward`, parameter.py:89-92, with `IntRestrictValue`. -/
noncomputable def bitWidthParameter (base : ℝ) (offset : Dual ℝ) : Dual ℝ := roundSte ((absBinarySignGrad offset).add (.const base))

/-- `max_int`, src/brevitas/function/ops.py:152-158. -/
noncomputable def maxIntOf (signed narrow : Bool) (b : Dual ℝ) : Dual ℝ :=
  if !signed && !narrow then (exp2 b).sub (.const 1)
  else if !signed && narrow then (exp2 b).sub (.const 2)
  else (exp2 (b.sub (.const 1))).sub (.const 1)

/-- `min_int`, ops.py:183-189. -/
noncomputable def minIntOf (signed narrow : Bool) (b : Dual ℝ) : Dual ℝ :=
  if signed && narrow then (exp2 (b.sub (.const 1))).neg.add (.const 1)
  else if signed && !narrow then (exp2 (b.sub (.const 1))).neg
  else (Dual.const 0).mul b

/-- `int_scaling_impl`: `IntScaling` and `PowerOfTwoIntScaling`, src/brevitas/core/scaling/int_scaling.py:20-24 and 35-36, as chosen in src/brevitas/quant/solver/common.py:161-169. -/
noncomputable def intScalingOf (k : Kind) (signed narrow : Bool) (b : Dual ℝ) : Dual ℝ :=
  match k with
  | .powerOfTwo => (maxIntOf signed false b).add (.const 1)
  | _ => if signed then (minIntOf signed narrow b).neg else maxIntOf signed narrow b

/-- `RescalingIntQuant.forward`, int.py:151-160, with a zero point of 0 and the clamp for learned scales (`TensorClamp`, src/brevitas/quant/solver/parameter.py:59-66): the quantised
element. -/
noncomputable def quantise (k : Kind) (minVal : Option ℝ) (signed narrow : Bool) (b value x : Dual ℝ) : Dual ℝ :=
  let intThreshold := intScalingOf k signed narrow b
  let scale := parameterScaling k minVal value intThreshold
  intQuantDual .round false (minIntOf signed narrow b) (maxIntOf signed narrow b) scale (.const 0) x

/-- The gradient that one learned parameter receives from a whole tensor: sum over the elements of the gradient of the output times the coefficient
(autograd through the broadcast of the scale in src/brevitas/core/quant/int.py:151-160). -/
noncomputable def parameterGrad (coefficient : ℝ → ℝ) (xgs : List (ℝ × ℝ)) : ℝ := (xgs.map fun xg => xg.2 * coefficient xg.1).sum

end Brevitas.LearnedGrad
