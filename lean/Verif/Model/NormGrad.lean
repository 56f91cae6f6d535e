import Verif.Model.LearnedGrad
import Verif.Model.WeightNorm
import Mathlib.Algebra.BigOperators.Fin

/-!
# Gradients of weight-normalised quantisers

`WeightNormPerChannelFloatDecoupled` (`src/brevitas/quant/base.py`) under autograd as in `Verif.Model.Ste`, for the weights of one output channel. Over exact reals.
-/

namespace Brevitas.NormGrad

open Brevitas Brevitas.LearnedGrad

variable {n : ℕ}

/-- `L1Norm` and `L2Norm`, src/brevitas/core/stats/stats_op.py:418 and 436, under autograd: the gradient of the first is the sign of the weight, that of the second the weight divided
by the norm. -/
noncomputable def normDual (norm : WeightNorm.Norm) (w : Fin n → Dual ℝ) : Dual ℝ :=
  match norm with
  | .l1 => ⟨∑ i, |(w i).val|, ∑ i, (torchSign (w i).val : ℤ) * (w i).der⟩
  | .l2 => ⟨√(∑ i, (w i).val ^ 2), (∑ i, (w i).val * (w i).der) / √(∑ i, (w i).val ^ 2)⟩

/-- `ParameterPreScalingWeightNorm.forward`, src/brevitas/core/scaling/pre_scaling.py:95-102. -/
noncomputable def preScaling (norm : WeightNorm.Norm) (s g : Dual ℝ) (w : Fin n → Dual ℝ) : Dual ℝ :=
  let dw := normDual norm w
  let g := absBinarySignGrad g
  (s.mul dw).div g

/-- `DecoupledIntQuant.forward`, src/brevitas/core/quant/int_base.py:143-176, in `DecoupledRescalingIntQuant.forward`, src/brevitas/core/quant/int.py:185-197, as set up by base.py:394-444:
zero points 0, rounding to nearest, `TensorClamp`, narrow signed range of a constant bit width. -/
noncomputable def quantWeights (norm : WeightNorm.Norm) (bits : ℝ) (s g : Dual ℝ) (w : Fin n → Dual ℝ) (i : Fin n) : Dual ℝ :=
  let preScale := (preScaling norm s g w).div (.const 1)
  let y := (w i).div preScale
  let y := y.add (.const 0)
  let y := roundSte y
  let y := tensorClampDual y (minIntOf true true (.const bits)) (maxIntOf true true (.const bits))
  let y := y.sub (.const 0)
  y.mul s

/-- The gradient of weight `j` when the quantised weights have the gradients `u` (autograd through int.py:185-197): sum over the outputs of their gradient times the coefficient of
weight `j`. -/
noncomputable def weightGrad (norm : WeightNorm.Norm) (bits s g : ℝ) (w u : Fin n → ℝ) (j : Fin n) : ℝ :=
  ∑ i, u i * (quantWeights norm bits (.const s) (.const g) (fun l => ⟨w l, if l = j then 1 else 0⟩) i).der

/-- The gradient of the learned norm. -/
noncomputable def normGrad (norm : WeightNorm.Norm) (bits s g : ℝ) (w u : Fin n → ℝ) : ℝ :=
  ∑ i, u i * (quantWeights norm bits (.const s) ⟨g, 1⟩ (fun l => .const (w l)) i).der

end Brevitas.NormGrad
