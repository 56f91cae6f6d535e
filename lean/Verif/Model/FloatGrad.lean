import Verif.Model.Float
import Verif.Model.LearnedGrad

/-!
# Gradients of minifloat quantisers

`FloatQuant` (`src/brevitas/core/quant/float.py`) under autograd as in `Verif.Model.Ste`: values with the coefficient that autograd computes. Over exact reals; one element of the
tensor with the scale that it sees; formats that saturate.
-/

namespace Brevitas.FloatGrad

open Brevitas Brevitas.LearnedGrad

/-- `torch.abs` under autograd, in src/brevitas/utils/torch_utils.py:101: the sign of the input, 0 at 0. -/
noncomputable def absDual (a : Dual ℝ) : Dual ℝ := ⟨|a.val|, (torchSign a.val : ℤ) * a.der⟩

/-- `torch.clamp_min` with a constant bound under autograd, torch_utils.py:102: the gradient passes where the input is at least the bound. -/
noncomputable def clampMinDual (a : Dual ℝ) (m : ℝ) : Dual ℝ := if m ≤ a.val then a else .const m

/-- `float_internal_scale`, torch_utils.py:95-104, with `floor_ste`. -/
noncomputable def internalScaleDual (M : ℕ) (scaleMin : ℤ) (eps : ℝ) (x : Dual ℝ) : Dual ℝ :=
  let s := ((SteOp.py .floor).dual (log2 ((absDual x).add (.const eps)))).sub (.const M)
  let s := clampMinDual s scaleMin
  exp2 s

/-- `FloatQuant.quantize`, float.py:69-76, with a straight-through rounding `op`. -/
noncomputable def quantizeDual (op : SteOp ℝ) (M : ℕ) (scaleMin : ℤ) (eps : ℝ) (scale x : Dual ℝ) : Dual ℝ :=
  let scaledX := x.div scale
  let internalScale := internalScaleDual M scaleMin eps scaledX
  internalScale.mul (op.py.dual (scaledX.div internalScale))

/-- `FloatQuant.forward`, float.py:82-100, with the clamp of `FloatClamp.forward`, src/brevitas/core/function_wrapper/clamp.py:131-163 (`TensorClampSte` or `TensorClamp`), for a
saturating format. The bounds are constants. -/
noncomputable def floatQuantDual (op : SteOp ℝ) (clampSte : Bool) (c : FloatCfg ℝ) (scale x : Dual ℝ) : Dual ℝ :=
  let y := quantizeDual op c.M c.fpInternalScaleMin c.eps scale x
  let y := if clampSte then tensorClampSteDual y (.const c.minValue) (.const c.maxValue) else tensorClampDual y (.const c.minValue) (.const c.maxValue)
  y.mul scale

/-- The gradient that the scale of a whole tensor receives: sum over the elements of the gradient of the output times the coefficient (autograd through the broadcast in
float.py:72 and 80). -/
noncomputable def floatScaleGrad (op : SteOp ℝ) (clampSte : Bool) (c : FloatCfg ℝ) (scale : ℝ) (xgs : List (ℝ × ℝ)) : ℝ :=
  (xgs.map fun xg => xg.2 * (floatQuantDual op clampSte c ⟨scale, 1⟩ (.const xg.1)).der).sum

end Brevitas.FloatGrad
