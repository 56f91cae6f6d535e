import Verif.Model.FloatGrad
import Mathlib.Algebra.BigOperators.Group.Finset.Basic
import Mathlib.Data.Finset.Max
import Mathlib.Data.Finset.Lattice.Fold
import Mathlib.Data.Fintype.Basic

/-!
# Gradients of weights whose scale is their largest magnitude

`RescalingIntQuant` (`src/brevitas/core/quant/int.py`) with `StatsFromParameterScaling` (`src/brevitas/core/scaling/runtime.py`) and `AbsMax`
(`src/brevitas/core/stats/stats_op.py`) under autograd, as in `Verif.Model.Ste`. Over exact reals; the weights that share one scale (the tensor, or one output channel).
-/

namespace Brevitas.MaxGrad

open Brevitas Brevitas.LearnedGrad Brevitas.FloatGrad

variable {n : ℕ}

/-- `torch.max` under autograd. With a dimension the gradient goes to the index that is returned (`pick`); over the whole tensor it is shared evenly by all the largest elements
(PyTorch's documented behaviour). `AbsMax.forward`, stats_op.py:169-174, calls one or the other. -/
noncomputable def maxDual (pick : Option (Fin (n + 1))) (a : Fin (n + 1) → Dual ℝ) : Dual ℝ :=
  let m := Finset.univ.sup' Finset.univ_nonempty fun i => (a i).val
  match pick with
  | some i => ⟨m, (a i).der⟩
  | none => ⟨m, (∑ i with (a i).val = m, (a i).der) / (Finset.univ.filter fun i => (a i).val = m).card⟩

/-- `AbsMax.forward`, stats_op.py:169-174. -/
noncomputable def absMax (pick : Option (Fin (n + 1))) (w : Fin (n + 1) → Dual ℝ) : Dual ℝ := maxDual pick fun i => absDual (w i)

/-- `combine_scale_threshold` of the restrictions, src/brevitas/core/restrict_val.py:93-94, 119-120 and 174-175. -/
noncomputable def combine (k : Kind) (x threshold : Dual ℝ) : Dual ℝ :=
  match k with
  | .fp => x.div threshold
  | .logFp => x.sub threshold
  | .powerOfTwo => x.sub threshold

/-- `_StatsScaling.forward`, runtime.py:87-97, without affine rescaling. -/
noncomputable def statsScaling (k : Kind) (minVal : Option ℝ) (stats threshold : Dual ℝ) : Dual ℝ :=
  let threshold := k.init threshold
  let stats := k.init stats
  let stats := combine k stats threshold
  restrictClamp k minVal stats

/-- `RescalingIntQuant.forward`, int.py:151-160, of the weights, with a constant bit width, a zero point of 0 and the clamp for scales from statistics (`TensorClampSte`,
src/brevitas/quant/solver/parameter.py:59-67). -/
noncomputable def quantWeights (pick : Option (Fin (n + 1))) (k : Kind) (minVal : Option ℝ) (signed narrow : Bool) (bits : ℝ) (w : Fin (n + 1) → Dual ℝ) (i : Fin (n + 1)) : Dual ℝ :=
  let b := Dual.const bits
  let scale := statsScaling k minVal (absMax pick w) (intScalingOf k signed narrow b)
  intQuantDual .round true (minIntOf signed narrow b) (maxIntOf signed narrow b) scale (.const 0) (w i)

/-- The gradient of weight `j` when the quantised weights have the gradients `g` (autograd through int.py:151-160): sum over the outputs of their gradient times the coefficient of
weight `j`. -/
noncomputable def weightGrad (pick : Option (Fin (n + 1))) (k : Kind) (minVal : Option ℝ) (signed narrow : Bool) (bits : ℝ) (w g : Fin (n + 1) → ℝ) (j : Fin (n + 1)) : ℝ :=
  ∑ i, g i * (quantWeights pick k minVal signed narrow bits (fun l => ⟨w l, if l = j then 1 else 0⟩) i).der

end Brevitas.MaxGrad
