import Verif.Model.LearnedGrad

/-!
# Gradients of truncation

`TruncIntQuant` (`src/brevitas/core/quant/int.py`) under autograd as in `Verif.Model.Ste`: values with the coefficient that autograd computes. Over exact reals; one element of the
tensor; no delay.
-/

namespace Brevitas.TruncGrad

open Brevitas Brevitas.LearnedGrad

/-- The choices of `float_to_int_impl`: `RoundSte` to `CeilSte`, src/brevitas/core/function_wrapper/ops_ste.py:14-76. -/
inductive Rounding
  | round
  | floor
  | roundToZero
  | dpuRound
  | ceil

/-- Their `forward` methods, ops_ste.py:22-24, 35-37, 48-50, 61-63 and 74-76. -/
def Rounding.op : Rounding → SteOp ℝ
  | .round => .round
  | .floor => .floor
  | .roundToZero => .roundToZero
  | .dpuRound => .dpuRound
  | .ceil => .ceil

/-- `TruncIntQuant.forward`, int.py:211-225: the first result. -/
noncomputable def trunc (floatToInt : Rounding) (outputBitWidth x scale zeroPoint inputBitWidth : Dual ℝ) : Dual ℝ :=
  let y := x.div scale
  let y := y.add zeroPoint
  let y := roundSte y
  let truncBitWidth := inputBitWidth.sub outputBitWidth
  let truncScale := exp2 truncBitWidth
  let y := y.div truncScale
  let y := (SteOp.py floatToInt.op).dual y
  let y := y.sub zeroPoint
  y.mul scale

end Brevitas.TruncGrad
