import Mathlib.Data.Real.Basic
import Mathlib.Algebra.BigOperators.Fin

/-!
# The training loss of the binary networks: `src/brevitas_examples/bnn_pynq/models/losses.py`

Predictions and targets are tensors of the same shape, here with their elements numbered; numbers are exact.
-/

namespace Brevitas.HingeLoss

/-- `output = 1. - predictions.mul(targets); output[output.le(0.)] = 0.`, losses.py:14-15 and 22-23. -/
noncomputable def margin (p t : ℝ) : ℝ :=
  let output := 1 - p * t
  if output ≤ 0 then 0 else output

/-- `squared_hinge_loss.forward`, losses.py:12-17. -/
noncomputable def forward {n : ℕ} (predictions targets : Fin n → ℝ) : ℝ := (∑ i, margin (predictions i) (targets i) * margin (predictions i) (targets i)) / n

/-- `squared_hinge_loss.backward`, losses.py:20-27: the gradient of the predictions. `copy_` overwrites the gradient that came in. -/
noncomputable def backward {n : ℕ} (gradOutput : ℝ) (predictions targets : Fin n → ℝ) : Fin n → ℝ := fun i =>
  let output := margin (predictions i) (targets i)
  let resized := gradOutput
  let copied := (fun _ : ℝ => targets i) resized
  copied * (-2) * output * (if output ≠ 0 then 1 else 0) / n

/-- Gradient descent on `f loss`, where `slope` is the derivative of `f` at the loss (1 for the loss itself): what autograd hands to the predictions, losses.py:36-37. -/
noncomputable def autograd {n : ℕ} (slope : ℝ) (predictions targets : Fin n → ℝ) : Fin n → ℝ := backward slope predictions targets

end Brevitas.HingeLoss
