import Verif.Spec.Network
import Mathlib.Analysis.Real.Sqrt

/-! # Batch normalisation at inference -/

namespace Brevitas.Net

/-- A batch normalisation layer with affine parameters and running statistics. -/
structure BatchNorm where
  features : ℕ
  mean : ℕ → ℝ
  var : ℕ → ℝ
  weight : ℕ → ℝ
  bias : ℕ → ℝ
  eps : ℝ

/-- Inference: `(x - mean) / sqrt(var + eps) * weight + bias`, channel by channel. -/
noncomputable def BatchNorm.eval (B : BatchNorm) (x : Signal ℝ) : Signal ℝ := fun c p =>
  if c < B.features then (x c p - B.mean c) / Real.sqrt (B.var c + B.eps) * B.weight c + B.bias c else 0

end Brevitas.Net
