import Verif.Model.NormGrad

/-!
# Gradients of weight-normalised quantisers: specification
-/

namespace Brevitas.Spec.NormGrad

open Brevitas

variable {n : ℕ}

/-- The norm of a channel. -/
noncomputable def size (norm : WeightNorm.Norm) (w : Fin n → ℝ) : ℝ :=
  match norm with
  | .l1 => ∑ i, |w i|
  | .l2 => √(∑ i, w i * w i)

/-- The slope of the norm in weight `j`. -/
noncomputable def slope (norm : WeightNorm.Norm) (w : Fin n → ℝ) (j : Fin n) : ℝ :=
  match norm with
  | .l1 => if w j < 0 then -1 else if 0 < w j then 1 else 0
  | .l2 => w j / size .l2 w

/-- The weight, normalised to norm `|g|`, in steps. -/
noncomputable def steps (norm : WeightNorm.Norm) (s g : ℝ) (w : Fin n → ℝ) (i : Fin n) : ℝ := |g| * w i / size norm w / s

/-- Is the weight not clipped? -/
def Inside (norm : WeightNorm.Norm) (bits s g : ℝ) (w : Fin n → ℝ) (i : Fin n) : Prop := |((torchRound (steps norm s g w i) : ℤ) : ℝ)| ≤ 2 ^ (bits - 1) - 1

/-- 1 or -1. -/
noncomputable def sign (g : ℝ) : ℝ := if 0 ≤ g then 1 else -1

end Brevitas.Spec.NormGrad
