import Verif.Spec.Broadcast
import Mathlib.Analysis.Real.Sqrt

/-!
# Batch normalisation of a tensor, at inference

Nothing here refers to Brevitas.
-/

namespace Brevitas.Spec

/-- Parameters and statistics of a batch norm, one entry per channel. -/
structure BnParams where
  weight : List ℝ
  bias : List ℝ
  mean : List ℝ
  var : List ℝ
  eps : ℝ

/-- What a batch norm computes of an element `x` of channel `c`. -/
noncomputable def BnParams.value (B : BnParams) (c : ℕ) (x : ℝ) : ℝ :=
  (x - B.mean.getD c 0) / Real.sqrt (B.var.getD c 0 + B.eps) * B.weight.getD c 0 + B.bias.getD c 0

/-- All four lists have `n` entries. -/
def BnParams.Features (B : BnParams) (n : ℕ) : Prop := B.weight.length = n ∧ B.bias.length = n ∧ B.mean.length = n ∧ B.var.length = n

end Brevitas.Spec
