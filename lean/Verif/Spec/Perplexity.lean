import Mathlib.Analysis.SpecialFunctions.Pow.Real

/-!
# Perplexity

The inverse of the geometric mean of the probabilities that a model gives to the tokens that follow.
-/

namespace Brevitas.Perplexity

/-- The probability that logits give to a token. -/
noncomputable def Spec.probability (z : List ℝ) (token : ℕ) : ℝ := Real.exp (z.getD token 0) / (z.map Real.exp).sum

/-- The probabilities of all tokens of a window but the first: the logits at a position are for the next token. -/
noncomputable def Spec.predictions (logits : List (List ℝ)) (tokens : List ℕ) : List ℝ :=
  (List.range (tokens.length - 1)).map fun j => Spec.probability (logits.getD j []) (tokens.getD (j + 1) 0)

/-- Perplexity of probabilities. -/
noncomputable def Spec.perplexity (ps : List ℝ) : ℝ := ps.prod ^ (-(1 / (ps.length : ℝ)))

end Brevitas.Perplexity
