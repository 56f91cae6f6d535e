import Verif.Model.Search
import Verif.Model.IntQuant

/-!
# Integer quantisation with stochastic rounding

`IntQuant` (`src/brevitas/core/quant/int_base.py`) with `StochasticRoundSte` (`src/brevitas/core/function_wrapper/stochastic_round.py`) on the elements of a tensor.
-/

namespace Brevitas.StochQuant

variable {K : Type*} [Field K] [LinearOrder K] [IsStrictOrderedRing K] [FloorRing K]

/-- `IntQuant.forward`, int_base.py:67-91, with `StochasticRoundSte.forward`, stochastic_round.py:43-46, as `float_to_int_impl`: one element, and the outcome of its draw. -/
def quantOne (signed narrow : Bool) (bw : ℕ) (detInference training : Bool) (s z : K) (draw : Bool) (x : K) : K :=
  IntQuantCfg.forward ⟨signed, narrow, stochasticRoundForward detInference training draw⟩ s z bw x

/-- All elements. `torch.bernoulli` (stochastic_round.py:17) draws for each. -/
def quant (signed narrow : Bool) (bw : ℕ) (detInference training : Bool) (s z : K) : List Bool → List K → List K
  | d :: ds, x :: xs => quantOne signed narrow bw detInference training s z d x :: quant signed narrow bw detInference training s z ds xs
  | _, _ => []

/-- The tensor of probabilities that is passed to `torch.bernoulli`, stochastic_round.py:15-17, for the argument of `float_to_int_impl`, int_base.py:70-74. -/
def probs (s z : K) (xs : List K) : List K := xs.map fun x => stochasticProb (x / s + z)

end Brevitas.StochQuant
