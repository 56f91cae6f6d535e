import Verif.Spec.Int

/-!
# Expectations over independent draws: specification
-/

namespace Spec.Draws

variable {K : Type*} [Field K] [LinearOrder K] [IsStrictOrderedRing K] [FloorRing K]

/-- The expectation of `F` over independent draws that are true with the given probabilities. -/
def expect : List K → (List Bool → K) → K
  | [], F => F []
  | p :: ps, F => p * expect ps (fun d => F (true :: d)) + (1 - p) * expect ps (fun d => F (false :: d))

/-- Weighted sum. -/
def dot : List K → List K → K
  | w :: ws, x :: xs => w * x + dot ws xs
  | _, _ => 0

/-- An input within the range of the quantiser. -/
def InRange (signed narrow : Bool) (b : ℕ) (s z x : K) : Prop := (lo signed narrow b : K) ≤ x / s + z ∧ x / s + z ≤ (hi signed narrow b : K)

/-- The sum of squared weights times the variances of the elements: `s² f (1 - f)`, where `f` is the distance to the code below. -/
def variance (s z : K) : List K → List K → K
  | w :: ws, x :: xs => w ^ 2 * (s ^ 2 * (Int.fract (x / s + z) * (1 - Int.fract (x / s + z)))) + variance s z ws xs
  | _, _ => 0

end Spec.Draws
