import Verif.Spec.LearnedGrad
import Mathlib.Data.Finset.Lattice.Fold
import Mathlib.Data.Fintype.Basic

/-!
# Weights quantised with a scale from their largest magnitude: specification
-/

namespace Brevitas.Spec.MaxScale

open Brevitas.LearnedGrad Brevitas.Spec

variable {n : ℕ}

/-- The largest magnitude. -/
noncomputable def largest (w : Fin (n + 1) → ℝ) : ℝ := Finset.univ.sup' Finset.univ_nonempty fun i => |w i|

/-- The scale before the lower bound: the largest magnitude divided by the number of steps, as it is or rounded to a power of two. -/
noncomputable def plain (k : Kind) (signed narrow : Bool) (bits : ℝ) (w : Fin (n + 1) → ℝ) : ℝ :=
  match k with
  | .powerOfTwo => 2 ^ Frozen.round (Real.logb 2 (largest w / Frozen.steps k signed narrow bits))
  | _ => largest w / Frozen.steps k signed narrow bits

/-- The scale. -/
noncomputable def scale (k : Kind) (minVal : Option ℝ) (signed narrow : Bool) (bits : ℝ) (w : Fin (n + 1) → ℝ) : ℝ :=
  plain k signed narrow bits w + Frozen.lift minVal (plain k signed narrow bits w)

/-- The integer of a weight. -/
noncomputable def code (signed narrow : Bool) (bits s x : ℝ) : ℝ := max (Frozen.bottom signed narrow bits) (min (Frozen.top signed narrow bits) (Frozen.round (x / s)))

/-- 1, -1 or 0. -/
noncomputable def sgn (x : ℝ) : ℝ := if 0 < x then 1 else if x < 0 then -1 else 0

end Brevitas.Spec.MaxScale
