import Mathlib.Algebra.Order.Field.Basic

/-!
# Specification vocabulary for linear layers
-/

namespace Brevitas.Spec

/-- The integer dot product of two code vectors. -/
def dot (ns ms : List ℤ) : ℤ := (List.zipWith (· * ·) ns ms).sum

end Brevitas.Spec
