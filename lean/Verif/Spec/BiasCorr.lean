import Mathlib.Algebra.Field.Defs
import Mathlib.Data.List.Basic
import Mathlib.Algebra.BigOperators.Group.List.Defs

/-!
# Specification of bias correction: means over a channel
-/

namespace Brevitas.Spec

/-- Coordinate along dimension `d` of the element at row-major position `i`. -/
def coord (shape : List ℕ) (d i : ℕ) : ℕ := i / (shape.drop (d + 1)).prod % shape.getD d 1

/-- Arithmetic mean of a list. -/
def averageOf {K : Type*} [Field K] (l : List K) : K := l.sum / (l.length : K)

/-- Mean of the elements of a tensor (shape, elements in row-major order) that belong to channel `c` of dimension `d`. -/
def channelMean {K : Type*} [Field K] (shape : List ℕ) (data : List K) (d c : ℕ) : K :=
  averageOf (((List.range data.length).filter fun i => coord shape d i = c).map fun i => data.getD i 0)

end Brevitas.Spec
