import Verif.Spec.Broadcast
import Mathlib.Algebra.Order.Field.Basic

/-!
# The elements of a tensor and of one of its channels
-/

namespace Brevitas

namespace NdTensor

variable {K : Type*}

/-- The elements of a tensor, in row-major order. -/
def elems (t : NdTensor K) : List K := (indices t.shape).map t.data

/-- The elements of a tensor whose index along dimension `d` is `c`, in row-major order. -/
def channelElems (d c : ℕ) (t : NdTensor K) : List K := ((indices t.shape).filter fun idx => idx.getD d 0 = c).map t.data

/-- The channels of a tensor along dimension `d`, as lists of elements. -/
def channels (d : ℕ) (t : NdTensor K) : List (List K) := (List.range (t.shape.getD d 0)).map fun c => t.channelElems d c

/-- The number of elements of one channel. -/
def fanIn (d : ℕ) (t : NdTensor K) : ℕ := t.shape.prod / t.shape.getD d 0

end NdTensor

/-- The result of a statistic does not depend on the order of the elements. -/
def OrderFree {K : Type*} (stat : List K → Option K) : Prop := ∀ l l' : List K, l.Perm l' → stat l = stat l'

end Brevitas

namespace Brevitas

/-- Largest absolute value in a list. -/
def maxAbs {K : Type*} [Field K] [LinearOrder K] (l : List K) : K := (l.map fun x => |x|).foldl max 0

end Brevitas
