import Verif.Model.Shape

/-!
# Groups of a tensor (specification vocabulary)

A tensor of shape `pre ++ n :: post` is grouped along the dimension of size `n`. An index of the tensor is written `ip ++ k :: iq`, with `k` its
position along the grouped dimension.
-/

namespace Brevitas.Spec

variable {K : Type*} [Field K]

/-- The element of `x` at position `k` of the grouped dimension; positions from `n` on are padding, which is zero. -/
def element (x : Tensor K) (n : ℕ) (ip : List ℕ) (k : ℕ) (iq : List ℕ) : K := if k < n then (x.at (ip ++ k :: iq)).getD 0 else 0

/-- The elements that share a group with position `k`: the block of `size` consecutive positions that contains `k`. -/
def groupOf (x : Tensor K) (n size : ℕ) (ip : List ℕ) (k : ℕ) (iq : List ℕ) : List K :=
  (List.range size).map fun j => element x n ip (k / size * size + j) iq

/-- The element of a tensor that is either a scalar or has the indexed shape. -/
def readAt (t : Tensor K) (idx : List ℕ) : Option K := if t.shape = [] then t.at [] else t.at idx

end Brevitas.Spec
