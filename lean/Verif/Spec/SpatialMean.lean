import Verif.Spec.Tensor
import Mathlib.Algebra.BigOperators.Group.Finset.Basic
import Mathlib.Algebra.Field.Defs

/-!
# The mean of a tensor over its third and fourth dimensions

`Tensor.mean((2, 3), keepdim)`, from the PyTorch documentation.
-/

namespace Spec

open Brevitas

variable {K : Type*} [Field K]

/-- `x.mean((2, 3), keepdim)`; `none` for tensors with fewer than four dimensions. -/
def spatialMean (keepdim : Bool) (t : NdTensor K) : Option (NdTensor K) :=
  match t.shape with
  | b :: c :: h :: w :: rest =>
    let avg (i j : ℕ) (r : List ℕ) : K := (∑ y ∈ Finset.range h, ∑ x ∈ Finset.range w, t.data (i :: j :: y :: x :: r)) / ((h : K) * (w : K))
    if keepdim then some ⟨b :: c :: 1 :: 1 :: rest, fun idx => avg (idx.getD 0 0) (idx.getD 1 0) (idx.drop 4)⟩
    else some ⟨b :: c :: rest, fun idx => avg (idx.getD 0 0) (idx.getD 1 0) (idx.drop 2)⟩
  | _ => none

end Spec
