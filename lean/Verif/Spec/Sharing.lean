import Verif.Spec.Broadcast
import Verif.Spec.Channel

/-!
# Which elements of an input share a scale
-/

namespace Brevitas.Spec

open NdTensor

/-- One scale for the tensor, for every row (along the last dimension), or for every column of a batch of matrices (along the dimension in the middle). -/
inductive Sharing where
  | tensor
  | row
  | column
  deriving DecidableEq

variable {K : Type*}

/-- The elements that share the scale of the element at `idx`. -/
def Sharing.mates (g : Sharing) (x : NdTensor K) (idx : List ℕ) : List K :=
  match g with
  | .tensor => x.elems
  | .row => (List.range (x.shape.getLastD 0)).map fun j => x.data (idx.dropLast ++ [j])
  | .column => (List.range (x.shape.getD 1 0)).map fun j => x.data (idx.set 1 j)

/-- The shape of the scale of an input of shape `s`: the dimension along which it is shared becomes 1. -/
def Sharing.shape (g : Sharing) (s : List ℕ) : List ℕ :=
  match g with
  | .tensor => []
  | .row => s.dropLast ++ [1]
  | .column => s.set 1 1

/-- Inputs that have scales: no dimension is empty, there are rows, and matrices come in one batch. -/
def Sharing.Applies (g : Sharing) (s : List ℕ) : Prop :=
  s.prod ≠ 0 ∧ match g with
    | .tensor => True
    | .row => s ≠ []
    | .column => s.length = 3

end Brevitas.Spec
