import Mathlib.Data.List.Basic
import Mathlib.Data.List.Forall2
import Mathlib.Data.Int.Notation
import Mathlib.Order.Basic
import Mathlib.Algebra.Order.Group.Unbundled.Int
import Verif.Spec.Fx

/-!
# Tensors with a shape, and concatenation along a dimension
-/

namespace Brevitas

/-- A tensor: its shape, and a value for every multi-index. -/
structure NdTensor (K : Type*) where
  shape : List ℕ
  data : List ℕ → K

namespace NdTensor

variable {K : Type*} [Zero K]

/-- A multi-index inside a shape. -/
def InBounds (shape idx : List ℕ) : Prop := List.Forall₂ (· < ·) idx shape

instance (shape idx : List ℕ) : Decidable (InBounds shape idx) := by
  unfold InBounds
  infer_instance

/-- A dimension counted from the end when negative, `none` when out of range. -/
def dimOf (rank : ℕ) (d : ℤ) : Option ℕ :=
  if 0 ≤ d then (if d < rank then some d.toNat else none)
  else if 0 ≤ d + rank then some (d + rank).toNat
  else none

/-- Length along a dimension. -/
def size (k : ℕ) (t : NdTensor K) : ℕ := t.shape.getD k 0

/-- The value at position `j` along dimension `k` (other coordinates from `idx`) of tensors laid one after the other. -/
def pick (k : ℕ) : List (NdTensor K) → List ℕ → ℕ → K
  | [], _, _ => 0
  | t :: ts, idx, j => if j < t.size k then t.data (idx.set k j) else pick k ts idx (j - t.size k)

/-- Concatenation along a dimension.  `none` is an exception: no operand, dimension out of range, or shapes that differ
in another dimension.  Values outside the shape are zero. -/
def cat (d : ℤ) (ts : List (NdTensor K)) : Option (NdTensor K) :=
  match ts with
  | [] => none
  | t :: _ =>
    match dimOf t.shape.length d with
    | none => none
    | some k =>
      if ∀ u ∈ ts, u.shape.set k 0 = t.shape.set k 0 then
        let shape := t.shape.set k ((ts.map (size k)).sum)
        some ⟨shape, fun idx => if InBounds shape idx then pick k ts idx (idx.getD k 0) else 0⟩
      else none

end NdTensor

/-- The tensors of a list of arguments; `none` if one of them is not a tensor or is itself an exception. -/
def tensorList {K : Type*} : List (Fx.Arg (Option (NdTensor K))) → Option (List (NdTensor K))
  | [] => some []
  | .ref (some t) :: as => (tensorList as).map (t :: ·)
  | _ => none

/-- The operation `torch.cat(tensors=[...], dim=d)` on evaluated arguments. -/
def catOp {K : Type*} [Zero K] (d : ℤ) : List (Fx.Arg (Option (NdTensor K))) → Option (NdTensor K)
  | [.seq as] => (tensorList as).bind (NdTensor.cat d)
  | _ => none

end Brevitas
