import Verif.Spec.Broadcast

/-!
# Slices of a tensor

Nothing here refers to Brevitas: Python's `t[a0:b0, a1:b1, …]` for a list with an entry per dimension, `None` or a missing entry selecting a whole dimension.
-/

namespace Brevitas

namespace SubTensor

open NdTensor

/-- The positions along a dimension of size `n` that `a:b` selects: those from `a` on and before `b`, where a negative bound is counted from the end. -/
def selected (n : ℕ) : Option (ℤ × ℤ) → List ℕ
  | none => List.range n
  | some (a, b) => (List.range n).filter fun i => decide ((if a < 0 then a + n else a) ≤ i ∧ (i : ℤ) < if b < 0 then b + n else b)

/-- `u` is the slice of `t`: as many dimensions, as long along each as there are positions selected, and element `idx` of `u` is the element of `t` at the selected
positions. -/
structure IsSlice {K : Type*} (sl : List (Option (ℤ × ℤ))) (t u : NdTensor K) : Prop where
  rank : u.shape.length = t.shape.length
  size : ∀ d < t.shape.length, u.shape.getD d 0 = (selected (t.shape.getD d 0) (sl.getD d none)).length
  data : ∀ idx src, InBounds u.shape idx → src.length = t.shape.length →
    (∀ d < t.shape.length, src.getD d 0 = (selected (t.shape.getD d 0) (sl.getD d none)).getD (idx.getD d 0) 0) → u.data idx = t.data src

/-- A slice that takes whole every dimension along which a tensor of shape `s`, broadcast to rank `r`, varies. -/
def KeepsWhole (r : ℕ) (s : List ℕ) (sl : List (Option (ℤ × ℤ))) : Prop :=
  ∀ d < s.length, s.getD d 0 ≠ 1 → sl.getD (r - s.length + d) none = none

/-- Two tensors that cannot be told apart: same shape, same elements. -/
def SameTensor {K : Type*} (t u : NdTensor K) : Prop := t.shape = u.shape ∧ ∀ idx, InBounds t.shape idx → t.data idx = u.data idx

end SubTensor

end Brevitas
