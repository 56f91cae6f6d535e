import Mathlib.Algebra.BigOperators.Group.List.Basic

/-!
# Row-major indexing (specification vocabulary)
-/

namespace Brevitas.Spec

/-- Multi-index `idx` is legal for a tensor of shape `shape`. -/
def InRange (shape idx : List ℕ) : Prop := List.Forall₂ (fun d i => i < d) shape idx

/-- Position of a multi-index in row-major (contiguous) order. -/
def ravel (shape idx : List ℕ) : ℕ := (List.zip shape idx).foldl (fun acc di => acc * di.1 + di.2) 0

end Brevitas.Spec
