import Mathlib.Algebra.Field.Basic
import Mathlib.Algebra.BigOperators.Group.List.Basic

/-!
# Specification vocabulary for pooling

A tensor with any number of spatial dimensions is a function of its multi-index. Nothing here refers to the model.
-/

namespace Brevitas.Spec

variable {K : Type*} [Field K]

/-- Sum of `f` over the multi-indices of a grid given by the positions along each dimension. -/
def gridSum : List (List ℤ) → (List ℤ → K) → K
  | [], f => f []
  | l :: ls, f => (l.map fun i => gridSum ls fun is => f (i :: is)).sum

/-- Number of points of the grid. -/
def gridCount (ls : List (List ℤ)) : ℕ := (ls.map List.length).prod

/-- Average of `f` over a grid. -/
def gridMean (ls : List (List ℤ)) (f : List ℤ → K) : K := gridSum ls f / gridCount ls

/-- The positions `start, start + 1, …, stop - 1`. -/
def interval (start stop : ℤ) : List ℤ := (List.range (stop - start).toNat).map fun j : ℕ => start + j

end Brevitas.Spec
